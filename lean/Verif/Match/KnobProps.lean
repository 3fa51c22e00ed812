import Verif.Match.Knobs

/-!
# Knobs made by matching: properties (C125)
-/

namespace Verif.Match

/-- Each auxiliary variable which occurs in an expression exists, and occurs once. -/
def Ok (E : Env) : Prop := ∀ v, (E.terms v).Nodup ∧ ∀ k ∈ E.terms v, (E.aux (v, k)).isSome

/-- The expressions of the user do not contain the variable `k`. -/
def Unused (E : Env) (k : String) : Prop := ∀ v (f g : String → ℝ), (∀ j, j ≠ k → f j = g j) → E.base v f = E.base v g

theorem ok_setAux {E : Env} (h : Ok E) (v k : String) (a : Aux) : Ok (setAux E v k a) := by
  intro w
  refine ⟨(h w).1, fun j hj => ?_⟩
  show ((if (w, j) = (v, k) then some a else E.aux (w, j)) : Option Aux).isSome
  split
  · rfl
  · exact (h w).2 j hj

theorem ok_prepare1 {E : Env} (h : Ok E) (k v : String) : Ok (prepare1 k E v) := by
  unfold prepare1
  split
  · exact ok_setAux h _ _ _
  · next hc =>
    have hn : k ∉ E.terms v := fun hk => hc ⟨(h v).2 k hk, hk⟩
    have h' := ok_setAux h v k (.num 0)
    intro w
    by_cases hw : w = v
    · subst hw
      have e : (addTerm (setAux E w k (.num 0)) w k).terms w = E.terms w ++ [k] := by simp [addTerm, setAux]
      rw [e]
      refine ⟨List.nodup_append.mpr ⟨(h w).1, by simp, ?_⟩, ?_⟩
      · intro a ha b hb
        rw [List.mem_singleton] at hb
        subst hb
        exact fun he => hn (he ▸ ha)
      · intro j hj
        rcases List.mem_append.mp hj with hj | hj
        · exact (h' w).2 j hj
        · rw [List.mem_singleton] at hj
          subst hj
          show ((if (w, j) = (w, j) then some (Aux.num 0) else E.aux (w, j)) : Option Aux).isSome
          simp
    · have e : (addTerm (setAux E v k (.num 0)) v k).terms w = E.terms w := by simp [addTerm, setAux, hw]
      rw [e]
      exact h' w

theorem ok_prepare (k : String) : ∀ (vary : List String) {E : Env}, Ok E → Ok (prepare k vary E)
  | [], _, h => h
  | v :: l, _, h => ok_prepare k l (ok_prepare1 h k v)

theorem ok_solved (k : String) (sol : String → ℝ) : ∀ (vary : List String) {E : Env}, Ok E → Ok (solved k sol vary E)
  | [], _, h => h
  | v :: l, _, h => ok_solved k sol l (ok_setAux h v k _)

theorem ok_gen (k : String) (k0 k1 : ℝ) : ∀ (vary : List String) {E : Env}, Ok E → Ok (vary.foldl (generate1 k k0 k1) E)
  | [], _, h => h
  | v :: l, _, h => ok_gen k k0 k1 l (ok_setAux h v k _)

/-- All histories lead to environments in which the auxiliary variables of the expressions exist and occur once. -/
theorem ok_step {E : Env} (h : Ok E) (o : Op) : Ok (step E o) := by
  cases o with
  | setKnob k x => exact h
  | assign v f =>
    intro w
    show ((if w = v then [] else E.terms w) : List String).Nodup ∧ ∀ k ∈ ((if w = v then [] else E.terms w) : List String), (E.aux (w, k)).isSome
    split
    · exact ⟨List.nodup_nil, by simp⟩
    · exact h w
  | prepare k vary => exact ok_prepare k vary h
  | solved k sol vary => exact ok_solved k sol vary h
  | generate k k0 k1 vary => exact ok_gen k k0 k1 vary (E := setKnob E k k1) h

/-! ## The parts of the state after each function -/

theorem prepare1_spec (k : String) {E : Env} (h : Ok E) (v : String) :
    (prepare1 k E v).knob = E.knob ∧ (prepare1 k E v).base = E.base
      ∧ (∀ w j, (prepare1 k E v).aux (w, j) = if w = v ∧ j = k then some (.num 0) else E.aux (w, j))
      ∧ (∀ w, (prepare1 k E v).terms w = if w = v ∧ k ∉ E.terms w then E.terms w ++ [k] else E.terms w) := by
  unfold prepare1
  split
  · next hc =>
    refine ⟨rfl, rfl, fun w j => by simp [setAux], fun w => ?_⟩
    rw [if_neg]
    · rfl
    · rintro ⟨rfl, hn⟩
      exact hn hc.2
  · next hc =>
    refine ⟨rfl, rfl, fun w j => by simp [setAux, addTerm], fun w => ?_⟩
    have hn : k ∉ E.terms v := fun hk => hc ⟨(h v).2 k hk, hk⟩
    by_cases hw : w = v
    · subst hw
      simp [addTerm, setAux, hn]
    · simp [addTerm, setAux, hw]

theorem prepare_spec (k : String) : ∀ (vary : List String) {E : Env}, Ok E →
    (prepare k vary E).knob = E.knob ∧ (prepare k vary E).base = E.base
      ∧ (∀ w j, (prepare k vary E).aux (w, j) = if w ∈ vary ∧ j = k then some (.num 0) else E.aux (w, j))
      ∧ (∀ w, (prepare k vary E).terms w = if w ∈ vary ∧ k ∉ E.terms w then E.terms w ++ [k] else E.terms w)
  | [], E, _ => ⟨rfl, rfl, fun w j => by simp [prepare], fun w => by simp [prepare]⟩
  | v :: l, E, h => by
    obtain ⟨a1, a2, a3, a4⟩ := prepare1_spec k h v
    obtain ⟨b1, b2, b3, b4⟩ := prepare_spec k l (ok_prepare1 h k v)
    have e : prepare k (v :: l) E = prepare k l (prepare1 k E v) := rfl
    rw [e]
    refine ⟨b1.trans a1, b2.trans a2, fun w j => ?_, fun w => ?_⟩
    · rw [b3, a3]
      simp only [List.mem_cons]
      by_cases h1 : w ∈ l <;> by_cases h2 : w = v <;> by_cases h3 : j = k <;> simp [h1, h2, h3]
    · rw [b4, a4]
      simp only [List.mem_cons]
      by_cases h1 : w ∈ l <;> by_cases h2 : w = v <;> by_cases h3 : k ∈ E.terms w <;> simp_all

theorem solved_spec (k : String) (sol : String → ℝ) : ∀ (vary : List String) (E : Env),
    (solved k sol vary E).knob = E.knob ∧ (solved k sol vary E).base = E.base ∧ (solved k sol vary E).terms = E.terms
      ∧ (∀ w j, (solved k sol vary E).aux (w, j) = if w ∈ vary ∧ j = k then some (.num (sol w)) else E.aux (w, j))
  | [], E => ⟨rfl, rfl, rfl, fun w j => by simp [solved]⟩
  | v :: l, E => by
    obtain ⟨b1, b2, b3, b4⟩ := solved_spec k sol l (setAux E v k (.num (sol v)))
    have e : solved k sol (v :: l) E = solved k sol l (setAux E v k (.num (sol v))) := rfl
    rw [e]
    refine ⟨b1, b2, b3, fun w j => ?_⟩
    rw [b4]
    simp only [List.mem_cons]
    by_cases h1 : w ∈ l <;> by_cases h2 : w = v <;> by_cases h3 : j = k <;> simp [setAux, h1, h2, h3]

/-- The expression which `generate_knob` makes of the value `x`. -/
noncomputable def ramp (k0 k1 x : ℝ) : Aux := .lin (x / (k1 - k0)) (if k0 ≠ 0 then x / (k1 - k0) * k0 else 0)

theorem gen_spec (k : String) {k0 k1 : ℝ} (h01 : k1 ≠ k0) : ∀ (vary : List String) (E : Env), E.knob k = k1 →
    (vary.foldl (generate1 k k0 k1) E).knob = E.knob ∧ (vary.foldl (generate1 k k0 k1) E).base = E.base ∧ (vary.foldl (generate1 k k0 k1) E).terms = E.terms
      ∧ (∀ w j, (vary.foldl (generate1 k k0 k1) E).aux (w, j) = if w ∈ vary ∧ j = k then some (ramp k0 k1 (auxVal E w k)) else E.aux (w, j))
  | [], E, _ => ⟨rfl, rfl, rfl, fun w j => by simp⟩
  | v :: l, E, hk => by
    obtain ⟨b1, b2, b3, b4⟩ := gen_spec k h01 l (generate1 k k0 k1 E v) hk
    rw [List.foldl_cons]
    refine ⟨b1, b2, b3, fun w j => ?_⟩
    have hself : auxVal (generate1 k k0 k1 E v) v k = auxVal E v k := by
      have hne : k1 - k0 ≠ 0 := sub_ne_zero.mpr h01
      have e : (generate1 k k0 k1 E v).aux (v, k) = some (ramp k0 k1 (auxVal E v k)) := by simp [generate1, setAux, ramp]
      have ek : (generate1 k k0 k1 E v).knob k = k1 := hk
      conv_lhs => unfold auxVal
      rw [e]
      simp only [ramp, ek]
      by_cases h0 : k0 = 0
      · subst h0; simp at hne ⊢; field_simp
      · simp only [ne_eq, h0, not_false_eq_true, if_true]; field_simp
    have hoth : w ≠ v → auxVal (generate1 k k0 k1 E v) w k = auxVal E w k := fun hw => by
      unfold auxVal
      have e : (generate1 k k0 k1 E v).aux (w, k) = E.aux (w, k) := by simp [generate1, setAux, hw]
      rw [e]
      rfl
    rw [b4]
    simp only [List.mem_cons]
    by_cases h2 : w = v
    · subst h2
      rw [hself]
      by_cases h1 : w ∈ l <;> by_cases h3 : j = k <;> simp [generate1, setAux, ramp, h1, h3]
    · rw [hoth h2]
      by_cases h1 : w ∈ l <;> by_cases h3 : j = k <;> simp [generate1, setAux, h1, h2, h3]

theorem auxVal_ramp {E : Env} {v k : String} {k0 k1 x : ℝ} (h : E.aux (v, k) = some (ramp k0 k1 x)) : auxVal E v k = x * (E.knob k - k0) / (k1 - k0) := by
  unfold auxVal
  rw [h]
  simp only [ramp]
  by_cases h0 : k0 = 0
  · subst h0; simp; ring
  · simp only [ne_eq, h0, not_false_eq_true, if_true]; ring

/-- The variables of `E` with the auxiliary ones of the knob `k` at zero for the variables in `vary`: what the matching starts from. -/
theorem value_prepare (k : String) (vary : List String) {E : Env} (h : Ok E) (v : String) :
    value (prepare k vary E) v = value E v - if v ∈ vary ∧ k ∈ E.terms v then auxVal E v k else 0 := by
  obtain ⟨a1, a2, a3, a4⟩ := prepare_spec k vary h
  have hoth : ∀ j ∈ E.terms v, j ≠ k → auxVal (prepare k vary E) v j = auxVal E v j := fun j _ hj => by
    unfold auxVal
    rw [a3, a1, if_neg fun hh => hj hh.2]
  have hk : v ∈ vary → auxVal (prepare k vary E) v k = 0 := fun hv => by
    unfold auxVal
    rw [a3, if_pos ⟨hv, rfl⟩]
  have hnk : v ∉ vary → auxVal (prepare k vary E) v k = auxVal E v k := fun hv => by
    unfold auxVal
    rw [a3, a1, if_neg fun hh => hv hh.1]
  unfold value
  rw [a2, a1, a4]
  by_cases hv : v ∈ vary
  · by_cases ht : k ∈ E.terms v
    · rw [if_neg (by simp [ht]), if_pos ⟨hv, ht⟩]
      have key : ∀ l : List String, l.Nodup → (∀ j ∈ l, j ∈ E.terms v) → k ∈ l →
          (l.map (auxVal (prepare k vary E) v)).sum = (l.map (auxVal E v)).sum - auxVal E v k := by
        intro l
        induction l with
        | nil => intro _ _ hc; simp at hc
        | cons j l ih =>
          intro hn hs hm
          rw [List.nodup_cons] at hn
          rw [List.map_cons, List.map_cons, List.sum_cons, List.sum_cons]
          by_cases hj : j = k
          · subst hj
            rw [hk hv]
            have : l.map (auxVal (prepare j vary E) v) = l.map (auxVal E v) := by
              apply List.map_congr_left
              intro i hi
              exact hoth i (hs i (List.mem_cons_of_mem _ hi)) fun he => hn.1 (he ▸ hi)
            rw [this]
            ring
          · rw [hoth j (hs j List.mem_cons_self) hj, ih hn.2 (fun i hi => hs i (List.mem_cons_of_mem _ hi)) (by
              rcases List.mem_cons.mp hm with h' | h'
              · exact absurd h'.symm hj
              · exact h')]
            ring
      rw [key _ (h v).1 (fun _ hj => hj) ht]
      ring
    · rw [if_pos ⟨hv, ht⟩, if_neg (fun hh => ht hh.2), List.map_append, List.sum_append]
      have : (E.terms v).map (auxVal (prepare k vary E) v) = (E.terms v).map (auxVal E v) := by
        apply List.map_congr_left
        intro i hi
        exact hoth i hi fun he => ht (he ▸ hi)
      rw [this]
      simp [hk hv]
  · rw [if_neg (fun hh => hv hh.1), if_neg (fun hh => hv hh.1)]
    have : (E.terms v).map (auxVal (prepare k vary E) v) = (E.terms v).map (auxVal E v) := by
      apply List.map_congr_left
      intro i hi
      by_cases hik : i = k
      · rw [hik]; exact hnk hv
      · exact hoth i hi hik
    rw [this]
    ring

/-- Sum over a list without repetitions when one term changes. -/
theorem sum_change {f g : String → ℝ} {k : String} {x : ℝ} : ∀ l : List String, l.Nodup → k ∈ l → (∀ j ∈ l, j ≠ k → f j = g j) → f k = g k + x →
    (l.map f).sum = (l.map g).sum + x
  | [], _, hm, _, _ => by simp at hm
  | j :: l, hn, hm, ho, hx => by
    rw [List.nodup_cons] at hn
    rw [List.map_cons, List.map_cons, List.sum_cons, List.sum_cons]
    by_cases hj : j = k
    · subst hj
      have : l.map f = l.map g := by
        apply List.map_congr_left
        intro i hi
        exact ho i (List.mem_cons_of_mem _ hi) fun he => hn.1 (he ▸ hi)
      rw [this, hx]
      ring
    · rw [ho j List.mem_cons_self hj, sum_change l hn.2 (by
        rcases List.mem_cons.mp hm with h' | h'
        · exact absurd h'.symm hj
        · exact h') (fun i hi => ho i (List.mem_cons_of_mem _ hi)) hx]
      ring

theorem mem_terms_prepare (k : String) (vary : List String) {E : Env} (h : Ok E) {v : String} (hv : v ∈ vary) : k ∈ (prepare k vary E).terms v := by
  rw [(prepare_spec k vary h).2.2.2 v]
  by_cases ht : k ∈ E.terms v
  · rw [if_neg (by simp [ht])]; exact ht
  · rw [if_pos ⟨hv, ht⟩]; simp

/-- The state which the solver found: each variable of `vary` is changed by the solution. -/
theorem value_solved (k : String) (sol : String → ℝ) (vary : List String) {E : Env} (h : Ok E) (v : String) :
    value (solved k sol vary (prepare k vary E)) v = value (prepare k vary E) v + if v ∈ vary then sol v else 0 := by
  obtain ⟨b1, b2, b3, b4⟩ := solved_spec k sol vary (prepare k vary E)
  obtain ⟨a1, a2, a3, a4⟩ := prepare_spec k vary h
  unfold value
  rw [b1, b2, b3]
  by_cases hv : v ∈ vary
  · rw [if_pos hv, add_assoc]
    congr 1
    apply sum_change (k := k) _ (ok_prepare k vary h v).1 (mem_terms_prepare k vary h hv)
    · intro j _ hj
      unfold auxVal
      rw [b4, b1, if_neg fun hh => hj hh.2]
    · unfold auxVal
      rw [b4, if_pos ⟨hv, rfl⟩, a3, if_pos ⟨hv, rfl⟩]
      simp
  · rw [if_neg hv, add_zero]
    congr 2
    apply List.map_congr_left
    intro j _
    unfold auxVal
    rw [b4, b1, if_neg fun hh => hv hh.1]

/-- **C125, values.**  With the knob at `K`, every variable has the value which it had before the solver started, with the knob at `K`, plus the solution times
`(K - k0) / (k1 - k0)`.  The environment is any, with other knobs and expressions, and the knob may exist before. -/
theorem C125_values (k : String) {k0 k1 : ℝ} (h01 : k1 ≠ k0) (vary : List String) (sol : String → ℝ) {E : Env} (h : Ok E) (K : ℝ) (v : String) :
    value (setKnob (matchKnob k k0 k1 vary sol E) k K) v
      = value (setKnob (prepare k vary E) k K) v + if v ∈ vary then sol v * ((K - k0) / (k1 - k0)) else 0 := by
  obtain ⟨a1, a2, a3, a4⟩ := prepare_spec k vary h
  obtain ⟨b1, b2, b3, b4⟩ := solved_spec k sol vary (prepare k vary E)
  obtain ⟨c1, c2, c3, c4⟩ := gen_spec k h01 vary (setKnob (solved k sol vary (prepare k vary E)) k k1) (by simp [setKnob])
  set G := vary.foldl (generate1 k k0 k1) (setKnob (solved k sol vary (prepare k vary E)) k k1) with hG
  have eknob : (setKnob (matchKnob k k0 k1 vary sol E) k K).knob = (setKnob (prepare k vary E) k K).knob := by
    funext j
    show (if j = k then K else if j = k then k0 else G.knob j) = if j = k then K else (prepare k vary E).knob j
    by_cases hj : j = k
    · simp [hj]
    · rw [if_neg hj, if_neg hj, if_neg hj, c1]
      show (if j = k then k1 else (solved k sol vary (prepare k vary E)).knob j) = _
      rw [if_neg hj, b1]
  have ebase : (setKnob (matchKnob k k0 k1 vary sol E) k K).base = (setKnob (prepare k vary E) k K).base := by
    show G.base = (prepare k vary E).base
    rw [c2]; exact b2
  have eterms : (setKnob (matchKnob k k0 k1 vary sol E) k K).terms = (setKnob (prepare k vary E) k K).terms := by
    show G.terms = (prepare k vary E).terms
    rw [c3]; exact b3
  have eaux : ∀ w j, (setKnob (matchKnob k k0 k1 vary sol E) k K).aux (w, j)
      = if w ∈ vary ∧ j = k then some (ramp k0 k1 (sol w)) else (prepare k vary E).aux (w, j) := by
    intro w j
    show G.aux (w, j) = _
    rw [c4]
    by_cases hw : w ∈ vary ∧ j = k
    · rw [if_pos hw, if_pos hw]
      congr 2
      have : (setKnob (solved k sol vary (prepare k vary E)) k k1).aux (w, k) = some (.num (sol w)) := by
        show (solved k sol vary (prepare k vary E)).aux (w, k) = _
        rw [b4, if_pos ⟨hw.1, rfl⟩]
      unfold auxVal
      rw [this]
    · rw [if_neg hw, if_neg hw]
      show (solved k sol vary (prepare k vary E)).aux (w, j) = _
      rw [b4, if_neg hw]
  unfold value
  rw [eknob, ebase, eterms]
  by_cases hv : v ∈ vary
  · rw [if_pos hv, add_assoc]
    congr 1
    apply sum_change (k := k) _ (ok_prepare k vary h v).1 (mem_terms_prepare k vary h hv)
    · intro j _ hj
      unfold auxVal
      rw [eaux, eknob, if_neg fun hh => hj hh.2]
      rfl
    · rw [auxVal_ramp (by rw [eaux, if_pos ⟨hv, rfl⟩])]
      have : auxVal (setKnob (prepare k vary E) k K) v k = 0 := by
        unfold auxVal
        have : (setKnob (prepare k vary E) k K).aux (v, k) = some (.num 0) := by
          show (prepare k vary E).aux (v, k) = _
          rw [a3, if_pos ⟨hv, rfl⟩]
        rw [this]
      rw [this, eknob]
      simp only [setKnob, if_true]
      ring
  · rw [if_neg hv, add_zero]
    congr 2
    apply List.map_congr_left
    intro j _
    unfold auxVal
    rw [eaux, eknob, if_neg fun hh => hv hh.1]
    rfl

/-- The knob is left at its first value. -/
theorem C125_left (k : String) (k0 k1 : ℝ) (vary : List String) (sol : String → ℝ) (E : Env) : (matchKnob k k0 k1 vary sol E).knob k = k0 := by
  simp [matchKnob, generate, setKnob]

/-- Setting a knob on which no expression of the user and no auxiliary variable outside of `vary` depends does not change what the solver started from. -/
theorem prepare_indep (k : String) (vary : List String) {E : Env} (h : Ok E) (hu : Unused E k) (hd : ∀ v, k ∈ E.terms v → v ∈ vary) (K : ℝ) (v : String) :
    value (setKnob (prepare k vary E) k K) v = value (prepare k vary E) v := by
  obtain ⟨a1, a2, a3, a4⟩ := prepare_spec k vary h
  unfold value
  have eb : (setKnob (prepare k vary E) k K).base v (setKnob (prepare k vary E) k K).knob = (prepare k vary E).base v (prepare k vary E).knob := by
    show (prepare k vary E).base v _ = _
    rw [a2]
    exact hu v _ _ fun j hj => by simp [setKnob, hj]
  rw [eb]
  congr 2
  apply List.map_congr_left
  intro j hj
  have hj' : j ∈ (prepare k vary E).terms v := hj
  unfold auxVal
  show (match (prepare k vary E).aux (v, j) with | none => 0 | some (Aux.num x) => x | some (Aux.lin c off) => c * (setKnob (prepare k vary E) k K).knob j - off)
    = match (prepare k vary E).aux (v, j) with | none => 0 | some (Aux.num x) => x | some (Aux.lin c off) => c * (prepare k vary E).knob j - off
  by_cases hjk : j = k
  · subst hjk
    have hv : v ∈ vary := by
      by_contra hv
      rw [a4, if_neg fun hh => hv hh.1] at hj'
      exact hv (hd v hj')
    rw [a3, if_pos ⟨hv, rfl⟩]
  · simp [setKnob, hjk]

/-- **C125.**  When nothing else depends on the knob: at its first value all variables are as before the solver, at its second value as matched, in between linear. -/
theorem C125_matched_partial (k : String) {k0 k1 : ℝ} (h01 : k1 ≠ k0) (vary : List String) (sol : String → ℝ) {E : Env} (h : Ok E) (hu : Unused E k)
    (hd : ∀ v, k ∈ E.terms v → v ∈ vary) (v : String) :
    value (setKnob (matchKnob k k0 k1 vary sol E) k k0) v = value (prepare k vary E) v
      ∧ value (setKnob (matchKnob k k0 k1 vary sol E) k k1) v = value (solved k sol vary (prepare k vary E)) v
      ∧ ∀ t : ℝ, value (setKnob (matchKnob k k0 k1 vary sol E) k (k0 + t * (k1 - k0))) v
          = (1 - t) * value (prepare k vary E) v + t * value (solved k sol vary (prepare k vary E)) v := by
  have hne : k1 - k0 ≠ 0 := sub_ne_zero.mpr h01
  have key : ∀ t : ℝ, value (setKnob (matchKnob k k0 k1 vary sol E) k (k0 + t * (k1 - k0))) v
      = (1 - t) * value (prepare k vary E) v + t * value (solved k sol vary (prepare k vary E)) v := by
    intro t
    rw [C125_values k h01 vary sol h, prepare_indep k vary h hu hd, value_solved k sol vary h]
    by_cases hv : v ∈ vary
    · rw [if_pos hv, if_pos hv]
      field_simp
      ring
    · rw [if_neg hv, if_neg hv]; ring
  refine ⟨?_, ?_, key⟩
  · have := key 0
    simpa using this
  · have := key 1
    simpa using this

/-- For a new knob, "before the solver" is before `match_knob` was called. -/
theorem C125_new (k : String) (vary : List String) {E : Env} (h : Ok E) (hd : ∀ v, k ∉ E.terms v) (v : String) : value (prepare k vary E) v = value E v := by
  rw [value_prepare k vary h, if_neg fun hh => hd v hh.2, sub_zero]

/-- Generating the knob again, at any value of the knob, changes nothing. -/
theorem C125_again (k : String) {k0 k1 : ℝ} (h01 : k1 ≠ k0) (vary : List String) (sol : String → ℝ) {E : Env} (K : ℝ) (w j : String) :
    (generate k k0 k1 vary (setKnob (matchKnob k k0 k1 vary sol E) k K)).aux (w, j) = (matchKnob k k0 k1 vary sol E).aux (w, j) := by
  set S := solved k sol vary (prepare k vary E)
  obtain ⟨c1, c2, c3, c4⟩ := gen_spec k h01 vary (setKnob S k k1) (by simp [setKnob])
  set M := matchKnob k k0 k1 vary sol E with hM
  have hMaux : ∀ w j, M.aux (w, j) = if w ∈ vary ∧ j = k then some (ramp k0 k1 (auxVal (setKnob S k k1) w k)) else S.aux (w, j) := fun w j => c4 w j
  obtain ⟨d1, d2, d3, d4⟩ := gen_spec k h01 vary (setKnob (setKnob M k K) k k1) (by simp [setKnob])
  show (vary.foldl (generate1 k k0 k1) (setKnob (setKnob M k K) k k1)).aux (w, j) = _
  rw [d4]
  by_cases hw : w ∈ vary ∧ j = k
  · rw [if_pos hw, hMaux, if_pos hw]
    congr 2
    rw [auxVal_ramp (k0 := k0) (k1 := k1) (x := auxVal (setKnob S k k1) w k) (by show M.aux (w, k) = _; rw [hMaux, if_pos ⟨hw.1, rfl⟩])]
    have : (setKnob (setKnob M k K) k k1).knob k = k1 := by simp [setKnob]
    rw [this]
    have hne : k1 - k0 ≠ 0 := sub_ne_zero.mpr h01
    field_simp
  · rw [if_neg hw]
    rfl

/-- A knob moves only the variables for which it was matched, by the same amount whatever the values of the other knobs are. -/
theorem C125_superpose (k : String) {k0 k1 : ℝ} (h01 : k1 ≠ k0) (vary : List String) (sol : String → ℝ) {E : Env} (h : Ok E) (hu : Unused E k)
    (hd : ∀ v, k ∈ E.terms v → v ∈ vary) (K : ℝ) (v : String) :
    value (setKnob (matchKnob k k0 k1 vary sol E) k K) v - value (setKnob (matchKnob k k0 k1 vary sol E) k k0) v
      = if v ∈ vary then sol v * ((K - k0) / (k1 - k0)) else 0 := by
  rw [C125_values k h01 vary sol h, C125_values k h01 vary sol h, prepare_indep k vary h hu hd, prepare_indep k vary h hu hd]
  simp

theorem setKnob_twice (E : Env) (k : String) (x y : ℝ) : setKnob (setKnob E k x) k y = setKnob E k y := by
  unfold setKnob
  congr 1
  funext j
  by_cases hj : j = k <;> simp [hj]

/-- An environment with two variables of value zero and one. -/
noncomputable def twoVars : Env := ⟨fun _ => 0, fun v _ => if v = "kqd" then 1 else 0, fun _ => [], fun _ => none⟩

theorem twoVars_ok : Ok twoVars := fun _ => ⟨List.nodup_nil, by simp [twoVars]⟩

/-- **C125, violated: a knob matched again with fewer variables.**  A knob is matched with two variables, and later again with one of them only.  The solver finds the
value 5 for it with the other variable at 1.  The old term of the other variable stays in its expression: when the knob is set to its second value, this variable
is at 4 instead, and the line is not the matched one. -/
theorem C125_fewer_violated : ∃ (E E2 : Env) (sol2 : String → ℝ), E = matchKnob "q" 0 1 ["kqf", "kqd"] (fun _ => 3) twoVars
    ∧ E2 = matchKnob "q" 0 1 ["kqf"] sol2 E
    ∧ value (solved "q" sol2 ["kqf"] (prepare "q" ["kqf"] E)) "kqd" = 1
    ∧ value (setKnob E2 "q" 1) "kqd" = 4 := by
  have hE : Ok (matchKnob "q" 0 1 ["kqf", "kqd"] (fun _ => 3) twoVars) :=
    ok_step (ok_solved "q" _ _ (ok_prepare "q" _ twoVars_ok)) (.generate "q" 0 1 ["kqf", "kqd"])
  have hb : ∀ (K : ℝ), value (setKnob (matchKnob "q" 0 1 ["kqf", "kqd"] (fun _ => 3) twoVars) "q" K) "kqd" = 1 + 3 * K := by
    intro K
    rw [C125_values "q" (by norm_num) _ _ twoVars_ok, prepare_indep "q" _ twoVars_ok (fun v f g _ => rfl) (by simp [twoVars]),
      C125_new "q" _ twoVars_ok (by simp [twoVars])]
    simp [value, twoVars]
  have hset : setKnob (matchKnob "q" 0 1 ["kqf", "kqd"] (fun _ => 3) twoVars) "q" 0 = matchKnob "q" 0 1 ["kqf", "kqd"] (fun _ => 3) twoVars := by
    unfold matchKnob generate
    exact setKnob_twice _ _ _ _
  have hprep : ∀ K, value (setKnob (prepare "q" ["kqf"] (matchKnob "q" 0 1 ["kqf", "kqd"] (fun _ => 3) twoVars)) "q" K) "kqd" = 1 + 3 * K := by
    intro K
    rw [← hb K]
    obtain ⟨a1, a2, a3, a4⟩ := prepare_spec "q" ["kqf"] hE
    unfold value auxVal setKnob
    simp only [a1, a2, a3, a4]
    simp
  refine ⟨_, _, fun _ => 5, rfl, rfl, ?_, ?_⟩
  · rw [value_solved "q" _ _ hE, value_prepare "q" _ hE, if_neg (by simp), if_neg (by simp), ← hset, hb]
    norm_num
  · rw [C125_values "q" (by norm_num) _ _ hE, hprep, if_neg (by simp)]
    norm_num

/-- **C125, violated: limits.**  A variable of value 0.25 may vary between 0.1 and 0.3.  The limits are given to the auxiliary variable, which is the change of the
variable: every solution within them, in any position of the search, leaves the variable above 0.3. -/
theorem C125_limits_violated : ∃ (E : Env) (v : String) (limits : ℝ × ℝ), Ok E ∧ limits.1 ≤ value E v ∧ value E v ≤ limits.2
    ∧ ∀ sol : String → ℝ, (auxLimits limits).1 ≤ sol v → sol v ≤ (auxLimits limits).2 → limits.2 < value (solved "q" sol [v] (prepare "q" [v] E)) v := by
  refine ⟨⟨fun _ => 0, fun _ _ => 0.25, fun _ => [], fun _ => none⟩, "kqf", (0.1, 0.3), fun _ => ⟨List.nodup_nil, by simp⟩, by norm_num [value], by norm_num [value], ?_⟩
  intro sol h1 _
  have ok : Ok ⟨fun _ => 0, fun _ _ => 0.25, fun _ => [], fun _ => none⟩ := fun _ => ⟨List.nodup_nil, by simp⟩
  rw [value_solved "q" sol _ ok, C125_new "q" _ ok (by simp)]
  norm_num [value, auxLimits] at h1 ⊢
  linarith

/-- The hypotheses of `C125_matched_partial` hold for a first knob. -/
example : Ok twoVars ∧ Unused twoVars "q" ∧ ∀ v, "q" ∈ twoVars.terms v → v ∈ ["kqf", "kqd"] :=
  ⟨twoVars_ok, fun _ _ _ _ => rfl, by simp [twoVars]⟩

end Verif.Match
