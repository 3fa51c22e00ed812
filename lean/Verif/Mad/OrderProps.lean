import Verif.Mad.Order

/-!
# C147 and C148: apertures, order of statements and beams of MAD-X files
-/

namespace Verif.Mad.Order

/-! ### C148: order of statements -/

theorem over_assoc (a b c : Params) : over (over a b) c = over a (over b c) := by
  funext k; simp only [over]; cases c k <;> simp

theorem over_none (a : Params) : over a (fun _ => none) = a := by funext k; simp [over]

theorem dictSet_new {α : Type} (d : List (ℕ × α)) (n : ℕ) (v : α) (h : ∀ e ∈ d, e.1 ≠ n) : dictSet d n v = d ++ [(n, v)] := by
  induction d with
  | nil => rfl
  | cons e t ih =>
    obtain ⟨m, w⟩ := e
    have : m ≠ n := h (m, w) (by simp)
    simp only [dictSet, if_neg this, List.cons_append, ih fun e he => h e (by simp [he])]

theorem dictGet_set {α : Type} (d : List (ℕ × α)) (n m : ℕ) (v : α) :
    dictGet (dictSet d n v) m = if m = n then some v else dictGet d m := by
  induction d with
  | nil => simp only [dictSet, dictGet, eq_comm]
  | cons e t ih =>
    obtain ⟨k, w⟩ := e
    by_cases hk : k = n
    · subst hk
      by_cases hm : k = m
      · subst hm; simp [dictSet, dictGet]
      · simp [dictSet, dictGet, hm, Ne.symm hm]
    · by_cases hm : k = m
      · subst hm; simp [dictSet, dictGet, hk]
      · simp [dictSet, dictGet, hk, hm, ih]

/-- The keys of a dictionary are different. -/
theorem dictSet_keys {α : Type} (d : List (ℕ × α)) (n : ℕ) (v : α) (h : (d.map Prod.fst).Nodup) :
    ((dictSet d n v).map Prod.fst).Nodup ∧ ∀ k, k ∈ (dictSet d n v).map Prod.fst ↔ k = n ∨ k ∈ d.map Prod.fst := by
  induction d with
  | nil => simp [dictSet]
  | cons e t ih =>
    obtain ⟨m, w⟩ := e
    rw [List.map_cons, List.nodup_cons] at h
    obtain ⟨h1, h2⟩ := ih h.2
    by_cases hm : m = n
    · subst hm
      refine ⟨by simpa [dictSet] using h, fun k => by simp [dictSet]⟩
    · refine ⟨?_, fun k => ?_⟩
      · rw [dictSet, if_neg hm, List.map_cons, List.nodup_cons]
        refine ⟨?_, h1⟩
        intro hc
        rcases (h2 m).mp hc with hc | hc
        · exact hm hc
        · exact h.1 hc
      · rw [dictSet, if_neg hm, List.map_cons, List.mem_cons, h2 k, List.map_cons, List.mem_cons]
        tauto

theorem setParameters_get (ps : List (ℕ × Params)) (h : (ps.map Prod.fst).Nodup) (env : ℕ → Params) (m : ℕ) :
    setParameters env ps m = over (env m) ((dictGet ps m).getD fun _ => none) := by
  induction ps generalizing env with
  | nil => simp [setParameters, dictGet, over_none]
  | cons e t ih =>
    obtain ⟨n, g⟩ := e
    rw [List.map_cons, List.nodup_cons] at h
    have := ih h.2 (fun m => if m = n then over (env n) g else env m)
    simp only [setParameters, List.foldl_cons] at this ⊢
    rw [this]
    by_cases hm : m = n
    · subst hm
      have hn : dictGet t m = none := by
        have : ∀ d : List (ℕ × Params), m ∉ d.map Prod.fst → dictGet d m = none := by
          intro d
          induction d with
          | nil => intro _; rfl
          | cons e t ih =>
            intro hc
            obtain ⟨k, w⟩ := e
            simp only [List.map_cons, List.mem_cons, not_or] at hc
            rw [dictGet, if_neg (Ne.symm hc.1), ih hc.2]
        exact this t h.1
      simp [dictGet, hn, over_none]
    · simp [dictGet, hm, Ne.symm hm]

theorem parsed_append (a : List Stmt) (s : Stmt) : parsed (a ++ [s]) = (parsed a).add s := by simp [parsed, List.foldl_append]

theorem parsed_parameters_nodup (a : List Stmt) : ((parsed a).parameters.map Prod.fst).Nodup := by
  induction a using List.reverseRecOn with
  | nil => simp [parsed]
  | append_singleton a s ih =>
    rw [parsed_append]
    cases s with
    | define n p g => exact ih
    | assign n g => exact (dictSet_keys _ _ _ ih).1

theorem parsed_parameters_none (a : List Stmt) (n : ℕ) (h : ∀ s ∈ a, s.assigns ≠ some n) : dictGet (parsed a).parameters n = none := by
  induction a using List.reverseRecOn with
  | nil => rfl
  | append_singleton a s ih =>
    rw [parsed_append]
    have hr := ih fun s hs => h s (by simp [hs])
    cases s with
    | define m p g => exact hr
    | assign m g =>
      have : m ≠ n := fun hc => h (.assign m g) (by simp) (by rw [hc]; rfl)
      rw [Parsed.add, dictGet_set, if_neg (Ne.symm this), hr]

theorem parsed_elements_ne (a : List Stmt) (n : ℕ) (h : ∀ s ∈ a, s.defines ≠ some n) : ∀ e ∈ (parsed a).elements, e.1 ≠ n := by
  induction a using List.reverseRecOn with
  | nil => simp [parsed]
  | append_singleton a s ih =>
    rw [parsed_append]
    have hr := ih fun s hs => h s (by simp [hs])
    cases s with
    | assign m g => exact hr
    | define m p g =>
      have hm : m ≠ n := fun hc => h (.define m p g) (by simp) (by rw [hc]; rfl)
      have key : ∀ d : List (ℕ × ℕ × Params), (∀ e ∈ d, e.1 ≠ n) → ∀ e ∈ dictSet d m (p, g), e.1 ≠ n := by
        intro d
        induction d with
        | nil => intro _ e he; simp only [dictSet, List.mem_singleton] at he; rw [he]; exact hm
        | cons x t iht =>
          intro hd e he
          obtain ⟨k, w⟩ := x
          by_cases hk : k = m
          · rw [dictSet, if_pos hk, List.mem_cons] at he
            rcases he with he | he
            · rw [he]; exact hm
            · exact hd e (by simp [he])
          · rw [dictSet, if_neg hk, List.mem_cons] at he
            rcases he with he | he
            · exact hd e (by simp [he])
            · exact iht (fun e he => hd e (by simp [he])) e he
      exact key _ hr

/-- **C148.** The parameters of all elements are those which MAD-X gives them when the statements are done one after the other.
*Missing*: names which are defined again, and classes which are changed between the definitions derived from them; both fail, see
below. -/
theorem C148_partial (file : List Stmt) (h : Orderly file) : load file = madx file := by
  induction file using List.reverseRecOn with
  | nil => rfl
  | append_singleton a s ih =>
    have ha : Orderly a := fun x n p g y hxy => h x n p g (y ++ [s]) (by rw [hxy]; simp)
    have hr := ih ha
    have hm : madx (a ++ [s]) = madxStep (madx a) s := by simp [madx, List.foldl_append]
    funext m
    rw [hm, ← hr, load, parsed_append]
    cases s with
    | define n p g =>
      simp only [madxStep]
      have hs := h a n p g [] rfl
      have hd := dictSet_new (parsed a).elements n (p, g) (parsed_elements_ne a n fun s hs' => (hs s hs').1)
      rw [Parsed.add, hd, setParameters_get _ (parsed_parameters_nodup a)]
      simp only [load]
      have hp := parsed_parameters_none a p fun s hs' => (hs s hs').2.2
      have hn := parsed_parameters_none a n fun s hs' => (hs s hs').2.1
      simp only [setParameters_get _ (parsed_parameters_nodup a)]
      simp only [makeElements, List.foldl_append, List.foldl_cons, List.foldl_nil]
      by_cases hmn : m = n
      · subst hmn
        rw [if_pos rfl, if_pos rfl, hn, hp]
        simp [over_none]
      · rw [if_neg hmn, if_neg hmn]
    | assign n g =>
      simp only [madxStep]
      rw [Parsed.add, setParameters_get _ (dictSet_keys _ _ _ (parsed_parameters_nodup a)).1, dictGet_set]
      simp only [load]
      simp only [setParameters_get _ (parsed_parameters_nodup a)]
      by_cases hmn : m = n
      · subst hmn
        rw [if_pos rfl, if_pos rfl, Option.getD_some, over_assoc]
      · rw [if_neg hmn, if_neg hmn]

/-- A class, an element made from it, and an assignment to the element. -/
example : Orderly [.define 1 0 fun _ => some 1, .define 2 1 fun _ => none, .assign 2 fun _ => some 3] := by
  intro a n p g b hab s hs
  rcases a with _ | ⟨x, _ | ⟨y, _ | ⟨z, a⟩⟩⟩
  · simp at hs
  · simp only [List.cons_append, List.nil_append, List.cons.injEq, Stmt.define.injEq] at hab
    simp only [List.mem_singleton] at hs
    rw [hs, ← hab.1]
    have h2 : n = 2 := hab.2.1.1.symm
    rw [h2]
    simp [Stmt.defines, Stmt.assigns]
  · simp at hab
  · simp at hab

/-- **C148 fails** for a class which was changed before an element is made from it: with `a: quadrupole, k1 = 1; a, k1 = 2; b: a;` the
element `b` has `k1 = 1` instead of `2`. -/
theorem C148_assign_violated :
    let file : List Stmt := [.define 1 0 fun _ => some 1, .assign 1 fun _ => some 2, .define 2 1 fun _ => none]
    load file 2 0 = some 1 ∧ madx file 2 0 = some 2 := by
  simp [load, parsed, Parsed.add, dictSet, dictGet, makeElements, setParameters, madx, madxStep, over]

/-- **C148 fails** for a name which is defined again: with `a: quadrupole, k1 = 1; b: a; a: quadrupole, k1 = 2;` the element `b`
has `k1 = 2` instead of `1`. -/
theorem C148_again_violated :
    let file : List Stmt := [.define 1 0 fun _ => some 1, .define 2 1 fun _ => none, .define 1 0 fun _ => some 2]
    load file 2 0 = some 2 ∧ madx file 2 0 = some 1 := by
  simp [load, parsed, Parsed.add, dictSet, makeElements, setParameters, madx, madxStep, over]

/-- Variables get their values as in MAD-X. *Missing*: right-hand sides with the length of an element; they fail, see below. -/
theorem C148_vars_partial (vars len : ℕ → ℚ) (l : List (ℕ × Rhs)) (h : ∀ e ∈ l, ∀ v a b, e.2 v a = e.2 v b) :
    assignVars vars l = madxVars vars len l := by
  induction l generalizing vars with
  | nil => rfl
  | cons e t ih =>
    have he := h e (by simp)
    simp only [assignVars, madxVars, List.foldl_cons]
    have : (fun m => if m = e.1 then e.2 vars (fun _ => 999) else vars m) = fun m => if m = e.1 then e.2 vars len else vars m := by
      funext m; rw [he vars (fun _ => 999) len]
    rw [this]
    exact ih _ fun e he => h e (by simp [he])

example : ∀ e ∈ ([(0, fun _ _ => 2), (1, fun v _ => v 0 * 3)] : List (ℕ × Rhs)), ∀ v a b, e.2 v a = e.2 v b := by
  intro e he v a b
  simp only [List.mem_cons, List.not_mem_nil, or_false] at he
  rcases he with rfl | rfl <;> rfl

/-- **C148 fails** for `x = q->l / 2`: whatever the length of `q`, the value is 999/2. -/
theorem C148_arrow_violated (vars len : ℕ → ℚ) : assignVars vars [(0, fun _ l => l 7 / 2)] 0 = 999 / 2 ∧
    madxVars vars len [(0, fun _ l => l 7 / 2)] 0 = len 7 / 2 := by simp [assignVars, madxVars]

/-- Every sequence has its own beam, or the default beam. *Missing*: a default beam after the beam of a sequence; it fails, see
below. -/
theorem C148_beam_partial (bs : List Beam) (l : ℕ) (h : ∀ a b c, bs = a ++ b :: c → b.sequence = none → ∀ x ∈ a, x.sequence = none) :
    setBeams bs l = madxBeam bs l := by
  induction bs using List.reverseRecOn with
  | nil => rfl
  | append_singleton a b ih =>
    have hr := ih fun x y z hxy => h x y (z ++ [b]) (by rw [hxy]; simp)
    simp only [setBeams, madxBeam, lastBeam, List.foldl_append, List.foldl_cons, List.foldl_nil] at hr ⊢
    cases hb : b.sequence with
    | none =>
      have hall := h a b [] rfl hb
      have : a.foldl (fun r b => if b.sequence = some l then some b.ref else r) none = none := by
        have : ∀ (a : List Beam) (r : Option ℕ), (∀ x ∈ a, x.sequence = none) →
            a.foldl (fun r b => if b.sequence = some l then some b.ref else r) r = r := by
          intro a
          induction a with
          | nil => intro r _; rfl
          | cons x t iht =>
            intro r hx
            rw [List.foldl_cons, hx x (by simp), if_neg (by simp)]
            exact iht r fun y hy => hx y (by simp [hy])
        exact this a none hall
      simp [setBeam, hb, this]
    | some s =>
      by_cases hs : l = s
      · subst hs; simp [setBeam, hb]
      · simp [setBeam, hb, hs, Ne.symm hs, hr]

example : ∀ a b c, [(⟨none, 1⟩ : Beam), ⟨some 3, 2⟩] = a ++ b :: c → b.sequence = none → ∀ x ∈ a, x.sequence = none := by
  intro a b c h hb x hx
  rcases a with _ | ⟨y, _ | ⟨z, a⟩⟩
  · simp at hx
  · simp only [List.cons_append, List.nil_append, List.cons.injEq] at h
    rw [← h.2.1] at hb; simp at hb
  · simp at h

/-- **C148 fails** for a default beam given after the beam of a sequence: it replaces that beam. -/
theorem C148_beam_violated : setBeams [⟨some 3, 1⟩, ⟨none, 2⟩] 3 = some 2 ∧ madxBeam [⟨some 3, 1⟩, ⟨none, 2⟩] 3 = some 1 := by
  simp [setBeams, setBeam, madxBeam, lastBeam]

/-! ### C147: apertures -/

/-- The type given last. -/
def lastType (l : List Aper) : Option ℕ := l.foldl (fun t a => a.type.or t) none

/-- The dimensions given last. -/
def lastDims (l : List Aper) : Option (List ℚ) := l.foldl (fun d a => a.dims.or d) none

/-- Statements which work: no type without dimensions; a definition with dimensions repeats the type unless it is a circle; an assignment
gives dimensions, and if not the type then there is an aperture already. -/
def Plain (before : List Aper) (a : Aper) : Prop :=
  (a.dims = none → a.type = none) ∧
  (a.isSet = false → a.dims ≠ none → a.type ≠ none ∨ lastType before = none ∨ lastType before = some circle) ∧
  (a.isSet = true → a.dims ≠ none ∧ (a.type ≠ none ∨ lastDims before ≠ none))

/-- **C147.** The aperture of an element has the type and the dimensions given last in the chain of its classes, its definition and the
assignments to it. *Missing*: the statements which are not plain; they fail, see below. -/
theorem C147_partial (l : List Aper) (h : ∀ a x b, l = a ++ x :: b → Plain a x) :
    ∃ s, aperChain ⟨none, none⟩ l = some s ∧ s.shape = madxAperture l := by
  have chain_append : ∀ (a : List Aper) (x : Aper) (s : AperState), aperChain s (a ++ [x]) =
      (match aperChain s a with | none => none | some s' => aperStep s' x) := by
    intro a x
    induction a with
    | nil =>
      intro s
      simp only [List.nil_append, aperChain]
      cases aperStep s x <;> rfl
    | cons y t ih =>
      intro s
      simp only [List.cons_append, aperChain]
      cases aperStep s y with
      | none => rfl
      | some s' => exact ih s'
  have key : ∃ s, aperChain ⟨none, none⟩ l = some s ∧ s.shape = madxAperture l ∧
      (∀ t, lastType l = some t → s.cached = some t) ∧
      (lastType l = none → s.cached = none ∨ s.cached = some circle) ∧
      (lastDims l ≠ none → s.cached ≠ none) := by
    induction l using List.reverseRecOn with
    | nil => exact ⟨⟨none, none⟩, rfl, rfl, by simp [lastType], fun _ => Or.inl rfl, by simp [lastDims]⟩
    | append_singleton a x ih =>
      obtain ⟨s, hs1, hs2, hs3, hs4, hs5⟩ := ih fun p q r hpq => h p q (r ++ [x]) (by rw [hpq]; simp)
      obtain ⟨hp1, hp2, hp3⟩ := h a x [] rfl
      have ht : lastType (a ++ [x]) = x.type.or (lastType a) := by simp [lastType, List.foldl_append]
      have hd : lastDims (a ++ [x]) = x.dims.or (lastDims a) := by simp [lastDims, List.foldl_append]
      have hma : madxAperture a = (lastDims a).map fun d => ((lastType a).getD circle, d) := rfl
      have hmx : madxAperture (a ++ [x]) = (lastDims (a ++ [x])).map fun d => ((lastType (a ++ [x])).getD circle, d) := rfl
      rw [chain_append, hs1, hmx, ht, hd]
      obtain ⟨isSet, type, dims⟩ := x
      obtain ⟨cached, shape⟩ := s
      simp only at hs2 hs3 hs4 hs5 hp1 hp2 hp3 ⊢
      cases isSet with
      | false =>
        cases dims with
        | none =>
          have := hp1 rfl
          subst this
          exact ⟨⟨cached, shape⟩, by simp [aperStep, buildAperture], by simp [hs2, hma], by simpa using hs3, by simpa using hs4,
            by simpa using hs5⟩
        | some d =>
          cases type with
          | some t =>
            exact ⟨⟨some t, some (t, d)⟩, by simp [aperStep, buildAperture], by simp, by simp, by simp, by simp⟩
          | none =>
            have hc := hp2 rfl (by simp)
            simp only [ne_eq, not_true_eq_false, false_or] at hc
            have hcache : cached.getD circle = circle := by
              rcases hc with hc | hc
              · rcases hs4 hc with h4 | h4 <;> rw [h4] <;> rfl
              · rw [hs3 _ hc]; rfl
            have hlast : (lastType a).getD circle = circle := by rcases hc with hc | hc <;> rw [hc] <;> rfl
            refine ⟨⟨some circle, some (circle, d)⟩, by simp [aperStep, buildAperture, hcache], by simp [hlast], ?_, by simp, by simp⟩
            intro t htt
            simp only [Option.none_or] at htt
            rw [htt] at hlast
            simpa using hlast.symm
      | true =>
        obtain ⟨hq1, hq2⟩ := hp3 rfl
        cases dims with
        | none => simp at hq1
        | some d =>
          cases type with
          | some t => exact ⟨⟨some t, some (t, d)⟩, by simp [aperStep, buildAperture], by simp, by simp, by simp, by simp⟩
          | none =>
            simp only [ne_eq, not_true_eq_false, false_or] at hq2
            have h5 := hs5 hq2
            cases cached with
            | none => simp at h5
            | some c =>
              have hcl : (lastType a).getD circle = c := by
                cases hl : lastType a with
                | none =>
                  rcases hs4 hl with h4 | h4
                  · simp at h4
                  · simpa using h4.symm
                | some t => simpa using (hs3 t hl).symm
              exact ⟨⟨some c, some (c, d)⟩, by simp [aperStep, buildAperture], by simp [hcl], by simpa using hs3, by simpa using hs4,
                by simp⟩
  obtain ⟨s, h1, h2, -⟩ := key
  exact ⟨s, h1, h2⟩

/-- A class with an ellipse, an element made from it, and an assignment of other dimensions. -/
example : ∀ a x b, [(⟨false, some 1, some [3, 2]⟩ : Aper), ⟨false, none, none⟩, ⟨true, none, some [4, 2]⟩] = a ++ x :: b → Plain a x := by
  intro a x b h
  rcases a with _ | ⟨p, _ | ⟨q, _ | ⟨r, a⟩⟩⟩ <;> simp only [List.cons_append, List.nil_append, List.cons.injEq] at h
  · rw [← h.1]; simp [Plain]
  · rw [← h.2.1]; simp [Plain]
  · rw [← h.2.2.1, ← h.1, ← h.2.1]; simp [Plain, lastDims]
  · exact absurd h.2.2.2 (by simp)

/-- **C147 fails** for an element which changes the dimensions of its class: with `a: quadrupole, apertype = ellipse, aperture = {3, 2};
b: a, aperture = {4, 2};` the aperture of `b` is a circle of radius 4. -/
theorem C147_type_violated :
    let l : List Aper := [⟨false, some 1, some [3, 2]⟩, ⟨false, none, some [4, 2]⟩]
    (aperChain ⟨none, none⟩ l).map AperState.shape = some (some (circle, [4, 2])) ∧ madxAperture l = some (1, [4, 2]) := by
  simp [aperChain, aperStep, buildAperture, madxAperture]

/-- **C147 fails** for an assignment which has nothing to do with the aperture: with `a: quadrupole, aperture = {3}; a, k1 = 1;` the
element has no associated aperture any more. -/
theorem C147_assign_violated :
    let l : List Aper := [⟨false, none, some [3]⟩, ⟨true, none, none⟩]
    (aperChain ⟨none, none⟩ l).map AperState.shape = some none ∧ madxAperture l = some (circle, [3]) := by
  simp [aperChain, aperStep, buildAperture, madxAperture]

/-- **C147 fails** for a first aperture which is assigned without its type, and for a type which is given without dimensions: both are
exceptions. -/
theorem C147_exception_violated :
    aperChain ⟨none, none⟩ [⟨false, none, none⟩, ⟨true, none, some [3]⟩] = none ∧
    aperChain ⟨none, none⟩ [⟨false, some 1, some [3, 2]⟩, ⟨false, some 2, none⟩] = none := by
  simp [aperChain, aperStep, buildAperture]

end Verif.Mad.Order
