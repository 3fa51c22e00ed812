import Verif.Extend.Model

/-!
# C198: extending the order of multipolar strengths
-/

namespace Verif.Extend

/-! ## What is meant -/

/-- The strength of order `i`; zero beyond the last one. -/
def strength (v : List Rat) (i : Nat) : Rat := v.getD i 0

/-- The two magnets are the same except for zeros at the end of their strengths. -/
def Same {α : Type} (a b : Mag α) : Prop :=
  (∀ i, strength a.knl i = strength b.knl i) ∧ (∀ i, strength a.ksl i = strength b.ksl i) ∧ a.dflt = b.dflt ∧ a.rest = b.rest

/-- A magnet as the constructor makes it. -/
def Made {α : Type} (m : Mag α) : Prop := m.dflt + 1 ≤ m.knl.length ∧ m.ksl.length = m.knl.length

/-- The strengths are zero, or one of them is not negligible (not below `1e-16`). -/
def Solid (v : List Rat) : Prop := nearZero v = true → ∀ x ∈ v, x = 0

/-! ## Lemmas -/

theorem strength_pad (n : Nat) (v : List Rat) (i : Nat) : strength (v ++ List.replicate n 0) i = strength v i := by
  unfold strength
  simp only [List.getD_eq_getElem?_getD]
  rcases Nat.lt_or_ge i v.length with h | h
  · rw [List.getElem?_append_left h]
  · rw [List.getElem?_append_right h, List.getElem?_eq_none h, List.getElem?_replicate]
    split <;> rfl

theorem strength_zero {v : List Rat} (h : ∀ x ∈ v, x = 0) (i : Nat) : strength v i = 0 := by
  unfold strength
  rw [List.getD_eq_getElem?_getD]
  cases e : v[i]? with
  | none => rfl
  | some x => exact h x (List.mem_of_getElem? e)

theorem drop_zero {v : List Rat} (h : Solid v) (i : Nat) :
    strength ((if nearZero v then none else some v).getD []) i = strength v i := by
  by_cases c : nearZero v = true
  · rw [if_pos c, strength_zero (h c)]
    simp [strength]
  · rw [if_neg c]
    rfl

theorem length_pad (n : Nat) (v : List Rat) (h : v.length ≤ n) : (pad n v).length = n := by
  simp [pad]
  omega

/-- The dictionary of a magnet gives the magnet, with the same number of strengths. -/
theorem build_dict {α : Type} {m : Mag α} (hm : Made m) :
    (build (toDict m)).knl.length = m.knl.length ∧ (build (toDict m)).ksl.length = m.knl.length := by
  obtain ⟨h1, h2⟩ := hm
  have key : ∀ o : Option Nat, o = (toDict m).order →
      max ((match o with | none => m.dflt | some 0 => m.dflt | some (o + 1) => o + 1) + 1)
        (max ((toDict m).knl.getD []).length ((toDict m).ksl.getD []).length) = m.knl.length := by
    rintro o rfl
    simp only [toDict, Mag.order]
    by_cases a : nearZero m.knl = true <;> by_cases b : nearZero m.ksl = true <;> simp [a, b, h2]
    · by_cases c : m.knl.length - 1 = 0
      · simp [c]
        omega
      · simp only [c, not_false_eq_true, if_true]
        split <;> simp_all <;> omega
    · omega
    · omega
    · omega
  have e := key _ rfl
  constructor
  · exact (length_pad _ _ (by omega)).trans e
  · exact (length_pad _ _ (by omega)).trans e

/-! ## One magnet -/

/-- Extending a magnet: it has the order asked for, or the one it had if that is higher. -/
theorem C198_order {α : Type} (order : Nat) (m : Mag α) (hm : Made m) :
    Made (extendOne order m) ∧ (extendOne order m).order = max m.order order := by
  unfold extendOne
  simp only
  split
  · rename_i h
    unfold Mag.order at h ⊢
    obtain ⟨h1, h2⟩ := hm
    simp only [Made, build, toDict, Option.getD_some]
    rw [length_pad _ _ (by omega), length_pad _ _ (by omega)]
    simp only [List.length_append, List.length_replicate, h2]
    refine ⟨⟨?_, trivial⟩, ?_⟩ <;> omega
  · rename_i h
    obtain ⟨e1, e2⟩ := build_dict hm
    unfold Mag.order at h ⊢
    refine ⟨⟨?_, by rw [e1, e2]⟩, ?_⟩
    · rw [e1]
      exact hm.1
    · rw [e1]
      omega

/-- Extending a magnet changes no strength and no other field, provided that its strengths are zero or one of them is above `1e-16`.
(Without that only the case in which the order is raised is right, see below.) -/
theorem C198_strengths_partial {α : Type} (order : Nat) (m : Mag α) (h : m.order < order ∨ (Solid m.knl ∧ Solid m.ksl)) :
    Same (extendOne order m) m := by
  unfold extendOne
  simp only
  split
  · refine ⟨fun i => ?_, fun i => ?_, rfl, rfl⟩ <;> simp only [build, pad, Option.getD_some, strength_pad]
  · rename_i c
    obtain ⟨h1, h2⟩ := h.resolve_left c
    refine ⟨fun i => ?_, fun i => ?_, rfl, rfl⟩ <;> simp only [build, pad, strength_pad]
    · exact drop_zero h1 i
    · exact drop_zero h2 i

/-! ## Lists of elements -/

/-- All the elements of the environment are made by constructors and have no negligible strengths. -/
def Good {α : Type} (env : Env α) : Prop := ∀ n m, env n = some (.mag m) → Made m ∧ Solid m.knl ∧ Solid m.ksl

theorem Same.solid {v w : List Rat} (h : ∀ i, strength v i = strength w i) (hw : Solid w) : Solid v := by
  intro hv x hx
  have zero : ∀ {u : List Rat}, (∀ i, strength u i = 0) → ∀ x ∈ u, x = 0 := by
    intro u hu x hx
    obtain ⟨i, hi, e⟩ := List.mem_iff_getElem.1 hx
    have := hu i
    simpa [strength, List.getD_eq_getElem?_getD, List.getElem?_eq_getElem hi, e] using this
  refine zero (fun i => ?_) x hx
  rw [h i]
  refine strength_zero (hw ?_) i
  unfold nearZero at hv ⊢
  rw [List.all_eq_true] at hv ⊢
  intro y hy
  obtain ⟨j, hj, e⟩ := List.mem_iff_getElem.1 hy
  have hs : strength v j = y := by
    rw [h j]
    simp [strength, List.getD_eq_getElem?_getD, List.getElem?_eq_getElem hj, e]
  rcases Nat.lt_or_ge j v.length with c | c
  · refine hv y ?_
    simp only [strength, List.getD_eq_getElem?_getD, List.getElem?_eq_getElem c, Option.getD_some] at hs
    exact hs ▸ List.getElem_mem c
  · simp only [strength, List.getD_eq_getElem?_getD, List.getElem?_eq_none c, Option.getD_none] at hs
    subst hs
    decide +kernel

theorem Same.trans {α : Type} {a b c : Mag α} (h : Same a b) (g : Same b c) : Same a c :=
  ⟨fun i => (h.1 i).trans (g.1 i), fun i => (h.2.1 i).trans (g.2.1 i), h.2.2.1.trans g.2.2.1, h.2.2.2.trans g.2.2.2⟩

/-- Extending a list of elements, whichever and however often named: it succeeds if and only if all of them have `knl`; then every
magnet keeps its strengths, those named have at least the order asked for, and all other entries are the same as before. -/
theorem C198_list_partial {α : Type} (order : Nat) (names : List String) (env : Env α) (hg : Good env) :
    ((extendLoop order names env).2 = true ↔ ∀ n ∈ names, hasKnl env n = true) ∧
    (∀ n, n ∉ names → (extendLoop order names env).1 n = env n) ∧
    (∀ n m, env n = some (.mag m) → ∃ m', (extendLoop order names env).1 n = some (.mag m') ∧ Same m' m ∧ m.order ≤ m'.order ∧
      ((extendLoop order names env).2 = true → n ∈ names → m'.order = max m.order order)) := by
  induction names generalizing env with
  | nil =>
    simp only [extendLoop]
    exact ⟨by simp, by simp, fun n m e => ⟨m, e, ⟨fun _ => rfl, fun _ => rfl, rfl, rfl⟩, Nat.le_refl _, fun _ h => by simp at h⟩⟩
  | cons x ns ih =>
    unfold extendLoop
    split
    · rename_i mx ex
      have hx := hg x mx ex
      have o := C198_order order mx hx.1
      have s := C198_strengths_partial order mx (.inr hx.2)
      have hg' : Good (put env x (.mag (extendOne order mx))) := by
        intro n m e
        by_cases c : n = x
        · subst c
          simp only [put, if_true, Option.some.injEq, Entry.mag.injEq] at e
          subst e
          exact ⟨o.1, Same.solid s.1 hx.2.1, Same.solid s.2.1 hx.2.2⟩
        · simp only [put, c, if_false] at e
          exact hg n m e
      obtain ⟨i1, i2, i3⟩ := ih _ hg'
      have hk : ∀ n, hasKnl (put env x (.mag (extendOne order mx))) n = hasKnl env n := by
        intro n
        by_cases c : n = x
        · subst c
          simp [hasKnl, put, ex]
        · simp [hasKnl, put, c]
      refine ⟨?_, ?_, ?_⟩
      · rw [i1]
        simp only [hk, List.mem_cons, forall_eq_or_imp]
        exact ⟨fun h => ⟨by simp [hasKnl, ex], h⟩, fun h => h.2⟩
      · intro n hn
        simp only [List.mem_cons, not_or] at hn
        rw [i2 n hn.2]
        simp [put, hn.1]
      · intro n m e
        by_cases c : n = x
        · subst c
          rw [ex] at e
          simp only [Option.some.injEq, Entry.mag.injEq] at e
          subst e
          obtain ⟨m', e1, e2, e3, e4⟩ := i3 n (extendOne order mx) (by simp [put])
          refine ⟨m', e1, e2.trans s, by omega, fun hok _ => ?_⟩
          by_cases cn : n ∈ ns
          · rw [e4 hok cn]
            omega
          · have := i2 n cn
            rw [e1] at this
            simp only [put, if_true, Option.some.injEq, Entry.mag.injEq] at this
            rw [this, o.2]
        · obtain ⟨m', e1, e2, e3, e4⟩ := i3 n m (by simp [put, c, e])
          refine ⟨m', e1, e2, e3, fun hok hn => e4 hok ?_⟩
          simp only [List.mem_cons, c, false_or] at hn
          exact hn
    · rename_i hno
      refine ⟨?_, fun _ _ => rfl, fun n m e => ⟨m, e, ⟨fun _ => rfl, fun _ => rfl, rfl, rfl⟩, Nat.le_refl _, fun h => by simp at h⟩⟩
      simp only [Bool.false_eq_true, false_iff]
      intro h
      have := h x (by simp)
      unfold hasKnl at this
      split at this
      · rename_i m e
        exact hno m e
      · cases this

/-- Without names a line extends all its magnets and nothing else, and does not raise. -/
theorem C198_line_partial {α : Type} (order : Nat) (line : List String) (env : Env α) (hg : Good env) :
    (lineExtend order line none env).2 = true ∧
    (∀ n, (n ∉ line ∨ hasKnl env n = false) → (lineExtend order line none env).1 n = env n) ∧
    (∀ n ∈ line, ∀ m, env n = some (.mag m) →
      ∃ m', (lineExtend order line none env).1 n = some (.mag m') ∧ Same m' m ∧ m'.order = max m.order order) := by
  obtain ⟨h1, h2, h3⟩ := C198_list_partial order (line.filter (hasKnl env)) env hg
  have ok : (lineExtend order line none env).2 = true := h1.2 (fun n hn => (List.mem_filter.1 hn).2)
  refine ⟨ok, fun n hn => h2 n (fun c => ?_), fun n hn m e => ?_⟩
  · have := List.mem_filter.1 c
    rcases hn with hn | hn
    · exact hn this.1
    · rw [hn] at this
      exact absurd this.2 (by simp)
  · obtain ⟨m', a, b, _, c⟩ := h3 n m e
    exact ⟨m', a, b, c ok (List.mem_filter.2 ⟨hn, by simp [hasKnl, e]⟩)⟩

/-! ## Violations -/

/-- Without names the environment is documented to extend all its magnets: it raises, whatever it contains. -/
theorem C198_all_violated {α : Type} (order : Nat) (env : Env α) : envExtend order none env = (env, false) := rfl

abbrev tiny : Mag Unit := ⟨[0, 1 / 100000000000000000, 0, 0, 0, 0], [0, 0, 0, 0, 0, 0], 5, ()⟩

/-- A magnet with a strength of `1e-17` which has the order asked for already loses it. -/
theorem C198_tiny_violated : Made tiny ∧ strength tiny.knl 1 ≠ 0 ∧ strength (extendOne 3 tiny).knl 1 = 0 := by
  unfold Made
  decide +kernel

/-! ## The hypotheses are met -/

abbrev quad : Mag Unit := ⟨[0, 1 / 2, 0, 0, 0, 0], [0, 0, 0, 0, 0, 0], 5, ()⟩

abbrev env0 : Env Unit := fun n => if n = "q" then some (.mag quad) else if n = "m" then some (.other ()) else none

example : Good env0 ∧ (lineExtend 7 ["q", "m", "q"] none env0).2 = true ∧
    (lineExtend 7 ["q", "m", "q"] none env0).1 "q" = some (.mag ⟨[0, 1 / 2, 0, 0, 0, 0, 0, 0], [0, 0, 0, 0, 0, 0, 0, 0], 5, ()⟩) ∧
    (envExtend 7 (some ["q", "m"]) env0).2 = false := by
  refine ⟨?_, by decide +kernel, by decide +kernel, by decide +kernel⟩
  intro n m e
  unfold env0 at e
  split at e
  · simp only [Option.some.injEq, Entry.mag.injEq] at e
    subst e
    unfold Made Solid
    decide +kernel
  · split at e <;> simp at e

end Verif.Extend
