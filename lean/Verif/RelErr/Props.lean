import Verif.RelErr.Model

/-!
# C194: relative multipolar errors follow the strength of the magnet
-/

namespace Verif.RelErr

/-! ## Specification -/

/-- The strength to which the errors of an element are relative, if none is given. -/
def reference : Cls → Option String
  | .bend | .rbend => some "_k0"
  | .quadrupole => some "k1"
  | .sextupole => some "k2"
  | .octupole => some "k3"
  | .replica | .slice | .others => none

/-- All components are numbers. -/
def Plain (cs : List Comp) : Prop := ∀ c ∈ cs, ∃ x, c.slot = .num x

/-- The given error of a component, zero if none. -/
def errorOf (es : List Rat) (i : Nat) : Rat := es[i]?.getD 0

/-! ## Lemmas -/

theorem setErrs_value (b : Body) (r : String) : ∀ (es : List Rat) (cs out : List Comp), Plain cs → setErrs b r es cs = .ok out →
    out.length = cs.length ∧ ∀ (i : Nat) (h : i < cs.length) (h' : i < out.length) (b' : Body),
      out[i].value b' = cs[i].value b + errorOf es i * b'.strength r * b'.length := by
  intro es
  induction es with
  | nil =>
    intro cs out hp h
    simp only [setErrs, Except.ok.injEq] at h
    subst h
    refine ⟨rfl, ?_⟩
    intro i hi _ b'
    obtain ⟨x, hx⟩ := hp cs[i] (List.getElem_mem hi)
    simp only [errorOf, Comp.value, hx, List.getElem?_nil, Option.getD_none]
    grind
  | cons e es ih =>
    intro cs out hp h
    cases cs with
    | nil => exact absurd h (by simp [setErrs])
    | cons c cs =>
      simp only [setErrs] at h
      cases ht : setErrs b r es cs with
      | error x => rw [ht] at h; exact absurd h (by simp [Except.map])
      | ok t =>
        rw [ht] at h
        simp only [Except.map, Except.ok.injEq] at h
        subst h
        obtain ⟨h1, h2⟩ := ih cs t (fun d hd => hp d (List.mem_cons_of_mem _ hd)) ht
        refine ⟨by simp [h1], ?_⟩
        intro i hi hi' b'
        cases i with
        | zero =>
          obtain ⟨x, hx⟩ := hp c List.mem_cons_self
          simp [errorOf, setErr, Comp.value, hx]
        | succ i =>
          have := h2 i (by simpa using hi) (by simpa using hi') b'
          simpa [errorOf] using this

/-- With enough components the loop succeeds. -/
theorem setErrs_ok (b : Body) (r : String) : ∀ (es : List Rat) (cs : List Comp),
    (∃ out, setErrs b r es cs = .ok out) ↔ es.length ≤ cs.length := by
  intro es
  induction es with
  | nil => intro cs; simp [setErrs]
  | cons e es ih =>
    intro cs
    cases cs with
    | nil => simp [setErrs]
    | cons c cs =>
      have := ih cs
      simp only [setErrs, List.length_cons, Nat.add_le_add_iff_right, ← this]
      cases setErrs b r es cs with
      | error x => simp [Except.map]
      | ok t => simp [Except.map]

theorem defaultRefer_eq (c : Cls) : defaultRefer c = reference c := by cases c <;> rfl

/-! ## C194 -/

/-- C194: errors set once on components which are numbers: each component is its number plus the error times the reference strength times the
length, whatever strength and length are later; the class, strengths and length are not touched. -/
theorem C194_once_partial (g : Given) (x y : Elem) (hk : Plain x.knl) (hs : Plain x.ksl) (h : setElem g x = .ok y) :
    ∃ r, (g.refer = some r ∨ g.refer = none ∧ reference x.cls = some r) ∧ y.cls = x.cls ∧ y.body = x.body ∧
      y.knl.length = x.knl.length ∧ y.ksl.length = x.ksl.length ∧
      (∀ (i : Nat) (h : i < x.knl.length) (h' : i < y.knl.length) (b : Body),
        y.knl[i].value b = x.knl[i].value x.body + errorOf g.knl i * b.strength r * b.length) ∧
      (∀ (i : Nat) (h : i < x.ksl.length) (h' : i < y.ksl.length) (b : Body),
        y.ksl[i].value b = x.ksl[i].value x.body + errorOf g.ksl i * b.strength r * b.length) := by
  unfold setElem at h
  split at h
  · exact absurd h (by simp)
  · split at h
    · exact absurd h (by simp)
    · rename_i r hr
      refine ⟨r, ?_, ?_⟩
      · rw [defaultRefer_eq] at hr
        cases hg : g.refer with
        | none => rw [hg] at hr; exact Or.inr ⟨rfl, by simpa using hr⟩
        | some q => rw [hg] at hr; exact Or.inl (by simpa using hr)
      · cases h1 : setErrs x.body r g.knl x.knl with
        | error e => rw [h1] at h; exact absurd h (by simp [bind, Except.bind])
        | ok knl =>
          cases h2 : setErrs x.body r g.ksl x.ksl with
          | error e => rw [h1, h2] at h; exact absurd h (by simp [bind, Except.bind])
          | ok ksl =>
            rw [h1, h2] at h
            simp only [bind, Except.bind, Except.ok.injEq] at h
            subst h
            obtain ⟨a1, a2⟩ := setErrs_value _ _ _ _ _ hk h1
            obtain ⟨b1, b2⟩ := setErrs_value _ _ _ _ _ hs h2
            exact ⟨rfl, rfl, a1, b1, a2, b2⟩

/-- C194: errors can be set exactly if the element is no replica or slice, has a reference strength or one is given, and has as many components. -/
theorem C194_accepts (g : Given) (x : Elem) : (∃ y, setElem g x = .ok y) ↔
    x.cls ≠ .replica ∧ x.cls ≠ .slice ∧ (g.refer ≠ none ∨ reference x.cls ≠ none) ∧
      g.knl.length ≤ x.knl.length ∧ g.ksl.length ≤ x.ksl.length := by
  unfold setElem
  split
  · rename_i h
    constructor
    · rintro ⟨y, hy⟩; exact absurd hy (by simp)
    · rintro ⟨h1, h2, -⟩; rcases h with h | h
      · exact absurd h h1
      · exact absurd h h2
  · rename_i h
    rw [not_or] at h
    simp only [ne_eq, h.1, h.2, not_false_eq_true, true_and, defaultRefer_eq]
    split
    · rename_i hr
      rw [Option.or_eq_none_iff] at hr
      simp [hr.1, hr.2]
    · rename_i r hr
      have hn : ¬g.refer = none ∨ ¬reference x.cls = none := by
        cases hg : g.refer with
        | some q => simp
        | none => rw [hg] at hr; right; simp at hr; simp [hr]
      simp only [hn, true_and]
      rw [← setErrs_ok x.body r g.knl x.knl, ← setErrs_ok x.body r g.ksl x.ksl]
      cases setErrs x.body r g.knl x.knl with
      | error e => simp [bind, Except.bind]
      | ok k =>
        cases setErrs x.body r g.ksl x.ksl with
        | error e => simp [bind, Except.bind]
        | ok s => simp [bind, Except.bind]

/-- C194: elements which are not in the dictionary of errors are not touched. -/
theorem C194_others (gs : List (String × Given)) (n : String) (hn : ∀ g ∈ gs, g.1 ≠ n) : ∀ (env out : String → Option Elem),
    setAll gs env = .ok out → out n = env n := by
  unfold setAll
  induction gs with
  | nil =>
    intro env out h
    simp only [List.foldlM_nil, pure, Except.pure, Except.ok.injEq] at h
    rw [h]
  | cons g gs ih =>
    intro env out h
    rw [List.foldlM_cons] at h
    cases hx : env g.1 with
    | none => simp only [hx] at h; exact absurd h (by simp [bind, Except.bind])
    | some x =>
      simp only [hx] at h
      cases hy : setElem g.2 x with
      | error e => simp only [hy] at h; exact absurd h (by simp [bind, Except.bind])
      | ok y =>
        simp only [hy, bind, Except.bind] at h
        have := ih (fun g' hg' => hn g' (List.mem_cons_of_mem _ hg')) _ out h
        rw [this, if_neg (fun hh => hn g List.mem_cons_self hh.symm)]

/-- What setting an error a second time does: the new error counts twice, and half of it does not follow the strength. -/
theorem again (b b' : Body) (r : String) (x e e' : Rat) (c : Comp) (hc : c.slot = .num x) :
    (setErr b r e' (setErr b r e c)).value b' = x + e' * b.strength r * b.length + e' * b'.strength r * b'.length := by
  simp [setErr, hc, Comp.value]

/-- C194, violated: for every element and error other than zero, setting it a second time gives twice the error. -/
theorem C194_again_violated (b : Body) (r : String) (x e : Rat) (c : Comp) (hc : c.slot = .num x) (h : e * b.strength r * b.length ≠ 0) :
    (setErr b r e c).value b = x + e * b.strength r * b.length ∧
      (setErr b r e (setErr b r e c)).value b = x + 2 * (e * b.strength r * b.length) ∧
      (setErr b r e (setErr b r e c)).value b ≠ (setErr b r e c).value b := by
  have h1 : (setErr b r e c).value b = x + e * b.strength r * b.length := by simp [setErr, hc, Comp.value]
  have h2 := again b b r x e e c hc
  refine ⟨h1, ?_, ?_⟩
  · rw [h2]; grind
  · rw [h1, h2]; grind

/-- C194, violated: errors of components which have an expression are dropped without an error: for every expression the value is the one without
the error. -/
theorem C194_expression_violated (b b' : Body) (r : String) (e : Rat) (f : Body → Rat) (c : Comp) (hc : c.slot = .other f) :
    (setErr b r e c).value b' = f b' := by
  simp [setErr, hc, Comp.value]

/-- A quadrupole with numbers. -/
example : ∃ y, setElem ⟨[1, 2], [3], none⟩ ⟨.quadrupole, ⟨fun n => if n = "k1" then 5 else 0, 2⟩, [⟨.num 1, 0⟩, ⟨.num 0, 0⟩, ⟨.num 7, 0⟩], [⟨.num 0, 0⟩]⟩ =
    .ok y := by
  rw [C194_accepts]
  decide

/-- A quadrupole on which an error counts twice. -/
example : (1 : Rat) * (⟨fun n => if n = "k1" then 5 else 0, 2⟩ : Body).strength "k1" * 2 ≠ 0 := by
  decide +kernel

end Verif.RelErr
