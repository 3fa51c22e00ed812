import Verif.Calls.Model

/-!
# C190: a file called by an environment works on this environment
-/

namespace Verif.Calls

/-! ## Specification -/

/-- In no file `get_environment` comes after a call of another file. -/
def Tidy : Bool → Script → Prop
  | _, .done => True
  | called, .get rest => called = false ∧ Tidy called rest
  | called, .define _ rest => Tidy called rest
  | _, .call file _ rest => Tidy false file ∧ Tidy true rest
  | _, .fail => True
  | _, .interrupt => True

/-- What has been defined since is all in the environment. -/
def Only (e : Nat) (s s' : St) : Prop := ∃ l, s'.log = s.log ++ l ∧ ∀ x ∈ l, x.1 = e

/-! ## Lemmas -/

theorem Only.refl (e : Nat) (s : St) : Only e s s := ⟨[], by simp, by simp⟩

theorem Only.trans {e : Nat} {a b c : St} (h : Only e a b) (k : Only e b c) : Only e a c := by
  obtain ⟨l, h1, h2⟩ := h
  obtain ⟨m, k1, k2⟩ := k
  refine ⟨l ++ m, by rw [k1, h1, List.append_assoc], ?_⟩
  intro x hx
  rcases List.mem_append.mp hx with hx | hx
  · exact h2 x hx
  · exact k2 x hx

theorem after_log (s : St) (r : End) : (after s r).log = s.log := by cases r <;> rfl

theorem Only.of_log {e : Nat} {a b c : St} (h : Only e a b) (hl : c.log = b.log) : Only e a c := by
  obtain ⟨l, h1, h2⟩ := h
  exact ⟨l, hl.trans h1, h2⟩

theorem run_only (e : Nat) (f : Script) : ∀ (called : Bool) (env : Option Nat) (s : St), Tidy called f →
    (env = none ∨ env = some e) → (called = false → s.passed = some e) → Only e s (run f env s).1 := by
  induction f with
  | done => intro _ _ s _ _ _; exact Only.refl e s
  | get rest ih =>
    intro called env s ht _ hp
    obtain ⟨hc, ht⟩ := ht
    have hs := hp hc
    have hg : getEnv s = (e, s) := by unfold getEnv; rw [hs]
    simp only [run, hg]
    exact ih called _ s ht (.inr rfl) hp
  | define n rest ih =>
    intro called env s ht he hp
    rcases he with rfl | rfl
    · exact Only.refl e s
    · have h1 : Only e s { s with log := s.log ++ [(e, n)] } := ⟨[(e, n)], rfl, by simp⟩
      exact h1.trans (ih called (some e) _ ht (.inr rfl) hp)
  | call file caught rest ihf ihr =>
    intro called env s ht he hp
    rcases he with rfl | rfl
    · exact Only.refl e s
    · have h0 : Only e s { s with passed := some e } := ⟨[], by simp, by simp⟩
      have h1 := h0.trans (ihf false none { s with passed := some e } ht.1 (.inl rfl) (fun _ => rfl))
      have h2 := h1.of_log (after_log _ (run file none { s with passed := some e }).2)
      have h3 := h2.trans (ihr true (some e) _ ht.2 (.inr rfl) (by simp))
      simp only [run]
      split
      · exact h3
      · split
        · exact h3
        · exact h2
      · exact h2
  | fail => intro _ _ s _ _ _; exact Only.refl e s
  | interrupt => intro _ _ s _ _ _; exact Only.refl e s

/-! ## C190 -/

/-- C190 (definitions): if no file asks for the environment after it has called another one, all which is defined in the
file and in those called from it, however deep and whatever fails, is in the environment which calls. -/
theorem C190_definitions_partial (e : Nat) (f : Script) (s : St) (h : Tidy false f) : Only e s (call e f s).1 := by
  have h0 : Only e s { s with passed := some e } := ⟨[], by simp, by simp⟩
  exact (h0.trans (run_only e f false none _ h (.inl rfl) (fun _ => rfl))).of_log (after_log _ _)

/-- C190 (definitions), violated: what a file defines after it has called another file and asked again is in a new environment,
which is lost. -/
theorem C190_definitions_violated (e : Nat) (s : St) (n : Nat) (hn : e ≠ s.next) :
    (call e (.get (.call .done false (.get (.define n .done)))) s).1.log = s.log ++ [(s.next, n)] ∧
      ¬ Only e s (call e (.get (.call .done false (.get (.define n .done)))) s).1 := by
  have h1 : (call e (.get (.call .done false (.get (.define n .done)))) s).1.log = s.log ++ [(s.next, n)] := by
    simp [call, run, getEnv, after]
  refine ⟨h1, ?_⟩
  rintro ⟨l, h2, h3⟩
  rw [h1] at h2
  have : l = [(s.next, n)] := (List.append_cancel_left h2).symm
  subst this
  exact hn (h3 (s.next, n) (by simp)).symm

/-- C190 (afterwards): after a call which has ended or failed the next one who asks gets a new environment. -/
theorem C190_afterwards_partial (e : Nat) (f : Script) (s : St) (h : (call e f s).2 ≠ .interrupt) :
    (call e f s).1.passed = none ∧ (getEnv (call e f s).1).1 = (call e f s).1.next := by
  have hp : (call e f s).1.passed = none := by
    unfold call at h ⊢
    dsimp only at h ⊢
    cases hr : (run f none { s with passed := some e }).2 with
    | done => rfl
    | exc => rfl
    | interrupt => exact absurd hr h
  exact ⟨hp, by simp [getEnv, hp]⟩

/-- C190 (afterwards), violated: after an interrupted call everyone who asks gets the environment which called. -/
theorem C190_afterwards_violated (e : Nat) (s : St) : (getEnv (call e (.get .interrupt) s).1).1 = e := by
  simp [call, run, getEnv, after]

/-- Files which call files, of which one fails. -/
example : Tidy false (.get (.define 1 (.call (.get (.define 2 .fail)) true (.define 3 (.call (.get (.define 4 .done)) false (.define 5 .done)))))) ∧
    (call 7 (.get (.define 1 (.call (.get (.define 2 .fail)) true (.define 3 (.call (.get (.define 4 .done)) false (.define 5 .done)))))) {}).1.log =
      [(7, 1), (7, 2), (7, 3), (7, 4), (7, 5)] := by
  refine ⟨by simp [Tidy], by decide⟩

end Verif.Calls
