import Verif.Proto.Model

/-!
# C141: an element created from another one

What is given at creation is what the attribute is; what is not given follows the prototype as it was defined then; whatever is
assigned later to the variables.
-/

namespace Verif.Proto

/-- The expression of a definition. -/
def Arg.toTask : Arg → Option Expr
  | .num _ => none
  | .expr e => some e

/-- The state agrees with the specification. -/
structure Agrees (s : Env) (d : Defs) : Prop where
  vars : s.vars = d.vars
  has : s.has = d.has
  value : ∀ n f, d.has n = true → s.value n f = (d.dfn n f).val d.vars
  task : ∀ n f, d.has n = true → s.task n f = (d.dfn n f).toTask
  clean : ∀ n f, d.has n = false → s.task n f = none
  honest : ∀ n f e, d.has n = true → d.dfn n f = .expr e → e.Honest

theorem agrees_empty (vars : ℕ → ℚ) : Agrees (empty vars) (Defs.empty vars) := by
  constructor <;> simp [empty, Defs.empty]

theorem agrees_step {s s' : Env} {d : Defs} (h : Agrees s d) (o : Op) (hh : o.Honest) (hc : Careful d o) (hs : step s o = some s') :
    Agrees s' (d.step o) := by
  obtain ⟨hv, hhas, hval, htask, hclean, hhon⟩ := h
  cases o with
  | setVar v x =>
    simp only [step, Option.some.injEq] at hs
    subst hs
    refine ⟨by simp [Defs.step, hv], by simp [Defs.step, hhas], ?_, ?_, ?_, ?_⟩
    · intro n f hn
      simp only [Defs.step] at hn ⊢
      rw [htask n f hn, hval n f hn]
      cases hd : d.dfn n f with
      | num q => simp [Arg.toTask, Arg.val]
      | expr e =>
        simp only [Arg.toTask, Arg.val, hv]
        by_cases hm : v ∈ e.deps
        · rw [if_pos hm]
        · rw [if_neg hm]
          refine hhon n f e hn hd _ _ fun w hw => ?_
          have : w ≠ v := fun hwv => hm (hwv ▸ hw)
          simp [this]
    · intro n f hn; exact htask n f hn
    · intro n f hn; exact hclean n f hn
    · intro n f e hn; exact hhon n f e hn
  | newClass n dflt kw force =>
    simp only [Careful] at hc
    simp only [step, hhas, hc] at hs
    simp only [Bool.false_eq_true, false_and, if_false, Option.some.injEq] at hs
    subst hs
    refine ⟨by simp [Defs.step, initKwargs, instantiate, hv], by simp [Defs.step, initKwargs, instantiate, hhas], ?_, ?_, ?_, ?_⟩
    · intro m f hm
      by_cases e : m = n
      · subst e
        simp only [initKwargs, instantiate, Defs.step, if_pos, hv]
        cases kw f <;> simp [Arg.val]
      · simp only [Defs.step, if_neg e] at hm
        simp only [initKwargs, instantiate, Defs.step, if_neg e]
        exact hval m f hm
    · intro m f hm
      by_cases e : m = n
      · subst e
        simp only [initKwargs, instantiate, Defs.step, if_pos, hclean m f hc]
        rcases kw f with _ | (_ | _) <;> simp [Arg.toTask]
      · simp only [Defs.step, if_neg e] at hm
        simp only [initKwargs, instantiate, Defs.step, if_neg e]
        exact htask m f hm
    · intro m f hm
      by_cases e : m = n
      · simp [Defs.step, e] at hm
      · simp only [Defs.step, if_neg e] at hm
        simp only [initKwargs, instantiate, if_neg e]
        exact hclean m f hm
    · intro m f ex hm hd
      by_cases e : m = n
      · subst e
        simp only [Defs.step, if_pos] at hd
        cases hk : kw f with
        | none => simp [hk] at hd
        | some a => simp only [hk, Option.getD_some] at hd; exact hh f ex (by rw [hk, hd])
      · simp only [Defs.step, if_neg e] at hm hd
        exact hhon m f ex hm hd
  | newFrom n p kw force =>
    simp only [Careful] at hc
    obtain ⟨hc, hcn⟩ := hc
    simp only [step, hhas, hc] at hs
    simp only [Bool.false_eq_true, false_and, if_false] at hs
    by_cases hp : d.has p = false ∨ n = p
    · rw [if_pos hp] at hs; cases hs
    rw [if_neg hp, Option.some.injEq] at hs
    subst hs
    have hp1 : d.has p = true := by
      cases h : d.has p
      · exact absurd (Or.inl h) hp
      · rfl
    have hp2 : n ≠ p := fun h => hp (Or.inr h)
    refine ⟨by simp [Defs.step, initKwargs, copyFrom, hv], by simp [Defs.step, initKwargs, copyFrom, hhas], ?_, ?_, ?_, ?_⟩
    · intro m f hm
      by_cases e : m = n
      · subst e
        simp only [initKwargs, copyFrom, Defs.step, if_pos, hv, htask p f hp1, hval p f hp1]
        cases hk : kw f with
        | some a => simp
        | none => cases hd : d.dfn p f <;> simp [Arg.val, Arg.toTask]
      · simp only [Defs.step, if_neg e] at hm
        simp only [initKwargs, copyFrom, Defs.step, if_neg e]
        exact hval m f hm
    · intro m f hm
      by_cases e : m = n
      · subst e
        simp only [initKwargs, copyFrom, Defs.step, if_pos, hclean m f hc, htask p f hp1]
        rcases hk : kw f with _ | (q | e')
        · cases hd : d.dfn p f <;> simp [Arg.toTask]
        · cases hd : d.dfn p f with
          | num q' => simp [Arg.toTask]
          | expr e' => exact absurd hd (hcn f q e' hk)
        · simp [Arg.toTask]
      · simp only [Defs.step, if_neg e] at hm
        simp only [initKwargs, copyFrom, Defs.step, if_neg e]
        exact htask m f hm
    · intro m f hm
      by_cases e : m = n
      · simp [Defs.step, e] at hm
      · simp only [Defs.step, if_neg e] at hm
        simp only [initKwargs, copyFrom, if_neg e]
        exact hclean m f hm
    · intro m f ex hm hd
      by_cases e : m = n
      · subst e
        simp only [Defs.step, if_pos] at hd
        cases hk : kw f with
        | none => simp only [hk, Option.getD_none] at hd; exact hhon p f ex hp1 hd
        | some a => simp only [hk, Option.getD_some] at hd; exact hh f ex (by rw [hk, hd])
      · simp only [Defs.step, if_neg e] at hm hd
        exact hhon m f ex hm hd
  | set n kw =>
    simp only [step, hhas] at hs
    by_cases hn : d.has n = false
    · rw [if_pos hn] at hs; cases hs
    rw [if_neg hn, Option.some.injEq] at hs
    subst hs
    have hn1 : d.has n = true := by simpa using hn
    refine ⟨by simp [Defs.step, setKwargs, hv], by simp [Defs.step, setKwargs, hhas], ?_, ?_, ?_, ?_⟩
    · intro m f hm
      by_cases e : m = n
      · subst e
        simp only [setKwargs, Defs.step, if_pos, hv, hval m f hn1]
        cases kw f <;> simp
      · simp only [Defs.step] at hm
        simp only [setKwargs, Defs.step, if_neg e]
        exact hval m f hm
    · intro m f hm
      by_cases e : m = n
      · subst e
        simp only [setKwargs, Defs.step, if_pos, htask m f hn1]
        rcases kw f with _ | (_ | _) <;> simp [Arg.toTask]
      · simp only [Defs.step] at hm
        simp only [setKwargs, Defs.step, if_neg e]
        exact htask m f hm
    · intro m f hm
      by_cases e : m = n
      · subst e; simp only [Defs.step] at hm; exact absurd hm hn
      · simp only [Defs.step] at hm
        simp only [setKwargs, if_neg e]
        exact hclean m f hm
    · intro m f ex hm hd
      by_cases e : m = n
      · subst e
        simp only [Defs.step, if_pos] at hd
        cases hk : kw f with
        | none => simp only [hk, Option.getD_none] at hd; exact hhon m f ex hn1 hd
        | some a => simp only [hk, Option.getD_some] at hd; exact hh f ex (by rw [hk, hd])
      · simp only [Defs.step, if_neg e] at hm hd
        exact hhon m f ex hm hd
  | remove n =>
    simp only [step, hhas] at hs
    by_cases hn : d.has n = false
    · rw [if_pos hn] at hs; cases hs
    rw [if_neg hn, Option.some.injEq] at hs
    subst hs
    refine ⟨by simp [Defs.step, hv], by simp [Defs.step], ?_, ?_, ?_, ?_⟩
    · intro m f hm
      by_cases e : m = n
      · simp [Defs.step, e] at hm
      · simp only [Defs.step, if_neg e] at hm; exact hval m f hm
    · intro m f hm
      by_cases e : m = n
      · simp [Defs.step, e] at hm
      · simp only [Defs.step, if_neg e] at hm ⊢; exact htask m f hm
    · intro m f hm
      by_cases e : m = n
      · simp [e]
      · simp only [Defs.step, if_neg e] at hm ⊢; exact hclean m f hm
    · intro m f ex hm hd
      by_cases e : m = n
      · simp [Defs.step, e] at hm
      · simp only [Defs.step, if_neg e] at hm hd; exact hhon m f ex hm hd

theorem agrees_run : ∀ (ops : List Op) (s s' : Env) (d : Defs), Agrees s d → (∀ o ∈ ops, o.Honest) → AllCareful d ops →
    run s ops = some s' → Agrees s' (d.run ops)
  | [], s, s', d, h, _, _, hr => by simp only [run, Option.some.injEq] at hr; subst hr; exact h
  | o :: t, s, s', d, h, hh, hc, hr => by
    simp only [run] at hr
    cases hs : step s o with
    | none => simp [hs] at hr
    | some s1 =>
      simp only [hs] at hr
      exact agrees_run t s1 s' _ (agrees_step h o (hh o (by simp)) hc.1 hs) (fun o' ho => hh o' (by simp [ho])) hc.2 hr

/-- **C141.** After any sequence of creations, assignments to attributes and variables, and removals, every attribute of every
element has the value of its definition: what was last given for it, else what its prototype was defined to be when it was created,
else the default of its class. *Missing*: elements overwritten with `force=True` and attributes given as numbers where the prototype
has an expression; both fail, see below. -/
theorem C141_partial (vars : ℕ → ℚ) (ops : List Op) (s : Env) (hh : ∀ o ∈ ops, o.Honest) (hc : AllCareful (Defs.empty vars) ops)
    (hr : run (empty vars) ops = some s) (n f : ℕ) (hn : ((Defs.empty vars).run ops).has n = true) :
    s.value n f = (((Defs.empty vars).run ops).dfn n f).val s.vars := by
  have h := agrees_run ops _ _ _ (agrees_empty vars) hh hc hr
  rw [h.value n f hn, h.vars]

/-- The calls which are refused are those which name an element that exists already (without `force`) or one that does not exist. -/
theorem C141_refused (s : Env) (o : Op) : step s o = none ↔
    match o with
    | .setVar _ _ => False
    | .newClass n _ _ force => s.has n = true ∧ force = false
    | .newFrom n p _ force => (s.has n = true ∧ force = false) ∨ s.has p = false ∨ n = p
    | .set n _ => s.has n = false
    | .remove n => s.has n = false := by
  cases o with
  | setVar v x => simp [step]
  | newClass n dflt kw force => by_cases h : s.has n = true ∧ force = false <;> simp [step, h]
  | newFrom n p kw force =>
    by_cases h : s.has n = true ∧ force = false
    · simp [step, h]
    · by_cases h' : s.has p = false ∨ n = p
      · simp only [step, if_neg h, if_pos h', true_iff]; exact Or.inr h'
      · simp only [step, if_neg h, if_neg h', false_iff, reduceCtorEq]
        rintro (a | a)
        · exact h a
        · exact h' a
  | set n kw => cases h : s.has n <;> simp [step, h]
  | remove n => cases h : s.has n <;> simp [step, h]

/-- The expression `v`. -/
def var (v : ℕ) : Expr := ⟨[v], fun a => a v⟩

theorem var_honest (v : ℕ) : (var v).Honest := fun a b h => h v (by simp [var])

/-- One keyword argument. -/
def kw1 (f : ℕ) (a : Arg) : Kwargs := fun g => if g = f then some a else none

/-- `qf` has `k1='kq'`; `qd` is made from it with `k1='-kq'`; the variable is changed; then `qd.k1` is assigned a number. -/
def demo : List Op :=
  [.newClass 0 (fun _ => 0) (kw1 7 (.expr (var 1))) false,
   .newFrom 1 0 (kw1 7 (.expr ⟨[1], fun a => -a 1⟩)) false,
   .setVar 1 3, .set 1 (kw1 7 (.num 5)), .setVar 1 4]

example : (∀ o ∈ demo, o.Honest) ∧ AllCareful (Defs.empty fun _ => 0) demo ∧
    ((run (empty fun _ => 0) demo).map fun s => (s.value 0 7, s.value 1 7)) = some (4, 5) := by
  refine ⟨?_, ?_, ?_⟩
  · intro o ho
    simp only [demo, List.mem_cons, List.not_mem_nil, or_false] at ho
    rcases ho with rfl | rfl | rfl | rfl | rfl
    · intro f e he
      simp only [kw1] at he
      split_ifs at he with hf
      · simp only [Option.some.injEq, Arg.expr.injEq] at he; subst he; exact var_honest 1
    · intro f e he
      simp only [kw1] at he
      split_ifs at he with hf
      · simp only [Option.some.injEq, Arg.expr.injEq] at he; subst he
        intro a b h
        simp only [neg_inj]
        exact h 1 (by simp)
    · trivial
    · intro f e he
      simp only [kw1] at he
      split_ifs at he with hf
      · simp at he
    · trivial
  · refine ⟨rfl, ⟨rfl, ?_⟩, trivial, trivial, trivial, trivial⟩
    intro f q e h
    simp only [kw1] at h
    split_ifs at h
    · simp at h
  · simp [demo, run, step, empty, initKwargs, instantiate, copyFrom, setKwargs, kw1, var, Arg.val]

/-- **C141 fails** for a number given where the prototype has an expression: the value is right at first, and is overwritten with
that of the prototype's expression when the variable changes. Here `env.new('qf', 'Quadrupole', k1='kq')`,
`env.new('qd', 'qf', k1=5)`, `env['kq'] = 3`: `qd.k1` is 3. -/
theorem C141_override_violated :
    ∃ ops : List Op, (∃ n p kw, Op.newFrom n p kw false ∈ ops) ∧ ∃ s,
      run (empty fun _ => 0) ops = some s ∧ (((Defs.empty fun _ => 0).run ops).dfn 1 7).val s.vars = 5 ∧ s.value 1 7 = 3 ∧
      ∃ s0, run (empty fun _ => 0) (ops.take 2) = some s0 ∧ s0.value 1 7 = 5 := by
  refine ⟨[.newClass 0 (fun _ => 0) (kw1 7 (.expr (var 1))) false, .newFrom 1 0 (kw1 7 (.num 5)) false, .setVar 1 3],
    ⟨1, 0, kw1 7 (.num 5), by simp⟩, ?_⟩
  simp [run, step, empty, initKwargs, instantiate, copyFrom, kw1, var, Arg.val, Defs.run, Defs.step, Defs.empty]

/-- **C141 fails** for an element overwritten with `force=True`: the expression of the old element is still there. Here
`env.new('q', 'Quadrupole', k1='kq')`, `env.new('q', 'Quadrupole', k1=5, force=True)`, `env['kq'] = 3`: `q.k1` is 3. -/
theorem C141_force_violated :
    ∃ ops : List Op, (∃ n d kw, Op.newClass n d kw true ∈ ops) ∧ ∃ s,
      run (empty fun _ => 0) ops = some s ∧ (((Defs.empty fun _ => 0).run ops).dfn 0 7).val s.vars = 5 ∧ s.value 0 7 = 3 := by
  refine ⟨[.newClass 0 (fun _ => 0) (kw1 7 (.expr (var 1))) false, .newClass 0 (fun _ => 0) (kw1 7 (.num 5)) true, .setVar 1 3],
    ⟨0, fun _ => 0, kw1 7 (.num 5), by simp⟩, ?_⟩
  simp [run, step, empty, initKwargs, instantiate, kw1, var, Arg.val, Defs.run, Defs.step, Defs.empty]

end Verif.Proto
