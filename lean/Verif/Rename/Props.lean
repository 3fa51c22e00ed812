import Verif.Rename.Model

/-!
# C192: renaming a variable changes nothing but its name
-/

namespace Verif.Rename

/-! ## Specification -/

/-- How a name is called afterwards. -/
def called (old new n : String) : String := if n = old then new else n

/-- The new name is not there and nothing depends on it. -/
structure Fresh (s : St) (new : String) : Prop where
  undefined : s.defs new = none
  unused : ∀ n d, s.defs n = some d → d.uses new = false

/-! ## Lemmas -/

theorem subst_unused {old new : String} : ∀ {e : Expr}, e.uses old = false → e.subst old new = e := by
  intro e
  induction e with
  | num v => intro _; rfl
  | var m =>
    intro h
    have : m ≠ old := by simpa [Expr.uses] using h
    simp [Expr.subst, this]
  | fn f a ih => intro h; simp only [Expr.subst, ih h]
  | op f a b iha ihb =>
    intro h
    simp only [Expr.uses, Bool.or_eq_false_iff] at h
    simp only [Expr.subst, iha h.1, ihb h.2]

theorem dsubst_unused {old new : String} {d : Def} (h : d.uses old = false) : d.subst old new = d := by
  cases d with
  | val v => rfl
  | expr e => exact congrArg Def.expr (subst_unused h)

theorem subst_uses {old new : String} (hne : new ≠ old) : ∀ e : Expr, (e.subst old new).uses old = false := by
  intro e
  induction e with
  | num v => rfl
  | var m =>
    by_cases h : m = old
    · simp [Expr.subst, Expr.uses, h, hne]
    · simp [Expr.subst, Expr.uses, h]
  | fn f a ih => exact ih
  | op f a b iha ihb => simp [Expr.subst, Expr.uses, iha, ihb]

theorem dsubst_uses {old new : String} (hne : new ≠ old) (d : Def) : (d.subst old new).uses old = false := by
  cases d with
  | val v => rfl
  | expr e => exact subst_uses hne e

theorem ite_subst (old new : String) (d : Def) : (if d.uses old then d.subst old new else d) = d.subst old new := by
  cases h : d.uses old with
  | true => simp
  | false => simp [dsubst_unused h]

/-- The second environment is the first one with other names. -/
def Same (old new : String) (s t : St) : Prop :=
  ∀ n, n ≠ new → t.defs (called old new n) = (s.defs n).map (Def.subst old new)

/-- Nothing depends on the new name. -/
def Unused (s : St) (new : String) : Prop := ∀ n d, s.defs n = some d → d.uses new = false

theorem eval_same {old new : String} {r r' : String → Option Int} : ∀ e : Expr, e.uses new = false →
    (∀ n, n ≠ new → r' (called old new n) = r n) → (e.subst old new).eval r' = e.eval r := by
  intro e hu hr
  induction e with
  | num v => rfl
  | var m =>
    have hm : m ≠ new := by simpa [Expr.uses] using hu
    exact hr m hm
  | fn f a ih => simp only [Expr.subst, Expr.eval, ih hu]
  | op f a b iha ihb =>
    simp only [Expr.uses, Bool.or_eq_false_iff] at hu
    simp only [Expr.subst, Expr.eval, iha hu.1, ihb hu.2]

theorem value_same {old new : String} {s t : St} (h : Same old new s t) (hu : Unused s new) (k : Nat) :
    ∀ n, n ≠ new → t.value k (called old new n) = s.value k n := by
  induction k with
  | zero => intro n _; rfl
  | succ k ih =>
    intro n hn
    simp only [St.value, h n hn]
    cases hd : s.defs n with
    | none => rfl
    | some d =>
      cases d with
      | val v => rfl
      | expr e => exact eval_same e (hu n _ hd) ih

theorem called_inj {old new n m : String} (hn : n ≠ new) (hm : m ≠ new) (h : called old new n = called old new m) : n = m := by
  unfold called at h
  split at h <;> split at h
  · rename_i a b; rw [a, b]
  · exact absurd h.symm hm
  · exact absurd h hn
  · exact h

theorem same_set {old new : String} {s t : St} (h : Same old new s t) (n : String) (hn : n ≠ new) (d : Def) :
    Same old new (s.set n d) (t.set (called old new n) (d.subst old new)) := by
  intro m hm
  simp only [St.set]
  by_cases hmn : m = n
  · subst hmn; simp
  · have : called old new m ≠ called old new n := fun hh => hmn (called_inj hm hn hh)
    simp only [hmn, this, if_false]
    exact h m hm

theorem rename_ok {s : St} {old new : String} (hf : Fresh s new) (d : Def) (hd : s.defs old = some d) :
    ∃ t, rename s old new = .ok t ∧ Same old new s t ∧ t.defs old = none := by
  have hne : new ≠ old := by
    intro h
    rw [← h, hf.undefined] at hd
    exact absurd hd (by simp)
  -- what the names have before the removal
  let s1 := s.set new (.val ((s.value (s.names.length + 1) old).getD 0))
  have h1 : s1.defs old = some d := by
    simp only [s1, St.set, if_neg (Ne.symm hne), hd]
  let s2 := match s1.defs old with
      | some (.expr e) => s1.set new (.expr e)
      | _ => s1
  have h2 : ∀ m, s2.defs m = if m = new then some d else s.defs m := by
    intro m
    simp only [s2, h1]
    cases d with
    | val v =>
      simp only [s1, St.set]
      by_cases hm : m = new
      · simp [hm, St.value, hd]
      · simp [hm]
    | expr e =>
      simp only [St.set, s1]
      by_cases hm : m = new <;> simp [hm]
  let s3 : St := { s2 with defs := fun m => (s2.defs m).map fun d => if d.uses old then d.subst old new else d }
  have h3 : ∀ m, s3.defs m = (if m = new then some d else s.defs m).map (Def.subst old new) := by
    intro m
    simp only [s3, h2 m]
    congr 1
    funext d
    exact ite_subst old new d
  have hu : s3.used old = false := by
    unfold St.used
    rw [List.any_eq_false]
    intro m _
    rw [h3 m]
    cases (if m = new then some d else s.defs m) with
    | none => simp
    | some x => simp [dsubst_uses hne]
  refine ⟨⟨s3.names.filter fun m => m ≠ old, fun m => if m = old then none else s3.defs m⟩, ?_, ?_, by simp⟩
  · have : rename s old new = s3.remove old := by
      unfold rename
      rw [hd]
      rfl
    rw [this]
    unfold St.remove
    rw [hu]
    rfl
  · intro n hn
    show (if called old new n = old then none else s3.defs (called old new n)) = _
    by_cases hno : n = old
    · subst hno
      have hc : called n new n = new := by simp [called]
      rw [hc, if_neg hne, h3, if_pos rfl, hd]
    · have hc : called old new n = n := by simp [called, hno]
      rw [hc, if_neg hno, h3, if_neg hn]

/-! ## C192 -/

/-- C192: if the new name is not in use, a variable can be renamed; all values are the same as before, those of the
variable under the new name, and the old name is gone. -/
theorem C192_values_partial (s : St) (old new : String) (hf : Fresh s new) (d : Def) (hd : s.defs old = some d)
    :
    ∃ t, rename s old new = .ok t ∧ t.defs old = none ∧ ∀ k n, n ≠ new → t.value k (called old new n) = s.value k n := by
  obtain ⟨t, h1, h2, h3⟩ := rename_ok hf d hd
  exact ⟨t, h1, h3, fun k n hn => value_same h2 hf.unused k n hn⟩

/-- C192: and it stays so: whatever numbers are given to variables afterwards, in whatever order, all values are what they would be
without renaming. -/
theorem C192_later_partial (s : St) (old new : String) (hf : Fresh s new) (d : Def) (hd : s.defs old = some d)
    (l : List (String × Int)) (hl : ∀ x ∈ l, x.1 ≠ new) :
    ∃ t, rename s old new = .ok t ∧ ∀ k n, n ≠ new →
      (l.foldl (fun t x => t.set (called old new x.1) (.val x.2)) t).value k (called old new n) =
        (l.foldl (fun s x => s.set x.1 (.val x.2)) s).value k n := by
  obtain ⟨t, h1, h2, -⟩ := rename_ok hf d hd
  refine ⟨t, h1, ?_⟩
  have key : ∀ (l : List (String × Int)) (s t : St), (∀ x ∈ l, x.1 ≠ new) → Same old new s t → Unused s new →
      Same old new (l.foldl (fun s x => s.set x.1 (.val x.2)) s) (l.foldl (fun t x => t.set (called old new x.1) (.val x.2)) t) ∧
        Unused (l.foldl (fun s x => s.set x.1 (.val x.2)) s) new := by
    intro l
    induction l with
    | nil => intro s t _ hs hu; exact ⟨hs, hu⟩
    | cons x xs ih =>
      intro s t hx hs hu
      refine ih _ _ (fun y hy => hx y (List.mem_cons_of_mem _ hy)) (same_set hs x.1 (hx x List.mem_cons_self) (.val x.2)) ?_
      intro n d' hd'
      simp only [St.set] at hd'
      split at hd'
      · cases hd'; rfl
      · exact hu n d' hd'
  obtain ⟨hs, hu⟩ := key l s t hl h2 hf.unused
  exact fun k n hn => value_same hs hu k n hn

/-- C192, violated: if there is a variable of the new name already it is overwritten without an error, and what depends
on it changes. -/
theorem C192_taken_violated : ∃ s t : St, rename s "a" "b" = .ok t ∧ s.value 2 "b" = some 5 ∧ t.value 2 "b" = some 1 ∧
    s.value 2 "c" = some 10 ∧ t.value 2 "c" = some 2 := by
  let s : St := ⟨["a", "b", "c"], fun n => if n = "a" then some (.val 1) else if n = "b" then some (.val 5)
    else if n = "c" then some (.expr (.fn (fun x => 2 * x) (.var "b"))) else none⟩
  refine ⟨s, ⟨["b", "c"], fun n => if n = "a" then none else ((if n = "b" then some (.val 1) else s.defs n).map
    fun d => if d.uses "a" then d.subst "a" "b" else d)⟩, ?_, ?_⟩
  · rfl
  · refine ⟨rfl, rfl, rfl, rfl⟩

/-- C192, violated: a variable renamed to its own name, on which nothing depends, is removed. -/
theorem C192_itself_violated : ∃ s t : St, rename s "a" "a" = .ok t ∧ s.value 1 "a" = some 1 ∧ t.value 1 "a" = none := by
  let s : St := ⟨["a"], fun n => if n = "a" then some (.val 1) else none⟩
  refine ⟨s, ⟨[], fun m => if m = "a" then none else (((s.set "a" (.val 1)).defs m).map
    fun d => if d.uses "a" then d.subst "a" "a" else d)⟩, ?_, rfl, rfl⟩
  rfl

/-- Variables which depend on each other. -/
example : Fresh ⟨["a", "c"], fun n => if n = "a" then some (.val 1)
    else if n = "c" then some (.expr (.fn (fun x => 2 * x) (.var "a"))) else none⟩ "b" := by
  refine ⟨rfl, ?_⟩
  intro n d h
  dsimp only at h
  split at h
  · cases h; rfl
  · split at h
    · cases h; rfl
    · exact absurd h (by simp)

end Verif.Rename
