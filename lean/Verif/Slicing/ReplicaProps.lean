import Verif.Slicing.Model
import Mathlib.Data.List.Perm.Subperm
import Mathlib.Logic.Relation

/-!
# C55: resolving replicas
-/

namespace Verif.Slicing

theorem get_mem (d : Dict) (n : String) (e : El) (h : get d n = some e) : n ∈ keys d := by
  induction d with
  | nil => exact absurd h (by simp [get])
  | cons x d ih =>
    rw [get] at h
    split at h
    · rename_i hx; subst hx; exact List.mem_cons_self
    · exact List.mem_cons_of_mem _ (ih h)

theorem get_none_iff (d : Dict) (n : String) : get d n = none ↔ n ∉ keys d := by
  induction d with
  | nil => simp [get, keys]
  | cons x d ih =>
    rw [get]
    split
    · rename_i hx; subst hx; simp [keys]
    · rename_i hx
      rw [ih]
      simp only [keys, List.map_cons, List.mem_cons, not_or]
      exact ⟨fun h => ⟨fun e => hx e.symm, h⟩, fun h => h.2⟩

/-- One step: `n` is a replica of `p`. -/
def Step (d : Dict) (n p : String) : Prop := get d n = some (.replica p)

/-- Following replicas from `n` one comes to `t`. -/
def Leads (d : Dict) : String → String → Prop := Relation.ReflTransGen (Step d)

/-- Not a replica. -/
def NotReplica : El → Prop
  | .replica _ => False
  | _ => True

theorem step_functional (d : Dict) (n p q : String) (h1 : Step d n p) (h2 : Step d n q) : p = q := by
  unfold Step at h1 h2
  rw [h1] at h2
  cases h2
  rfl

theorem resolveLoop_not_running (d : Dict) (fuel : Nat) (t : String) (l : List String)
    (hnd : (t :: l).Nodup) (hk : ∀ x ∈ l, x ∈ keys d) (hf : d.length < fuel + l.length) :
    resolveLoop d fuel (t :: l) t ≠ .running := by
  induction fuel generalizing t l with
  | zero =>
    exfalso
    have hsub : l.Subperm (keys d) := (List.nodup_cons.mp hnd).2.subperm hk
    have := hsub.length_le
    unfold keys at this
    rw [List.length_map] at this
    omega
  | succ fuel ih =>
    rw [resolveLoop]
    cases hg : get d t with
    | none => simp
    | some e =>
      cases e with
      | replica p =>
        simp only
        split
        · simp
        · rename_i hp
          apply ih p (t :: l) (List.nodup_cons.mpr ⟨hp, hnd⟩)
          · intro x hx
            rcases List.mem_cons.mp hx with rfl | hx
            · exact get_mem d _ _ hg
            · exact hk x hx
          · simp only [List.length_cons]; omega
      | thin => simp
      | body k l => simp
      | slice k p w o => simp

/-- **C55, the search ends.** -/
theorem resolve_not_running (d : Dict) (p : String) : resolve d p ≠ .running := by
  unfold resolve
  apply resolveLoop_not_running
  · simp
  · simp
  · simp

theorem resolveLoop_found (d : Dict) (fuel : Nat) (v : List String) (t r : String) (h : resolveLoop d fuel v t = .found r) :
    Leads d t r ∧ ∃ e, get d r = some e ∧ NotReplica e := by
  induction fuel generalizing t v with
  | zero => exact absurd h (by simp [resolveLoop])
  | succ fuel ih =>
    rw [resolveLoop] at h
    cases hg : get d t with
    | none => rw [hg] at h; exact absurd h (by simp)
    | some e =>
      rw [hg] at h
      cases e with
      | replica p =>
        simp only at h
        split at h
        · exact absurd h (by simp)
        · obtain ⟨h1, h2⟩ := ih _ _ h
          exact ⟨Relation.ReflTransGen.head hg h1, h2⟩
      | thin => simp only [Res.found.injEq] at h; subst h; exact ⟨Relation.ReflTransGen.refl, _, hg, trivial⟩
      | body k l => simp only [Res.found.injEq] at h; subst h; exact ⟨Relation.ReflTransGen.refl, _, hg, trivial⟩
      | slice k p w o => simp only [Res.found.injEq] at h; subst h; exact ⟨Relation.ReflTransGen.refl, _, hg, trivial⟩

theorem resolveLoop_keyError (d : Dict) (fuel : Nat) (v : List String) (t : String) (h : resolveLoop d fuel v t = .keyError) :
    ∃ r, Leads d t r ∧ get d r = none := by
  induction fuel generalizing t v with
  | zero => exact absurd h (by simp [resolveLoop])
  | succ fuel ih =>
    rw [resolveLoop] at h
    cases hg : get d t with
    | none => exact ⟨t, Relation.ReflTransGen.refl, hg⟩
    | some e =>
      rw [hg] at h
      cases e with
      | replica p =>
        simp only at h
        split at h
        · exact absurd h (by simp)
        · obtain ⟨r, h1, h2⟩ := ih _ _ h
          exact ⟨r, Relation.ReflTransGen.head hg h1, h2⟩
      | thin => exact absurd h (by simp)
      | body k l => exact absurd h (by simp)
      | slice k p w o => exact absurd h (by simp)

theorem resolveLoop_circular (d : Dict) (fuel : Nat) (v : List String) (t : String) (hv : ∀ x ∈ v, Leads d x t)
    (h : resolveLoop d fuel v t = .circular) : ∃ r, Leads d t r ∧ Relation.TransGen (Step d) r r := by
  induction fuel generalizing t v with
  | zero => exact absurd h (by simp [resolveLoop])
  | succ fuel ih =>
    rw [resolveLoop] at h
    cases hg : get d t with
    | none => rw [hg] at h; exact absurd h (by simp)
    | some e =>
      rw [hg] at h
      cases e with
      | replica p =>
        simp only at h
        split at h
        · rename_i hp
          refine ⟨t, Relation.ReflTransGen.refl, ?_⟩
          exact Relation.TransGen.head' hg (hv p hp)
        · obtain ⟨r, h1, h2⟩ := ih _ _ (by
            intro x hx
            rcases List.mem_cons.mp hx with rfl | hx
            · exact Relation.ReflTransGen.refl
            · exact Relation.ReflTransGen.tail (hv x hx) hg) h
          exact ⟨r, Relation.ReflTransGen.head hg h1, h2⟩
      | thin => exact absurd h (by simp)
      | body k l => exact absurd h (by simp)
      | slice k p w o => exact absurd h (by simp)

/-- Two ends of the chain: one comes before the other. -/
theorem leads_total (d : Dict) (t a b : String) (ha : Leads d t a) (hb : Leads d t b) : Leads d a b ∨ Leads d b a :=
  Relation.ReflTransGen.total_of_right_unique (fun _ _ _ h1 h2 => step_functional d _ _ _ h1 h2) ha hb

theorem leads_end (d : Dict) (r s : String) (h : Leads d r s) (hr : ∀ p, ¬ Step d r p) : s = r := by
  rcases Relation.ReflTransGen.cases_head h with rfl | ⟨c, hc, _⟩
  · rfl
  · exact absurd hc (hr c)

theorem end_of_notReplica (d : Dict) (r : String) (e : El) (h : get d r = some e) (hn : NotReplica e) : ∀ p, ¬ Step d r p := by
  intro p hp
  unfold Step at hp
  rw [h] at hp
  cases hp
  exact hn

theorem end_of_none (d : Dict) (r : String) (h : get d r = none) : ∀ p, ¬ Step d r p := by
  intro p hp
  unfold Step at hp
  rw [h] at hp
  cases hp

/-- After a loop one can go on for ever, so no end is reached. -/
theorem no_end_of_loop (d : Dict) (t r : String) (h : Leads d t r) (hc : Relation.TransGen (Step d) r r) (s : String)
    (hs : Leads d t s) : ∃ p, Step d s p := by
  -- every name reached from a loop leads back to the loop
  have back : ∀ s, Leads d r s → Leads d s r := by
    intro s hs
    induction hs with
    | refl => exact Relation.ReflTransGen.refl
    | tail hab hbc ih =>
      rename_i b c
      rcases Relation.ReflTransGen.cases_head ih with rfl | ⟨c', hc', h'⟩
      · obtain ⟨x, hx, h'⟩ := Relation.TransGen.head'_iff.mp hc
        rw [step_functional d _ _ _ hbc hx]
        exact h'
      · rw [step_functional d _ _ _ hbc hc']
        exact h'
  rcases leads_total d t s r hs h with h1 | h1
  · rcases Relation.ReflTransGen.cases_head h1 with rfl | ⟨c, hc', _⟩
    · obtain ⟨x, hx, _⟩ := Relation.TransGen.head'_iff.mp hc
      exact ⟨x, hx⟩
    · exact ⟨c, hc'⟩
  · rcases Relation.ReflTransGen.cases_head (back s h1) with rfl | ⟨c, hc', _⟩
    · obtain ⟨x, hx, _⟩ := Relation.TransGen.head'_iff.mp hc
      exact ⟨x, hx⟩
    · exact ⟨c, hc'⟩

/-- **C55, the element found.**  Resolving ends with the element `t` exactly if following the replicas leads to `t` and `t` is
an element of the dictionary that is not a replica. -/
theorem C55_found (d : Dict) (p t : String) :
    resolve d p = .found t ↔ Leads d p t ∧ ∃ e, get d t = some e ∧ NotReplica e := by
  constructor
  · exact resolveLoop_found d _ _ p t
  · rintro ⟨hl, e, he, hn⟩
    have hend := end_of_notReplica d t e he hn
    cases h : resolve d p with
    | found r =>
      obtain ⟨h1, e', h2, h3⟩ := resolveLoop_found d _ _ p r h
      rcases leads_total d p t r hl h1 with h4 | h4
      · rw [leads_end d t r h4 hend]
      · rw [leads_end d r t h4 (end_of_notReplica d r e' h2 h3)]
    | keyError =>
      obtain ⟨r, h1, h2⟩ := resolveLoop_keyError d _ _ p h
      exfalso
      rcases leads_total d p t r hl h1 with h4 | h4
      · rw [leads_end d t r h4 hend, he] at h2
        cases h2
      · have := leads_end d r t h4 (end_of_none d r h2)
        rw [this, h2] at he
        cases he
    | circular =>
      obtain ⟨r, h1, h2⟩ := resolveLoop_circular d _ _ p (by
        intro x hx
        rw [List.mem_singleton.mp hx]
        exact Relation.ReflTransGen.refl) h
      obtain ⟨q, hq⟩ := no_end_of_loop d p r h1 h2 t hl
      exact absurd hq (hend q)
    | running => exact absurd h (resolve_not_running d p)

/-- **C55, missing element.**  `KeyError` exactly if following the replicas leads out of the dictionary. -/
theorem C55_keyError (d : Dict) (p : String) : resolve d p = .keyError ↔ ∃ t, Leads d p t ∧ get d t = none := by
  constructor
  · exact resolveLoop_keyError d _ _ p
  · rintro ⟨t, hl, hn⟩
    have hend := end_of_none d t hn
    cases h : resolve d p with
    | keyError => rfl
    | found r =>
      obtain ⟨h1, e', h2, h3⟩ := resolveLoop_found d _ _ p r h
      exfalso
      rcases leads_total d p t r hl h1 with h4 | h4
      · rw [leads_end d t r h4 hend, hn] at h2
        cases h2
      · have := leads_end d r t h4 (end_of_notReplica d r e' h2 h3)
        rw [this, h2] at hn
        cases hn
    | circular =>
      obtain ⟨r, h1, h2⟩ := resolveLoop_circular d _ _ p (by
        intro x hx
        rw [List.mem_singleton.mp hx]
        exact Relation.ReflTransGen.refl) h
      obtain ⟨q, hq⟩ := no_end_of_loop d p r h1 h2 t hl
      exact absurd hq (hend q)
    | running => exact absurd h (resolve_not_running d p)

/-- **C55, circular replicas.**  `RecursionError` exactly if following the replicas comes to a loop. -/
theorem C55_circular (d : Dict) (p : String) :
    resolve d p = .circular ↔ ∃ t, Leads d p t ∧ Relation.TransGen (Step d) t t := by
  constructor
  · intro h
    exact resolveLoop_circular d _ _ p (by
        intro x hx
        rw [List.mem_singleton.mp hx]
        exact Relation.ReflTransGen.refl) h
  · rintro ⟨t, hl, hc⟩
    cases h : resolve d p with
    | circular => rfl
    | found r =>
      obtain ⟨h1, e, h2, h3⟩ := resolveLoop_found d _ _ p r h
      obtain ⟨q, hq⟩ := no_end_of_loop d p t hl hc r h1
      exact absurd hq (end_of_notReplica d r e h2 h3 q)
    | keyError =>
      obtain ⟨r, h1, h2⟩ := resolveLoop_keyError d _ _ p h
      obtain ⟨q, hq⟩ := no_end_of_loop d p t hl hc r h1
      exact absurd hq (end_of_none d r h2 q)
    | running => exact absurd h (resolve_not_running d p)

/-- A replica of a replica, a missing element and a loop. -/
example : resolve [("a", .replica "b"), ("b", .replica "c"), ("c", .thin)] "a" = .found "c" ∧
    resolve [("a", .replica "b"), ("b", .replica "c")] "a" = .keyError ∧
    resolve [("a", .replica "b"), ("b", .replica "c"), ("c", .replica "b")] "a" = .circular := by
  refine ⟨?_, ?_, ?_⟩ <;> simp [resolve, resolveLoop, get]

end Verif.Slicing
