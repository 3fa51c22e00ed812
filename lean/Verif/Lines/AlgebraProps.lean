import Verif.Lines.Algebra
import Verif.Composer.FlattenProps
import Mathlib.Data.List.Rotate

/-!
# C37, C38: line algebra and cycle
-/

namespace Verif.Lines

open Composer (Comp Item build totalLen)
open Slicing (St)

/-! ### Specification -/

/-- All lines of `w` have the same element names in `w'`. -/
def Same (w w' : World) : Prop := ∀ k, w.lines k ≠ none → w'.names k = w.names k

/-- The line is the one found under its name (or it has none). -/
def Registered (w : World) (i : Nat) : Prop := ∀ o n, w.lines i = some o → o.name = some n → w.reg n = some i

/-- `k` is a line made by the step from `w` to `w'`, with the names `l`; the other lines are as before. -/
def Makes (w w' : World) (k : Nat) (l : List String) : Prop := w.lines k = none ∧ w'.names k = some l ∧ Same w w'

/-- Lines and lists are numbered below the counters, no two lines share a list, registered lines exist. -/
structure WF (w : World) : Prop where
  bound : ∀ i o, w.lines i = some o → i < w.nextL ∧ o.addr < w.nextA
  apart : ∀ i j o p, w.lines i = some o → w.lines j = some p → o.addr = p.addr → i = j
  reg : ∀ n i, w.reg n = some i → w.lines i ≠ none

/-! ### Preservation -/

theorem Same.trans {a b c : World} (h1 : Same a b) (h2 : Same b c) : Same a c := by
  intro k hk
  have hb : b.lines k ≠ none := by
    intro e
    have := h1 k hk
    unfold World.names at this
    rw [e] at this
    cases h : a.lines k with
    | none => exact hk h
    | some o => rw [h] at this; simp at this
  rw [h2 k hb, h1 k hk]

theorem Same.refl (w : World) : Same w w := fun _ _ => rfl

theorem wf_alloc {w : World} (hw : WF w) (l : List String) (name : Option String) :
    WF (w.alloc l name).1 ∧ Makes w (w.alloc l name).1 (w.alloc l name).2 l := by
  have hnone : w.lines w.nextL = none := by
    cases h : w.lines w.nextL with
    | none => rfl
    | some o => exact absurd (hw.bound _ _ h).1 (lt_irrefl _)
  refine ⟨⟨?_, ?_, ?_⟩, hnone, ?_, ?_⟩
  · intro i o h
    simp only [World.alloc] at h ⊢
    split at h
    · next e =>
      simp only [Option.some.injEq] at h
      subst h
      simp only; omega
    · have := hw.bound i o h; omega
  · intro i j o p hi hj he
    simp only [World.alloc] at hi hj
    split at hi
    · next e1 =>
      split at hj
      · next e2 => omega
      · simp only [Option.some.injEq] at hi
        subst hi
        have := (hw.bound j p hj).2
        simp only at he; omega
    · split at hj
      · simp only [Option.some.injEq] at hj
        subst hj
        have := (hw.bound i o hi).2
        simp only at he; omega
      · exact hw.apart i j o p hi hj he
  · intro n i h
    simp only [World.alloc] at h ⊢
    split
    · simp
    · exact hw.reg n i h
  · simp [World.names, World.alloc]
  · intro k hk
    unfold World.names World.alloc
    simp only
    rw [if_neg (by rintro rfl; exact hk hnone)]
    cases h : w.lines k with
    | none => rfl
    | some o =>
      have := (hw.bound k o h).2
      simp only [Option.map_some, if_neg (by omega : o.addr ≠ w.nextA)]

theorem wf_assign {w w' : World} (hw : WF w) (i : Nat) (l : List String) (h : w.assign i l = some w') :
    WF w' ∧ w'.names i = some l ∧ ∀ k ≠ i, w'.names k = w.names k := by
  unfold World.assign at h
  split at h
  · cases h
  · next o ho =>
    simp only [Option.some.injEq] at h
    subst h
    refine ⟨⟨?_, ?_, ?_⟩, by simp [World.names], ?_⟩
    · intro j p hj
      simp only at hj ⊢
      split at hj
      · next e =>
        simp only [Option.some.injEq] at hj
        subst hj
        subst e
        have := (hw.bound _ o ho).1
        simp only; omega
      · have := hw.bound j p hj; omega
    · intro j k p q hj hk he
      simp only at hj hk
      split at hj
      · next e1 =>
        split at hk
        · next e2 => omega
        · simp only [Option.some.injEq] at hj
          subst hj
          have := (hw.bound k q hk).2
          simp only at he; omega
      · split at hk
        · simp only [Option.some.injEq] at hk
          subst hk
          have := (hw.bound j p hj).2
          simp only at he; omega
        · exact hw.apart j k p q hj hk he
    · intro n j hj
      simp only
      split
      · simp
      · exact hw.reg n j hj
    · intro k hk
      unfold World.names
      simp only
      rw [if_neg hk]
      cases h : w.lines k with
      | none => rfl
      | some o =>
        have := (hw.bound k o h).2
        simp only [Option.map_some, if_neg (by omega : o.addr ≠ w.nextA)]

theorem wf_mutate {w w' : World} (hw : WF w) (i : Nat) (l : List String) (h : w.mutate i l = some w') :
    WF w' ∧ w'.names i = some l ∧ ∀ k ≠ i, w'.names k = w.names k := by
  unfold World.mutate at h
  split at h
  · cases h
  · next o ho =>
    simp only [Option.some.injEq] at h
    subst h
    refine ⟨⟨hw.bound, hw.apart, hw.reg⟩, by simp [World.names, ho], ?_⟩
    intro k hk
    unfold World.names
    simp only
    cases h : w.lines k with
    | none => rfl
    | some p =>
      have : p.addr ≠ o.addr := fun e => hk (hw.apart k i p o h ho e)
      simp only [Option.map_some, if_neg this]

theorem wf_copy {w w' : World} {k : Nat} (hw : WF w) (i : Nat) (h : copyShallow w i = some (w', k)) :
    WF w' ∧ ∃ l, w.names i = some l ∧ Makes w w' k l ∧ w'.reg = w.reg ∧ (∀ o, w'.lines k = some o → o.name = none) ∧
      ∀ j, w.lines j ≠ none → w'.lines j = w.lines j := by
  unfold copyShallow at h
  rw [Option.map_eq_some_iff] at h
  obtain ⟨l, hl, h⟩ := h
  have := wf_alloc hw l none
  rw [h] at this
  refine ⟨this.1, l, hl, this.2, ?_, ?_, ?_⟩
  · have e := congrArg (fun t : World × Nat => t.1.reg) h
    exact e.symm
  · intro o ho
    have e := congrArg (fun t : World × Nat => t.1.lines) h
    have e2 := congrArg (fun t : World × Nat => t.2) h
    simp only [World.alloc] at e e2
    rw [← e, ← e2] at ho
    simp only [if_true, Option.some.injEq] at ho
    rw [← ho]
  · intro j hj
    have e := congrArg (fun t : World × Nat => t.1.lines) h
    have hk : w.lines k = none := this.2.1
    have e2 := congrArg (fun t : World × Nat => t.2) h
    simp only [World.alloc] at e e2
    rw [← e]
    simp only
    rw [if_neg]
    rintro rfl
    rw [e2] at hj
    exact hj hk

/-! ### C37 -/

theorem neg_full {w w' : World} {i k : Nat} (hw : WF w) (h : neg w i = some (w', k)) :
    WF w' ∧ w'.reg = w.reg ∧ (∀ o, w'.lines k = some o → o.name = none) ∧ (∀ j, w.lines j ≠ none → w'.lines j = w.lines j) ∧
      ∃ l, w.names i = some l ∧ Makes w w' k l.reverse := by
  unfold neg at h
  split at h
  · cases h
  · next w1 k1 hc =>
    obtain ⟨hw1, l, hl, hm, hr, hn, hk⟩ := wf_copy hw i hc
    rw [Option.map_eq_some_iff] at h
    obtain ⟨w2, h2, hpair⟩ := h
    simp only [Prod.mk.injEq] at hpair
    obtain ⟨rfl, rfl⟩ := hpair
    unfold mirror at h2
    rw [hm.2.1] at h2
    simp only at h2
    obtain ⟨hw2, e1, e2⟩ := wf_assign hw1 k1 l.reverse h2
    have hreg : w2.reg = w1.reg := by
      unfold World.assign at h2
      split at h2
      · cases h2
      · simp only [Option.some.injEq] at h2; rw [← h2]
    have hlines : ∀ j, j ≠ k1 → w2.lines j = w1.lines j := by
      intro j hj
      unfold World.assign at h2
      split at h2
      · cases h2
      · simp only [Option.some.injEq] at h2; rw [← h2]; simp only; rw [if_neg hj]
    have hname : ∀ o, w2.lines k1 = some o → o.name = none := by
      intro o ho
      unfold World.assign at h2
      split at h2
      · cases h2
      · next p hp =>
        simp only [Option.some.injEq] at h2
        rw [← h2] at ho
        simp only [if_true, Option.some.injEq] at ho
        rw [← ho]
        exact hn p hp
    refine ⟨hw2, by rw [hreg, hr], hname, ?_, l, hl, hm.1, e1, ?_⟩
    · intro j hj
      rw [hlines j (by rintro rfl; exact hj hm.1), hk j hj]
    · intro j hj
      rw [e2 j (by rintro rfl; exact hj hm.1)]
      exact hm.2.2 j hj

/-- C37: `-line` is a new line with the names in reverse order; no line is modified. -/
theorem C37_neg (w w' : World) (i k : Nat) (hw : WF w) (h : neg w i = some (w', k)) :
    ∃ l, w.names i = some l ∧ Makes w w' k l.reverse := (neg_full hw h).2.2.2.2

/-- C37: mirroring twice gives the original order, in place and with the operator. -/
theorem C37_mirror_twice (w w1 w2 : World) (i : Nat) (hw : WF w) :
    (∀ j k, neg w i = some (w1, j) → neg w1 j = some (w2, k) → w2.names k = w.names i ∧ Same w w2) ∧
      (mirror w i = some w1 → mirror w1 i = some w2 → ∀ k, w2.names k = w.names k) := by
  constructor
  · intro j k h1 h2
    obtain ⟨hw1, -, -, -, l, hl, m1⟩ := neg_full hw h1
    obtain ⟨hw2, -, -, -, l2, hl2, m2⟩ := neg_full hw1 h2
    rw [m1.2.1, Option.some.injEq] at hl2
    refine ⟨by rw [m2.2.1, hl, ← hl2, List.reverse_reverse], m1.2.2.trans m2.2.2⟩
  · intro h1 h2 k
    unfold mirror at h1 h2
    split at h1
    · cases h1
    · next l hl =>
      obtain ⟨hw1, e1, f1⟩ := wf_assign hw i _ h1
      rw [e1] at h2
      simp only at h2
      obtain ⟨hw2, e2, f2⟩ := wf_assign hw1 i _ h2
      by_cases hk : k = i
      · subst hk
        rw [e2, hl, List.reverse_reverse]
      · rw [f2 k hk, f1 k hk]

theorem totalLen_replicate (st : St) (l : List String) (T : ℝ) (h : totalLen st l = some T) (n : Nat) :
    totalLen st (List.replicate n l).flatten = some (n * T) := by
  induction n with
  | zero => simp [totalLen]
  | succ n ih =>
    rw [List.replicate_succ, List.flatten_cons]
    rw [Composer.totalLen_append st _ _ _ _ h ih]
    congr 1; push_cast; ring

/-- C37: `n * line` is a new line that repeats the names `n` times: `n` times the elements and the length; `0 * line` raises. -/
theorem C37_mul (w w' : World) (n i k : Nat) (hw : WF w) (h : mul w n i = some (w', k)) :
    0 < n ∧ ∃ l l', w.names i = some l ∧ Makes w w' k l' ∧ l' = (List.replicate n l).flatten ∧ l'.length = n * l.length ∧
      ∀ st T, totalLen st l = some T → totalLen st l' = some (n * T) := by
  unfold mul at h
  split at h
  · cases h
  · next hn =>
    rw [Option.map_eq_some_iff] at h
    obtain ⟨l, hl, h⟩ := h
    have := (wf_alloc hw (List.replicate n l).flatten none).2
    rw [h] at this
    refine ⟨by omega, l, _, hl, this, rfl, by simp, ?_⟩
    intro st T hT
    exact totalLen_replicate st l T hT n

theorem place_frame {w w' : World} {i : Nat} {c : Comp} (hw : WF w) (h : placeLine w i = some (w', c)) :
    WF w' ∧ w'.reg = w.reg ∧ Same w w' ∧ w.lines i ≠ none ∧ (∀ j, w.lines j ≠ none → w'.lines j = w.lines j) := by
  unfold placeLine at h
  split at h
  · cases h
  · next o ho =>
    split at h
    · split at h
      · cases h
      · simp only [Option.some.injEq, Prod.mk.injEq] at h
        obtain ⟨rfl, -⟩ := h
        exact ⟨hw, rfl, Same.refl _, by rw [ho]; simp, fun _ _ => rfl⟩
    · rw [Option.map_eq_some_iff] at h
      obtain ⟨⟨w1, k⟩, hc, hpair⟩ := h
      simp only [Prod.mk.injEq] at hpair
      obtain ⟨rfl, -⟩ := hpair
      obtain ⟨hw1, l, hl, hm, hr, -, hk⟩ := wf_copy hw i hc
      exact ⟨hw1, hr, hm.2.2, by rw [ho]; simp, hk⟩

theorem place_content {w w' : World} {i : Nat} {c : Comp} (hr : Registered w i) (h : placeLine w i = some (w', c)) :
    ∃ l, w.names i = some l ∧
      ∀ w'' : World, w''.reg = w.reg → Same w w'' → Composer.plain w''.lookup c ∧ Composer.content w''.lookup c = l := by
  unfold placeLine at h
  split at h
  · cases h
  · next o ho =>
    refine ⟨w.heap o.addr, by simp [World.names, ho], ?_⟩
    intro w'' hreg' hs
    split at h
    · next n hn =>
      split at h
      · cases h
      · next r hreg =>
        simp only [Option.some.injEq, Prod.mk.injEq] at h
        obtain ⟨-, rfl⟩ := h
        have hl : w''.lookup n = some (w.heap o.addr) := by
          unfold World.lookup
          rw [hreg', hr o n ho hn, Option.bind_some, hs i (by rw [ho]; simp)]
          simp [World.names, ho]
        refine ⟨?_, ?_⟩
        · simp only [Composer.plain, hl]; simp
        · simp only [Composer.content, hl, Option.getD_some]
    · rw [Option.map_eq_some_iff] at h
      obtain ⟨⟨w1, k⟩, hc, hpair⟩ := h
      simp only [Prod.mk.injEq] at hpair
      obtain ⟨-, rfl⟩ := hpair
      refine ⟨?_, ?_⟩
      · simp [Composer.plain]
      · simp only [Composer.content]

theorem place_succeeds {w : World} {i : Nat} (hi : w.lines i ≠ none) (hr : Registered w i) : ∃ t, placeLine w i = some t := by
  unfold placeLine
  cases h : w.lines i with
  | none => exact absurd h hi
  | some o =>
    simp only
    cases hn : o.name with
    | some n => simp only; rw [hr o n h hn]; exact ⟨_, rfl⟩
    | none =>
      simp only
      unfold copyShallow World.names
      rw [h]
      exact ⟨_, rfl⟩

theorem registered_frame {w w' : World} {j : Nat} (hr : w'.reg = w.reg) (hl : w'.lines j = w.lines j) (h : Registered w j) :
    Registered w' j := by
  intro o n ho hn
  rw [hl] at ho
  rw [hr]
  exact h o n ho hn

theorem Makes.of_same {w w1 w2 : World} {k : Nat} {l : List String} (h1 : Same w w1) (h2 : Makes w1 w2 k l)
    (hl : ∀ j, w.lines j ≠ none → w1.lines j = w.lines j) : Makes w w2 k l := by
  refine ⟨?_, h2.2.1, h1.trans h2.2.2⟩
  by_contra hne
  have := hl k hne
  rw [h2.1] at this
  exact hne this.symm

theorem add_wf (sort : List (Item Nat) → List (Item Nat)) (st : St) {w w' : World} {i j k : Nat} (hw : WF w)
    (h : add sort st w i j = some (w', k)) : WF w' ∧ Same w w' := by
  unfold add at h
  split at h
  · cases h
  · next w1 c1 h1 =>
    split at h
    · cases h
    · next w2 c2 h2 =>
      obtain ⟨hw1, -, s1, -, -⟩ := place_frame hw h1
      obtain ⟨hw2, -, s2, -, -⟩ := place_frame hw1 h2
      rw [Option.map_eq_some_iff] at h
      obtain ⟨t, -, ht⟩ := h
      have := wf_alloc hw2 t.2 none
      rw [ht] at this
      exact ⟨this.1, (s1.trans s2).trans this.2.2.2⟩

theorem add_full (sort : List (Item Nat) → List (Item Nat)) (st : St) (w : World) (i j : Nat) (hw : WF w) (ei : w.lines i ≠ none)
    (ej : w.lines j ≠ none) (hi : Registered w i) (hj : Registered w j) :
    ∃ w' k a b, add sort st w i j = some (w', k) ∧ w.names i = some a ∧ w.names j = some b ∧ Makes w w' k (a ++ b) := by
  obtain ⟨⟨w1, c1⟩, h1⟩ := place_succeeds ei hi
  obtain ⟨hw1, r1, s1, -, l1⟩ := place_frame hw h1
  obtain ⟨a, ha, k1⟩ := place_content hi h1
  have hj1 := registered_frame r1 (l1 j ej) hj
  obtain ⟨⟨w2, c2⟩, h2⟩ := place_succeeds (by rw [l1 j ej]; exact ej) hj1
  obtain ⟨hw2, r2, s2, -, l2⟩ := place_frame hw1 h2
  obtain ⟨b, hb, k2⟩ := place_content hj1 h2
  have p1 := k1 w2 (by rw [r2, r1]) (s1.trans s2)
  have p2 := k2 w2 r2 s2
  have hb' : w.names j = some b := by rw [← s1 j ej, hb]
  have hbuild := Composer.C36_concatenation sort w2.lookup [c1, c2] .center (1 / 10 ^ 6) false st ⟨p1.1, p2.1, trivial⟩
  simp only [Composer.contents, p1.2, p2.2, List.append_nil] at hbuild
  have hl : ∀ m, w.lines m ≠ none → w2.lines m = w.lines m := by
    intro m hm
    rw [l2 m (by rw [l1 m hm]; exact hm), l1 m hm]
  refine ⟨(w2.alloc (a ++ b) none).1, (w2.alloc (a ++ b) none).2, a, b, ?_, ha, hb', ?_⟩
  · unfold add
    rw [h1]
    simp only
    rw [h2]
    simp only
    rw [hbuild]
    simp
  · exact Makes.of_same (s1.trans s2) (wf_alloc hw2 (a ++ b) none).2 hl

/-- C37 (partial: named operands are the lines registered under their names; see `C37_stale_name_violated`): `line + other` exists,
is a new line with the names of `line` followed by those of `other`, and no line is modified.  Its length is the sum. -/
theorem C37_add_partial (sort : List (Item Nat) → List (Item Nat)) (st : St) (w : World) (i j : Nat) (a b : List String) (hw : WF w)
    (ha : w.names i = some a) (hb : w.names j = some b) (hi : Registered w i) (hj : Registered w j) :
    ∃ w' k, add sort st w i j = some (w', k) ∧ Makes w w' k (a ++ b) ∧
      ∀ A B, totalLen st a = some A → totalLen st b = some B → totalLen st (a ++ b) = some (A + B) := by
  have ei : w.lines i ≠ none := by intro e; unfold World.names at ha; rw [e] at ha; cases ha
  have ej : w.lines j ≠ none := by intro e; unfold World.names at hb; rw [e] at hb; cases hb
  obtain ⟨w', k, a', b', h, ha', hb', hm⟩ := add_full sort st w i j hw ei ej hi hj
  rw [ha, Option.some.injEq] at ha'
  rw [hb, Option.some.injEq] at hb'
  subst ha' hb'
  exact ⟨w', k, h, hm, fun A B hA hB => Composer.totalLen_append st _ _ _ _ hA hB⟩

/-- C37 (partial as above): `line - other` is `line` followed by `other` in reverse order. -/
theorem C37_sub_partial (sort : List (Item Nat) → List (Item Nat)) (st : St) (w : World) (i j : Nat) (a b : List String) (hw : WF w)
    (ha : w.names i = some a) (hb : w.names j = some b) (hi : Registered w i) :
    ∃ w' k, sub sort st w i j = some (w', k) ∧ Makes w w' k (a ++ b.reverse) := by
  have ei : w.lines i ≠ none := by intro e; unfold World.names at ha; rw [e] at ha; cases ha
  have ej : w.lines j ≠ none := by intro e; unfold World.names at hb; rw [e] at hb; cases hb
  have hneg : ∃ t, neg w j = some t := by
    unfold neg copyShallow
    rw [hb]
    simp only [Option.map_some]
    unfold mirror
    rw [(wf_alloc hw b none).2.2.1]
    simp [World.assign, World.alloc]
  obtain ⟨⟨w1, k1⟩, h1⟩ := hneg
  obtain ⟨hw1, r1, hn, l1, b', hb', hm⟩ := neg_full hw h1
  rw [hb, Option.some.injEq] at hb'
  subst hb'
  have ek : w1.lines k1 ≠ none := by
    intro e; have := hm.2.1; unfold World.names at this; rw [e] at this; cases this
  have hk : Registered w1 k1 := by
    intro o n ho hnn
    rw [hn o ho] at hnn; cases hnn
  obtain ⟨w', k, a', b2, h, ha', hb2, hm2⟩ := add_full sort st w1 i k1 hw1 (by rw [l1 i ei]; exact ei) ek
    (registered_frame r1 (l1 i ei) hi) hk
  rw [hm.2.2 i ei, ha, Option.some.injEq] at ha'
  rw [hm.2.1, Option.some.injEq] at hb2
  subst ha' hb2
  refine ⟨w', k, ?_, Makes.of_same hm.2.2 hm2 l1⟩
  unfold sub
  rw [h1]
  exact h

/-- C37 (partial as above): mirroring a sum gives the mirrored parts in the opposite order. -/
theorem C37_mirror_of_sum_partial (sort : List (Item Nat) → List (Item Nat)) (st : St) (w w1 w2 : World) (i j k m : Nat) (a b : List String)
    (hw : WF w) (ha : w.names i = some a) (hb : w.names j = some b) (hi : Registered w i) (hj : Registered w j)
    (h1 : add sort st w i j = some (w1, k)) (h2 : neg w1 k = some (w2, m)) :
    w2.names m = some (b.reverse ++ a.reverse) ∧ Same w w2 := by
  obtain ⟨w', k', h, hm, -⟩ := C37_add_partial sort st w i j a b hw ha hb hi hj
  rw [h1, Option.some.injEq, Prod.mk.injEq] at h
  obtain ⟨rfl, rfl⟩ := h
  obtain ⟨l, hl, hm2⟩ := C37_neg w1 w2 k m (add_wf sort st hw h1).1 h2
  rw [hm.2.1, Option.some.injEq] at hl
  subst hl
  exact ⟨by rw [hm2.2.1, List.reverse_append], hm.2.2.trans hm2.2.2⟩

/-! ### C38 -/

theorem clip_le (n : Nat) (k : Int) : clip n k ≤ n := by
  unfold clip; split <;> omega

theorem rotateAt_rotate (l : List String) (k : Int) : rotateAt l k = l.rotate (clip l.length k) :=
  (List.rotate_eq_drop_append_take (clip_le l.length k)).symm

theorem cycle_int (w w' : World) (i : Nat) (k : Int) (h : cycle w i (some (.int k)) none = some w') :
    ∃ l, w.names i = some l ∧ w.assign i (rotateAt l k) = some w' := by
  unfold cycle at h
  cases hl : w.names i with
  | none => rw [hl] at h; cases h
  | some l => rw [hl] at h; exact ⟨l, rfl, h⟩

theorem cycle_cases (w w' : World) (i : Nat) (index : Option First) (name : Option String) (h : cycle w i index name = some w') :
    ∃ l k, w.names i = some l ∧ w.assign i (rotateAt l k) = some w' ∧
      ((index = some (.int k) ∧ name = none) ∨
        ∃ n, ((index = some (.str n) ∧ name = none) ∨ (index = none ∧ name = some n)) ∧ l.count n = 1 ∧ k = l.idxOf n) := by
  unfold cycle at h
  cases hl : w.names i with
  | none => rw [hl] at h; cases h
  | some l =>
    rw [hl] at h
    simp only at h
    have key : ∀ n, (if l.count n = 0 then none else if 1 < l.count n then none else w.assign i (rotateAt l (l.idxOf n))) = some w' →
        l.count n = 1 ∧ w.assign i (rotateAt l (l.idxOf n)) = some w' := by
      intro n hn
      split at hn
      · cases hn
      · split at hn
        · cases hn
        · exact ⟨by omega, hn⟩
    match index, name, h with
    | some _, some _, h => cases h
    | none, none, h => cases h
    | some (.str n), none, h => exact ⟨l, _, rfl, (key n h).2, .inr ⟨n, .inl ⟨rfl, rfl⟩, (key n h).1, rfl⟩⟩
    | some (.int k), none, h => exact ⟨l, k, rfl, h, .inl ⟨rfl, rfl⟩⟩
    | none, some n, h => exact ⟨l, _, rfl, (key n h).2, .inr ⟨n, .inr ⟨rfl, rfl⟩, (key n h).1, rfl⟩⟩

theorem totalLen_perm (st : St) (a b : List String) (T : ℝ) (h : totalLen st (a ++ b) = some T) : totalLen st (b ++ a) = some T := by
  have split : ∀ (l m : List String) (T : ℝ), totalLen st (l ++ m) = some T → ∃ A B, totalLen st l = some A ∧ totalLen st m = some B ∧
      A + B = T := by
    intro l
    induction l with
    | nil => intro m T h; exact ⟨0, T, by simp [totalLen], h, by ring⟩
    | cons x l ih =>
      intro m T h
      rw [List.cons_append, totalLen] at h
      cases hx : Slicing.rowLen st.dict x with
      | none => rw [hx] at h; simp at h
      | some X =>
        rw [hx] at h
        cases hr : totalLen st (l ++ m) with
        | none => rw [hr] at h; simp at h
        | some R =>
          rw [hr] at h
          obtain ⟨A, B, hA, hB, hs⟩ := ih m R hr
          simp at h
          exact ⟨X + A, B, by rw [totalLen, hx, hA], hB, by linarith⟩
  obtain ⟨A, B, hA, hB, rfl⟩ := split a b T h
  rw [Composer.totalLen_append st _ _ _ _ hB hA, add_comm]

/-- C38: `cycle` rotates the line: the same elements in the same cyclic order (the same elements, number of elements and length); the
other lines are untouched. -/
theorem C38_rotation (w w' : World) (i : Nat) (index : Option First) (name : Option String) (hw : WF w)
    (h : cycle w i index name = some w') :
    ∃ l m, w.names i = some l ∧ w'.names i = some (l.rotate m) ∧ (∀ k ≠ i, w'.names k = w.names k) ∧ (l.rotate m).Perm l ∧
      ∀ st T, totalLen st l = some T → totalLen st (l.rotate m) = some T := by
  obtain ⟨l, k, hl, ha, -⟩ := cycle_cases w w' i index name h
  obtain ⟨-, e1, e2⟩ := wf_assign hw i _ ha
  refine ⟨l, clip l.length k, hl, by rw [e1, rotateAt_rotate], e2, List.rotate_perm l _, ?_⟩
  intro st T hT
  rw [← rotateAt_rotate]
  unfold rotateAt
  apply totalLen_perm
  rw [List.take_append_drop]
  exact hT

/-- C38: the line then starts at the requested element: the one with the given name, or the one at the given position (negative
positions count from the end). -/
theorem C38_start (w w' : World) (i : Nat) (l l' : List String) (hw : WF w) (hl : w.names i = some l) (hl' : w'.names i = some l') :
    (∀ n, (cycle w i (some (.str n)) none = some w' ∨ cycle w i none (some n) = some w') → l'.head? = some n) ∧
      (∀ k : Nat, k < l.length → cycle w i (some (.int k)) none = some w' → l'.head? = l[k]?) ∧
      (∀ k : Nat, k ≤ l.length → 0 < k → cycle w i (some (.int (-k))) none = some w' → l'.head? = l[l.length - k]?) := by
  have key : ∀ k : Int, w.assign i (rotateAt l k) = some w' → clip l.length k < l.length → l'.head? = l[clip l.length k]? := by
    intro k ha hk
    obtain ⟨-, e1, -⟩ := wf_assign hw i _ ha
    rw [hl', Option.some.injEq] at e1
    rw [e1]
    unfold rotateAt
    rw [List.head?_append, List.head?_drop, List.getElem?_eq_getElem hk]
    rfl
  refine ⟨?_, ?_, ?_⟩
  · intro n hn
    have main : ∃ k : Int, w.assign i (rotateAt l k) = some w' ∧ l.count n = 1 ∧ k = l.idxOf n := by
      rcases hn with hn | hn
      · obtain ⟨l2, k, hl2, ha, h | ⟨m, h, hc, hk⟩⟩ := cycle_cases w w' i _ _ hn
        · exact absurd h.1 (by simp)
        · rw [hl, Option.some.injEq] at hl2
          subst hl2
          rcases h with h | h
          · simp only [Option.some.injEq, First.str.injEq] at h
            rw [← h.1] at hc hk
            exact ⟨k, ha, hc, hk⟩
          · exact absurd h.1 (by simp)
      · obtain ⟨l2, k, hl2, ha, h | ⟨m, h, hc, hk⟩⟩ := cycle_cases w w' i _ _ hn
        · exact absurd h.1 (by simp)
        · rw [hl, Option.some.injEq] at hl2
          subst hl2
          rcases h with h | h
          · exact absurd h.1 (by simp)
          · simp only [Option.some.injEq] at h
            rw [← h.2] at hc hk
            exact ⟨k, ha, hc, hk⟩
    obtain ⟨k, ha, hc, rfl⟩ := main
    have hmem : n ∈ l := List.count_pos_iff.1 (by omega)
    have hlt := List.idxOf_lt_length_of_mem hmem
    have hclip : clip l.length (l.idxOf n : Int) = l.idxOf n := by
      unfold clip; rw [if_neg (by omega)]; omega
    rw [key _ ha (by rw [hclip]; exact hlt), hclip]
    rw [List.getElem?_eq_getElem hlt, List.getElem_idxOf]
  · intro k hk h
    obtain ⟨l2, hl2, ha⟩ := cycle_int w w' i _ h
    rw [hl, Option.some.injEq] at hl2
    subst hl2
    have hclip : clip l.length (k : Int) = k := by unfold clip; rw [if_neg (by omega)]; omega
    rw [key _ ha (by rw [hclip]; exact hk), hclip]
  · intro k hk hk0 h
    obtain ⟨l2, hl2, ha⟩ := cycle_int w w' i _ h
    rw [hl, Option.some.injEq] at hl2
    subst hl2
    have hclip : clip l.length (-(k : Int)) = l.length - k := by unfold clip; rw [if_pos (by omega)]; omega
    rw [key _ ha (by rw [hclip]; omega), hclip]

/-- C38: another call of `cycle` restores the original order. -/
theorem C38_undo (w w' : World) (i : Nat) (index : Option First) (name : Option String) (hw : WF w)
    (h : cycle w i index name = some w') :
    ∃ (k : Int) (w'' : World), cycle w' i (some (.int k)) none = some w'' ∧ ∀ j, w''.names j = w.names j := by
  obtain ⟨l, k, hl, ha, -⟩ := cycle_cases w w' i index name h
  obtain ⟨hw', e1, e2⟩ := wf_assign hw i _ ha
  have hle := clip_le l.length k
  set m := clip l.length k with hm
  refine ⟨((l.length - m : Nat) : Int), ?_⟩
  have hex : ∃ w'', w'.assign i (rotateAt (rotateAt l k) ((l.length - m : Nat) : Int)) = some w'' := by
    unfold World.assign
    cases ho : w'.lines i with
    | none => unfold World.names at e1; rw [ho] at e1; cases e1
    | some o => exact ⟨_, rfl⟩
  obtain ⟨w'', hw''⟩ := hex
  have hc : cycle w' i (some (.int ((l.length - m : Nat) : Int))) none = some w'' := by
    unfold cycle
    rw [e1]
    exact hw''
  refine ⟨w'', hc, ?_⟩
  obtain ⟨-, f1, f2⟩ := wf_assign hw' i _ hw''
  intro j
  by_cases hj : j = i
  · subst hj
    rw [f1, hl, rotateAt_rotate, rotateAt_rotate, ← hm, List.rotate_rotate, List.length_rotate]
    have : clip l.length ((l.length - m : Nat) : Int) = l.length - m := by unfold clip; rw [if_neg (by omega)]; omega
    rw [this, show m + (l.length - m) = l.length by omega, List.rotate_length]
  · rw [f2 j hj, e2 j hj]

/-- C38: exactly the impossible requests raise: both or none of the arguments, or a name that is not there exactly once. -/
theorem C38_raises_iff (w : World) (i : Nat) (l : List String) (hl : w.names i = some l) (index : Option First) (name : Option String) :
    cycle w i index name = none ↔
      (index ≠ none ∧ name ≠ none) ∨ (index = none ∧ name = none) ∨
        ∃ n, (index = some (.str n) ∨ name = some n) ∧ l.count n ≠ 1 := by
  have hassign : ∀ l', w.assign i l' ≠ none := by
    intro l' e
    unfold World.assign at e
    unfold World.names at hl
    cases ho : w.lines i with
    | none => rw [ho] at hl; cases hl
    | some o => rw [ho] at e; cases e
  have key : ∀ n, (if l.count n = 0 then none else if 1 < l.count n then none else w.assign i (rotateAt l (l.idxOf n))) = none ↔
      l.count n ≠ 1 := by
    intro n
    split
    · simp; omega
    · split
      · simp; omega
      · constructor
        · intro e; exact absurd e (hassign _)
        · intro e; omega
  unfold cycle
  rw [hl]
  simp only
  match index, name with
  | some _, some _ => simp
  | none, none => simp
  | some (.str n), none => simp [key]
  | some (.int k), none => simp [hassign]
  | none, some n => simp [key]

/-! ### Histories -/

theorem wf_empty : WF empty := by
  refine ⟨?_, ?_, ?_⟩
  · intro i o h; cases h
  · intro i j o p h; cases h
  · intro n i h; cases h

/-- The steps that change the list of an existing line: its number. -/
def Op.edits : Op → Option Nat
  | .mirror i => some i
  | .cycle i _ _ => some i
  | .mutate i _ => some i
  | .assign i _ => some i
  | _ => none

theorem step_wf (sort : List (Item Nat) → List (Item Nat)) (st : St) (w : World) (op : Op) (hw : WF w) :
    WF (step sort st w op) ∧ ∀ k, w.lines k ≠ none → op.edits ≠ some k → (step sort st w op).names k = w.names k := by
  have stay : WF w ∧ ∀ k, w.lines k ≠ none → op.edits ≠ some k → w.names k = w.names k := ⟨hw, fun _ _ _ => rfl⟩
  cases op with
  | new l name =>
    simp only [step, newLine]
    have ha := wf_alloc hw l name
    match name with
    | none => exact ⟨ha.1, fun k hk _ => ha.2.2.2 k hk⟩
    | some n =>
      simp only
      cases hr : w.reg n with
      | some _ => exact stay
      | none =>
        refine ⟨⟨ha.1.bound, ha.1.apart, ?_⟩, fun k hk _ => ha.2.2.2 k hk⟩
        intro m i hm
        simp only [Option.map_some, Option.getD_some] at hm ⊢
        split at hm
        · simp only [Option.some.injEq] at hm
          subst hm
          simp [World.alloc]
        · exact ha.1.reg m i hm
  | del n =>
    simp only [step, unregister]
    cases hr : w.reg n with
    | none => exact stay
    | some _ =>
      refine ⟨⟨hw.bound, hw.apart, ?_⟩, fun _ _ _ => rfl⟩
      intro m i hm
      simp only [Option.getD_some] at hm ⊢
      split at hm
      · cases hm
      · exact hw.reg m i hm
  | copy i =>
    simp only [step]
    cases h : copyShallow w i with
    | none => exact stay
    | some t =>
      obtain ⟨h1, l, -, h2, -⟩ := wf_copy hw i h
      exact ⟨h1, fun k hk _ => h2.2.2 k hk⟩
  | neg i =>
    simp only [step]
    cases h : Lines.neg w i with
    | none => exact stay
    | some t =>
      obtain ⟨h1, -, -, -, l, -, h2⟩ := neg_full hw h
      exact ⟨h1, fun k hk _ => h2.2.2 k hk⟩
  | mul n i =>
    simp only [step]
    cases h : Lines.mul w n i with
    | none => exact stay
    | some t =>
      unfold Lines.mul at h
      split at h
      · cases h
      · rw [Option.map_eq_some_iff] at h
        obtain ⟨l, -, rfl⟩ := h
        have := wf_alloc hw (List.replicate n l).flatten none
        exact ⟨this.1, fun k hk _ => this.2.2.2 k hk⟩
  | add i j =>
    simp only [step]
    cases h : Lines.add sort st w i j with
    | none => exact stay
    | some t =>
      have := add_wf sort st hw h
      exact ⟨this.1, fun k hk _ => this.2 k hk⟩
  | sub i j =>
    simp only [step]
    cases h : Lines.sub sort st w i j with
    | none => exact stay
    | some t =>
      unfold Lines.sub at h
      split at h
      · cases h
      · next w1 k1 h1 =>
        obtain ⟨hw1, -, -, -, l, -, h2⟩ := neg_full hw h1
        have := add_wf sort st hw1 h
        exact ⟨this.1, fun k hk _ => (h2.2.2.trans this.2) k hk⟩
  | mirror i =>
    simp only [step, Lines.mirror]
    cases hl : w.names i with
    | none => exact stay
    | some l =>
      simp only
      cases h : w.assign i l.reverse with
      | none => exact stay
      | some w' =>
        obtain ⟨h1, -, h2⟩ := wf_assign hw i _ h
        refine ⟨h1, fun k _ hk => h2 k ?_⟩
        rintro rfl; exact hk rfl
  | cycle i index name =>
    simp only [step]
    cases h : Lines.cycle w i index name with
    | none => exact stay
    | some w' =>
      obtain ⟨l, k, -, ha, -⟩ := cycle_cases w w' i index name h
      obtain ⟨h1, -, h2⟩ := wf_assign hw i _ ha
      refine ⟨h1, fun k _ hk => h2 k ?_⟩
      rintro rfl; exact hk rfl
  | mutate i l =>
    simp only [step]
    cases h : w.mutate i l with
    | none => exact stay
    | some w' =>
      obtain ⟨h1, -, h2⟩ := wf_mutate hw i _ h
      refine ⟨h1, fun k _ hk => h2 k ?_⟩
      rintro rfl; exact hk rfl
  | assign i l =>
    simp only [step]
    cases h : w.assign i l with
    | none => exact stay
    | some w' =>
      obtain ⟨h1, -, h2⟩ := wf_assign hw i _ h
      refine ⟨h1, fun k _ hk => h2 k ?_⟩
      rintro rfl; exact hk rfl

/-- The lines after a history of operations. -/
noncomputable def after (sort : List (Item Nat) → List (Item Nat)) (st : St) (ops : List Op) : World := ops.foldl (step sort st) empty

/-- The hypothesis `WF` of the theorems holds after every history. -/
theorem C37_wf (sort : List (Item Nat) → List (Item Nat)) (st : St) (ops : List Op) : WF (after sort st ops) := by
  unfold after
  induction ops using List.reverseRecOn with
  | nil => exact wf_empty
  | append_singleton ops op ih =>
    rw [List.foldl_append]
    exact (step_wf sort st _ op ih).1

/-- C37: whatever was made from what, an operation changes no line except the one it edits in place (`mirror`, `cycle`, edits of the
list): lines never share their lists of names. -/
theorem C37_independent (sort : List (Item Nat) → List (Item Nat)) (st : St) (ops : List Op) (op : Op) (k : Nat)
    (hk : (after sort st ops).lines k ≠ none) (he : op.edits ≠ some k) :
    (after sort st (ops ++ [op])).names k = (after sort st ops).names k := by
  have h := (step_wf sort st _ op (C37_wf sort st ops)).2 k hk he
  unfold after at h ⊢
  rw [List.foldl_append]
  exact h

/-- C37 fails when a name was given to another line: `a = env.new_line(name='l', ...)`, `env.lines.remove('l')`,
`env.new_line(name='l', ...)`, then `a + a` has the names of the second line (`env.place` places by name), and without the second
line it raises. -/
theorem C37_stale_name_violated (sort : List (Item Nat) → List (Item Nat)) (st : St) :
    (∃ w' k, add sort st (after sort st [.new ["x"] (some "l"), .del "l", .new ["y"] (some "l")]) 0 0 = some (w', k) ∧
      (after sort st [.new ["x"] (some "l"), .del "l", .new ["y"] (some "l")]).names 0 = some ["x"] ∧ w'.names k = some ["y", "y"]) ∧
    add sort st (after sort st [.new ["x"] (some "l"), .del "l"]) 0 0 = none := by
  constructor
  · have hp : placeLine (after sort st [.new ["x"] (some "l"), .del "l", .new ["y"] (some "l")]) 0 =
        some (after sort st [.new ["x"] (some "l"), .del "l", .new ["y"] (some "l")], .place ⟨"l", none, none, none, none⟩) := by
      simp [after, step, newLine, unregister, World.alloc, empty, placeLine]
    have hl : (after sort st [.new ["x"] (some "l"), .del "l", .new ["y"] (some "l")]).lookup "l" = some ["y"] := by
      simp [after, step, newLine, unregister, World.alloc, empty, World.lookup, World.names]
    have hb := Composer.C36_concatenation sort (after sort st [.new ["x"] (some "l"), .del "l", .new ["y"] (some "l")]).lookup
      [.place ⟨"l", none, none, none, none⟩, .place ⟨"l", none, none, none, none⟩] .center (1 / 10 ^ 6) false st
      ⟨⟨rfl, by rw [hl]; simp⟩, ⟨rfl, by rw [hl]; simp⟩, trivial⟩
    simp only [Composer.contents, Composer.content, hl] at hb
    refine ⟨((after sort st [.new ["x"] (some "l"), .del "l", .new ["y"] (some "l")]).alloc ["y", "y"] none).1,
      ((after sort st [.new ["x"] (some "l"), .del "l", .new ["y"] (some "l")]).alloc ["y", "y"] none).2, ?_, ?_, ?_⟩
    · unfold add
      rw [hp]
      simp only
      rw [hp]
      simp only
      rw [hb]
      rfl
    · simp [after, step, newLine, unregister, World.alloc, empty, World.names]
    · simp [World.names, World.alloc]
  · unfold add
    have hp : placeLine (after sort st [.new ["x"] (some "l"), .del "l"]) 0 = none := by
      simp [after, step, newLine, unregister, World.alloc, empty, placeLine]
    rw [hp]

/-! ### The hypotheses are met -/

/-- A registered line, an unnamed copy of its mirror, and their sum: `WF` by `C37_wf`, `Registered` here. -/
example (sort : List (Item Nat) → List (Item Nat)) (st : St) :
    Registered (after sort st [.new ["a", "b"] (some "l"), .neg 0]) 0 ∧ Registered (after sort st [.new ["a", "b"] (some "l"), .neg 0]) 1 ∧
      (after sort st [.new ["a", "b"] (some "l"), .neg 0]).names 0 = some ["a", "b"] ∧
      (after sort st [.new ["a", "b"] (some "l"), .neg 0]).names 1 = some ["b", "a"] := by
  refine ⟨?_, ?_, ?_, ?_⟩
  · intro o n ho hn
    simp [after, step, newLine, Lines.neg, copyShallow, Lines.mirror, World.alloc, World.assign, empty, World.names] at ho ⊢
    subst ho
    simpa using hn.symm
  · intro o n ho hn
    simp [after, step, newLine, Lines.neg, copyShallow, Lines.mirror, World.alloc, World.assign, empty, World.names] at ho ⊢
    subst ho
    simp at hn
  · simp [after, step, newLine, Lines.neg, copyShallow, Lines.mirror, World.alloc, World.assign, empty, World.names]
  · simp [after, step, newLine, Lines.neg, copyShallow, Lines.mirror, World.alloc, World.assign, empty, World.names]

/-- `2 * line`, `line.cycle('b')`, `line.cycle(-1)`, and a repeated name. -/
example (sort : List (Item Nat) → List (Item Nat)) (st : St) :
    (∃ t, mul (after sort st [.new ["a", "b"] none]) 2 0 = some t) ∧
      (∃ w, cycle (after sort st [.new ["a", "b", "c"] none]) 0 none (some "b") = some w ∧ w.names 0 = some ["b", "c", "a"]) ∧
      (∃ w, cycle (after sort st [.new ["a", "b", "c"] none]) 0 (some (.int (-1))) none = some w ∧ w.names 0 = some ["c", "a", "b"]) ∧
      cycle (after sort st [.new ["a", "b", "a"] none]) 0 none (some "a") = none := by
  refine ⟨⟨_, by simp [mul, after, step, newLine, World.alloc, empty, World.names]; rfl⟩, ⟨_, by
    simp [cycle, after, step, newLine, World.alloc, empty, World.names, World.assign]; rfl, ?_⟩, ⟨_, by
    simp [cycle, after, step, newLine, World.alloc, empty, World.names, World.assign]; rfl, ?_⟩, ?_⟩
  · simp [World.names, rotateAt, clip]
  · simp [World.names, rotateAt, clip]
  · simp [cycle, after, step, newLine, World.alloc, empty, World.names]

end Verif.Lines
