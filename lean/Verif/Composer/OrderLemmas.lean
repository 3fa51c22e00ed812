import Verif.Composer.Order
import Mathlib.Tactic.Linarith
import Mathlib.Tactic.Push
import Mathlib.Data.List.Basic
import Mathlib.Data.List.Chain
import Mathlib.Data.List.Nodup
import Mathlib.Data.List.Perm.Basic

/-! Lemmas about the ordering of placements. -/

namespace Verif.Composer

set_option linter.unusedSectionVars false

variable {κ : Type} [DecidableEq κ]

/-! ### One pass -/

theorem walk_pend (l pend : List (Item κ)) :
    (walk l pend).2 = pend.filter (fun q => ∀ p ∈ l, q.from_ ≠ some p.name) := by
  induction l generalizing pend with
  | nil => simp [walk]
  | cons p l ih =>
    rw [walk, ih, List.filter_filter]
    congr 1
    funext q
    simp [Bool.and_comm]

theorem walk_sublist (l pend : List (Item κ)) : l.Sublist (walk l pend).1 := by
  induction l generalizing pend with
  | nil => simp
  | cons p l ih =>
    rw [walk]
    refine List.Sublist.trans ?_ (List.sublist_append_right _ _)
    exact List.Sublist.cons_cons p ((ih _).trans (List.sublist_append_right _ _))

theorem filter_split {α : Type} (P Q : α → Bool) (l : List α) :
    (l.filter (fun a => P a ∧ Q a) ++ (l.filter (fun a => P a ∧ ¬ Q a) ++ l.filter (fun a => ¬ P a))).Perm l := by
  induction l with
  | nil => simp
  | cons a l ih =>
    by_cases hP : P a <;> by_cases hQ : Q a
    · simpa [hP, hQ] using ih
    · simp only [hP, hQ, List.filter_cons]
      simp only [Bool.false_eq_true, and_false, decide_false, not_false_eq_true, and_self, decide_true, not_true_eq_false,
        if_true, if_false]
      exact (List.perm_middle).trans (List.Perm.cons a (by simpa using ih))
    · simp only [hP, List.filter_cons]
      simp only [Bool.false_eq_true, false_and, decide_false, not_false_eq_true, decide_true,
        if_true, if_false]
      rw [← List.append_assoc]
      exact (List.perm_middle).trans (List.Perm.cons a (by simpa using ih))
    · simp only [hP, List.filter_cons]
      simp only [Bool.false_eq_true, false_and, decide_false, not_false_eq_true, decide_true,
        if_true, if_false]
      rw [← List.append_assoc]
      exact (List.perm_middle).trans (List.Perm.cons a (by simpa using ih))

theorem walk_perm (l pend : List (Item κ)) : ((walk l pend).1 ++ (walk l pend).2).Perm (l ++ pend) := by
  induction l generalizing pend with
  | nil => simp [walk]
  | cons p l ih =>
    rw [walk]
    simp only
    set B := pend.filter (fun q => q.from_ = some p.name ∧ q.goesBefore) with hB
    set A := pend.filter (fun q => q.from_ = some p.name ∧ ¬ q.goesBefore) with hA
    set R := pend.filter (fun q => q.from_ ≠ some p.name) with hR
    have h1 : (B ++ (A ++ R)).Perm pend := by
      have := filter_split (fun q : Item κ => decide (q.from_ = some p.name)) (fun q => q.goesBefore) pend
      simpa [hB, hA, hR] using this
    have h2 := ih R
    classical
    rw [List.perm_iff_count] at h1 h2 ⊢
    intro c
    have e1 := h1 c
    have e2 := h2 c
    simp only [List.count_append, List.count_cons, List.cons_append] at e1 e2 ⊢
    omega

theorem pair_sublist {α : Type} {a b : α} {x y : List α} (ha : a ∈ x) (hb : b ∈ y) : [a, b].Sublist (x ++ y) := by
  have : [a, b] = [a] ++ [b] := rfl
  rw [this]
  exact List.Sublist.append (List.singleton_sublist.mpr ha) (List.singleton_sublist.mpr hb)

/-- An element is put next to its target. -/
theorem walk_pair (l pend : List (Item κ)) (p q : Item κ) (hn : (l.map (fun p => p.name)).Nodup) (hp : p ∈ l) (hq : q ∈ pend)
    (hf : q.from_ = some p.name) :
    (q.goesBefore = true → [q, p].Sublist (walk l pend).1) ∧ (q.goesBefore = false → [p, q].Sublist (walk l pend).1) := by
  induction l generalizing pend with
  | nil => simp at hp
  | cons a l ih =>
    rw [walk]
    rw [List.map_cons, List.nodup_cons] at hn
    rw [List.mem_cons] at hp
    rcases hp with rfl | hp
    · constructor
      · intro hb
        apply pair_sublist
        · rw [List.mem_filter]; exact ⟨hq, by simp [hf, hb]⟩
        · simp
      · intro hb
        refine List.Sublist.trans ?_ (List.sublist_append_right _ _)
        apply List.Sublist.cons_cons
        rw [List.singleton_sublist, List.mem_append]
        left
        rw [List.mem_filter]; exact ⟨hq, by simp [hf, hb]⟩
    · have hne : a.name ≠ p.name := by
        intro h; apply hn.1; rw [h]; exact List.mem_map_of_mem hp
      have := ih (pend.filter (fun q => q.from_ ≠ some a.name)) hn.2 hp
        (by rw [List.mem_filter]; exact ⟨hq, by simp [hf]; exact fun h => hne h.symm⟩)
      have hs : (walk l (pend.filter (fun q => q.from_ ≠ some a.name))).1.Sublist
          ((pend.filter (fun q => q.from_ = some a.name ∧ q.goesBefore)) ++ a ::
            ((pend.filter (fun q => q.from_ = some a.name ∧ ¬ q.goesBefore)) ++
              (walk l (pend.filter (fun q => q.from_ ≠ some a.name))).1)) :=
        ((List.sublist_append_right _ _).cons a).trans (List.sublist_append_right _ _)
      exact ⟨fun h => (this.1 h).trans hs, fun h => (this.2 h).trans hs⟩

/-! ### The loop -/

/-- `q` stands before or after `p` in `out`, as its anchor says. -/
def PairOk (out : List (Item κ)) (q p : Item κ) : Prop :=
  (q.goesBefore = true → [q, p].Sublist out) ∧ (q.goesBefore = false → [p, q].Sublist out)

theorem PairOk.mono {x y : List (Item κ)} (h : x.Sublist y) {p q : Item κ} (hp : PairOk x q p) : PairOk y q p :=
  ⟨fun hb => (hp.1 hb).trans h, fun hb => (hp.2 hb).trans h⟩

theorem insertLoop_spec (k : Nat) (order pend out : List (Item κ)) (h : insertLoop k order pend = some out) :
    out.Perm (order ++ pend) ∧ order.Sublist out ∧
      (((order ++ pend).map (fun p => p.name)).Nodup → ∀ q ∈ pend, ∀ p ∈ order ++ pend, q.from_ = some p.name → PairOk out q p) := by
  induction k generalizing order pend with
  | zero => cases h
  | succ k ih =>
    unfold insertLoop at h
    split at h
    · next he =>
      have : pend = [] := by simpa using he
      subst this
      cases h
      simp
    · split at h
      · cases h
      · obtain ⟨h1, h2, h3⟩ := ih _ _ h
        have hw := walk_perm order pend
        refine ⟨h1.trans hw, (walk_sublist order pend).trans h2, ?_⟩
        intro hn q hq p hp hf
        have hn' : (((walk order pend).1 ++ (walk order pend).2).map (fun p => p.name)).Nodup :=
          (hw.map _).nodup_iff.mpr hn
        by_cases hqe : q ∈ (walk order pend).2
        · exact h3 hn' q hqe p (hw.mem_iff.mpr hp) hf
        · rw [walk_pend, List.mem_filter] at hqe
          push Not at hqe
          have := hqe hq
          simp only [ne_eq, decide_eq_true_eq, not_forall, not_not] at this
          obtain ⟨p', hp', hf'⟩ := this
          have hpp : p = p' := by
            have hnm : p.name = p'.name := by rw [hf] at hf'; exact Option.some.inj hf'
            exact List.inj_on_of_nodup_map hn hp (List.mem_append_left _ hp') hnm
          subst hpp
          rw [List.map_append, List.nodup_append] at hn
          exact (PairOk.mono h2) (walk_pair order pend p q hn.1 hp' hq hf)

/-- A set of elements each of which is tied to another one of the set. -/
def Closed (C : List (Item κ)) : Prop := C ≠ [] ∧ ∀ c ∈ C, ∃ d ∈ C, c.from_ = some d.name

theorem insertLoop_none (k : Nat) (order pend : List (Item κ)) (hk : pend.length < k)
    (ht : ∀ q ∈ pend, ∃ t ∈ order ++ pend, q.from_ = some t.name) (h : insertLoop k order pend = none) :
    ∃ C : List (Item κ), C.Sublist pend ∧ Closed C := by
  induction k generalizing order pend with
  | zero => omega
  | succ k ih =>
    unfold insertLoop at h
    split at h
    · cases h
    · next hne =>
      have hw := walk_perm order pend
      have hlen := hw.length_eq
      rw [List.length_append, List.length_append] at hlen
      have hsub : (walk order pend).2.Sublist pend := by rw [walk_pend]; exact List.filter_sublist
      split at h
      · next heq =>
        have heq2 : (walk order pend).2 = pend := hsub.eq_of_length (by omega)
        refine ⟨pend, List.Sublist.refl _, ?_, ?_⟩
        · simpa using hne
        · intro c hc
          obtain ⟨t, htm, hf⟩ := ht c hc
          rw [List.mem_append] at htm
          rcases htm with htm | htm
          · rw [walk_pend] at heq2
            rw [← heq2, List.mem_filter] at hc
            have := hc.2
            simp only [ne_eq, decide_eq_true_eq] at this
            exact absurd hf (this t htm)
          · exact ⟨t, htm, hf⟩
      · next hneq =>
        have hle := (walk_sublist order pend).length_le
        obtain ⟨C, hC, hcl⟩ := ih _ _ (by omega) (by
          intro q hq
          obtain ⟨t, htm, hf⟩ := ht q (hsub.subset hq)
          exact ⟨t, hw.mem_iff.mpr htm, hf⟩) h
        exact ⟨C, hC.trans hsub, hcl⟩

theorem insertLoop_closed (k : Nat) (order pend C : List (Item κ)) (hn : ((order ++ pend).map (fun p => p.name)).Nodup)
    (hC : ∀ c ∈ C, c ∈ pend) (hcl : Closed C) : insertLoop k order pend = none := by
  induction k generalizing order pend with
  | zero => rfl
  | succ k ih =>
    unfold insertLoop
    split
    · next he =>
      have : pend = [] := by simpa using he
      subst this
      obtain ⟨c, hc⟩ := List.exists_mem_of_ne_nil C hcl.1
      exact absurd (hC c hc) (by simp)
    · split
      · rfl
      · apply ih
        · exact ((walk_perm order pend).map _).nodup_iff.mpr hn
        · intro c hc
          rw [walk_pend, List.mem_filter]
          refine ⟨hC c hc, ?_⟩
          simp only [ne_eq, decide_eq_true_eq]
          intro p hp hf
          obtain ⟨d, hd, hf'⟩ := hcl.2 c hc
          rw [hf] at hf'
          have hnm := Option.some.inj hf'
          have hd' := hC d hd
          have hpd := List.inj_on_of_nodup_map hn (List.mem_append_left _ hp) (List.mem_append_right _ hd') hnm
          subst hpd
          rw [List.map_append, List.nodup_append] at hn
          exact hn.2.2 _ (List.mem_map_of_mem hp) _ (List.mem_map_of_mem hd') rfl

/-! ### One group -/

theorem class_perm (f : Item κ → Option Cls) (g : List (Item κ)) (h : ∀ p ∈ g, f p ≠ none) :
    ((g.filter (fun p => f p = some .upstream) ++ (g.filter (fun p => f p = some .free) ++ g.filter (fun p => f p = some .downstream)))
      ++ g.filter (fun p => f p = some .same)).Perm g := by
  induction g with
  | nil => simp
  | cons p g ih =>
    have ih' := ih (fun q hq => h q (by simp [hq]))
    have hp := h p (by simp)
    obtain ⟨c, hc⟩ := Option.ne_none_iff_exists'.mp hp
    classical
    rw [List.perm_iff_count] at ih' ⊢
    intro x
    have e := ih' x
    simp only [List.count_append] at e
    cases c <;> simp only [List.filter_cons, hc, Option.some.injEq, reduceCtorEq, decide_false, decide_true, if_true,
      Bool.false_eq_true, if_false, List.count_append, List.count_cons] <;> omega

variable (allow : Bool) (idx : κ → Option Nat) (k : Nat)

/-- Result of `_order_elements_at_same_s`. -/
theorem orderGroup_spec (g out : List (Item κ)) (h : orderGroup allow idx k g = some out) :
    out.Perm g ∧
    (∀ c1 c2 p q, p ∈ ofClass allow idx k c1 g → q ∈ ofClass allow idx k c2 g →
      (c1 = .upstream ∧ (c2 = .free ∨ c2 = .downstream)) ∨ (c1 = .free ∧ c2 = .downstream) → g.length ≠ 1 →
      (∃ r ∈ g, r.from_ ≠ none) → [p, q].Sublist out) ∧
    (∀ c, c ≠ .same → (ofClass allow idx k c g).Sublist out) ∧
    ((g.map (fun p => p.name)).Nodup → ∀ q ∈ ofClass allow idx k .same g, ∀ p ∈ g, p ≠ q → q.from_ = some p.name → PairOk out q p) := by
  unfold orderGroup at h
  split at h
  · next hc =>
    cases h
    refine ⟨List.Perm.refl _, ?_, fun c _ => List.filter_sublist, ?_⟩
    · rintro c1 c2 p q hp hq - hl ⟨r, hr, hrf⟩
      exfalso
      rcases hc with hc | hc
      · exact hl hc
      · rw [List.all_eq_true] at hc
        have := hc r hr
        simp at this
        exact hrf this
    · intro hn q hq p hp hpq hf
      exfalso
      have hqg : q ∈ g := List.mem_of_mem_filter hq
      rcases hc with hc | hc
      · obtain ⟨a, rfl⟩ := List.length_eq_one_iff.mp hc
        simp at hp hqg
        exact hpq (hp.trans hqg.symm)
      · rw [List.all_eq_true] at hc
        have := hc q hqg
        simp [hf] at this
  · split at h
    · cases h
    · next hnone =>
      have hcls : ∀ p ∈ g, classify allow idx k p ≠ none := by
        intro p hp hn
        apply hnone
        rw [List.any_eq_true]
        exact ⟨p, hp, by simp [hn]⟩
      obtain ⟨h1, h2, h3⟩ := insertLoop_spec _ _ _ _ h
      have hperm := class_perm (classify allow idx k) g hcls
      have hperm' : ((ofClass allow idx k .upstream g ++ (ofClass allow idx k .free g ++ ofClass allow idx k .downstream g)) ++
        ofClass allow idx k .same g).Perm g := hperm
      refine ⟨h1.trans hperm', ?_, ?_, ?_⟩
      · rintro c1 c2 p q hp hq hc - -
        refine List.Sublist.trans ?_ h2
        rcases hc with ⟨rfl, rfl | rfl⟩ | ⟨rfl, rfl⟩
        · exact pair_sublist hp (List.mem_append_left _ hq)
        · exact pair_sublist hp (List.mem_append_right _ hq)
        · exact (pair_sublist hp hq).trans (List.sublist_append_right _ _)
      · intro c hc
        refine List.Sublist.trans ?_ h2
        cases c
        · exact List.sublist_append_left _ _
        · exact (List.sublist_append_right _ _).trans (List.sublist_append_right _ _)
        · exact absurd rfl hc
        · exact (List.sublist_append_left _ _).trans (List.sublist_append_right _ _)
      · intro hn q hq p hp _ hf
        exact h3 ((hperm'.map _).nodup_iff.mpr hn) q hq p (hperm'.mem_iff.mpr hp) hf

/-! ### Groups -/

theorem groupAux_flatten (tol : ℝ) (prev : Item κ) (cur l : List (Item κ)) : (groupAux tol prev cur l).flatten = cur ++ l := by
  induction l generalizing prev cur with
  | nil => simp [groupAux]
  | cons p l ih =>
    unfold groupAux
    split
    · rw [List.flatten_cons, ih]; simp
    · rw [ih]; simp

theorem groupSameS_flatten (tol : ℝ) (l : List (Item κ)) : (groupSameS tol l).flatten = l := by
  cases l with
  | nil => rfl
  | cons p l => rw [groupSameS, groupAux_flatten]; rfl

/-- A run of thin elements close to each other stays in one group. -/
theorem groupAux_run (tol : ℝ) (prev : Item κ) (cur m l : List (Item κ))
    (h : (prev :: m).IsChain (fun a b => ¬ (|b.center - a.center| > tol ∨ a.isThick ∨ b.isThick))) :
    ∃ p' : Item κ, groupAux tol prev cur (m ++ l) = groupAux tol p' (cur ++ m) l := by
  induction m generalizing prev cur with
  | nil => exact ⟨prev, by simp⟩
  | cons a m ih =>
    rw [List.isChain_cons_cons] at h
    obtain ⟨p', hp'⟩ := ih a (cur ++ [a]) h.2
    refine ⟨p', ?_⟩
    rw [List.cons_append, groupAux, if_neg h.1, hp']
    simp

theorem groupAux_head (tol : ℝ) (prev : Item κ) (cur l : List (Item κ)) :
    ∃ x rest, groupAux tol prev cur l = (cur ++ x) :: rest := by
  induction l generalizing prev cur with
  | nil => exact ⟨[], [], by simp [groupAux]⟩
  | cons p l ih =>
    unfold groupAux
    split
    · exact ⟨[], groupAux tol p [p] l, by simp⟩
    · obtain ⟨x, rest, h⟩ := ih p (cur ++ [p])
      exact ⟨p :: x, rest, by rw [h]; simp⟩

theorem groupAux_mem (tol : ℝ) (prev : Item κ) (cur l1 m l2 : List (Item κ)) (a : Item κ)
    (h : (a :: m).IsChain (fun a b => ¬ (|b.center - a.center| > tol ∨ a.isThick ∨ b.isThick))) :
    ∃ g ∈ groupAux tol prev cur (l1 ++ a :: (m ++ l2)), (a :: m).Sublist g := by
  induction l1 generalizing prev cur with
  | nil =>
    rw [List.nil_append, groupAux]
    split
    · obtain ⟨p', hp'⟩ := groupAux_run tol a [a] m l2 h
      obtain ⟨x, rest, hx⟩ := groupAux_head tol p' ([a] ++ m) l2
      rw [hp', hx]
      exact ⟨[a] ++ m ++ x, by simp, by simp⟩
    · obtain ⟨p', hp'⟩ := groupAux_run tol a (cur ++ [a]) m l2 h
      obtain ⟨x, rest, hx⟩ := groupAux_head tol p' (cur ++ [a] ++ m) l2
      rw [hp', hx]
      refine ⟨cur ++ [a] ++ m ++ x, by simp, ?_⟩
      have : cur ++ [a] ++ m ++ x = cur ++ ((a :: m) ++ x) := by simp
      rw [this]
      exact (List.sublist_append_left _ _).trans (List.sublist_append_right _ _)
  | cons b l1 ih =>
    rw [List.cons_append, groupAux]
    split
    · obtain ⟨g, hg, hs⟩ := ih b [b]
      exact ⟨g, List.mem_cons_of_mem _ hg, hs⟩
    · exact ih b (cur ++ [b])

theorem groupSameS_mem (tol : ℝ) (l1 m l2 : List (Item κ)) (a : Item κ)
    (h : (a :: m).IsChain (fun a b => ¬ (|b.center - a.center| > tol ∨ a.isThick ∨ b.isThick))) :
    ∃ g ∈ groupSameS tol (l1 ++ a :: (m ++ l2)), (a :: m).Sublist g := by
  cases l1 with
  | nil =>
    rw [List.nil_append, groupSameS]
    obtain ⟨p', hp'⟩ := groupAux_run tol a [a] m l2 h
    obtain ⟨x, rest, hx⟩ := groupAux_head tol p' ([a] ++ m) l2
    rw [hp', hx]
    exact ⟨[a] ++ m ++ x, by simp, by simp⟩
  | cons b l1 =>
    rw [List.cons_append, groupSameS]
    exact groupAux_mem tol b [b] l1 m l2 a h

/-- Groups whose neighbours are closer than the tolerance. -/
theorem groupAux_chain (tol : ℝ) (prev : Item κ) (cur l : List (Item κ)) (hcur : cur.getLast? = some prev)
    (hc : cur.IsChain (fun a b => ¬ (|b.center - a.center| > tol ∨ a.isThick ∨ b.isThick))) :
    ∀ g ∈ groupAux tol prev cur l, g.IsChain (fun a b => ¬ (|b.center - a.center| > tol ∨ a.isThick ∨ b.isThick)) := by
  induction l generalizing prev cur with
  | nil => simpa [groupAux] using hc
  | cons p l ih =>
    unfold groupAux
    split
    · intro g hg
      rw [List.mem_cons] at hg
      rcases hg with rfl | hg
      · exact hc
      · exact ih p [p] rfl (by simp) g hg
    · next hn =>
      apply ih p (cur ++ [p]) (by simp)
      rw [List.isChain_append]
      refine ⟨hc, by simp, ?_⟩
      intro x hx y hy
      rw [hcur] at hx
      simp at hx hy
      subst hx; subst hy
      exact hn

theorem groupSameS_chain (tol : ℝ) (l : List (Item κ)) :
    ∀ g ∈ groupSameS tol l, g.IsChain (fun a b => ¬ (|b.center - a.center| > tol ∨ a.isThick ∨ b.isThick)) := by
  cases l with
  | nil => simp [groupSameS]
  | cons p l => rw [groupSameS]; exact groupAux_chain tol p [p] l rfl (by simp)

/-! ### All groups -/

theorem orderGroups_perm (gs : List (List (Item κ))) (out : List (Item κ)) (h : orderGroups allow idx k gs = some out) :
    out.Perm gs.flatten := by
  induction gs generalizing k out with
  | nil => cases h; exact List.Perm.refl _
  | cons g gs ih =>
    unfold orderGroups at h
    split at h
    · cases h
    · next o ho =>
      rw [Option.map_eq_some_iff] at h
      obtain ⟨r, hr, rfl⟩ := h
      rw [List.flatten_cons]
      exact ((orderGroup_spec allow idx k g o ho).1).append (ih (k + 1) r hr)

theorem orderGroups_split (pre post : List (List (Item κ))) (g out : List (Item κ))
    (h : orderGroups allow idx k (pre ++ g :: post) = some out) :
    ∃ x o y, out = x ++ (o ++ y) ∧ x.Perm pre.flatten ∧ orderGroup allow idx (k + pre.length) g = some o ∧ y.Perm post.flatten := by
  induction pre generalizing k out with
  | nil =>
    rw [List.nil_append] at h
    unfold orderGroups at h
    split at h
    · cases h
    · next o ho =>
      rw [Option.map_eq_some_iff] at h
      obtain ⟨r, hr, rfl⟩ := h
      exact ⟨[], o, r, by simp, by simp, by simpa using ho, orderGroups_perm _ _ _ _ _ hr⟩
  | cons a pre ih =>
    rw [List.cons_append] at h
    unfold orderGroups at h
    split at h
    · cases h
    · next o ho =>
      rw [Option.map_eq_some_iff] at h
      obtain ⟨r, hr, rfl⟩ := h
      obtain ⟨x, o', y, rfl, hx, ho', hy⟩ := ih (k + 1) r hr
      refine ⟨o ++ x, o', y, by simp, ?_, ?_, hy⟩
      · rw [List.flatten_cons]; exact ((orderGroup_spec allow idx k a o ho).1).append hx
      · rw [List.length_cons, ← ho']; congr 1; omega

theorem orderGroups_none (gs : List (List (Item κ))) (h : orderGroups allow idx k gs = none) :
    ∃ pre g post, gs = pre ++ g :: post ∧ orderGroup allow idx (k + pre.length) g = none := by
  induction gs generalizing k with
  | nil => cases h
  | cons g gs ih =>
    unfold orderGroups at h
    split at h
    · next hn => exact ⟨[], g, gs, rfl, by simpa using hn⟩
    · rw [Option.map_eq_none_iff] at h
      obtain ⟨pre, g', post, rfl, hn⟩ := ih (k + 1) h
      refine ⟨g :: pre, g', post, rfl, ?_⟩
      rw [List.length_cons, ← hn]; congr 1; omega

theorem orderGroups_none_of (pre post : List (List (Item κ))) (g : List (Item κ))
    (h : orderGroup allow idx (k + pre.length) g = none) : orderGroups allow idx k (pre ++ g :: post) = none := by
  induction pre generalizing k with
  | nil => rw [List.nil_append, orderGroups]; simp at h; rw [h]
  | cons a pre ih =>
    rw [List.cons_append, orderGroups]
    split
    · rfl
    · rw [ih (k + 1) (by rw [← h, List.length_cons]; congr 1; omega)]; rfl

/-- The dictionary of group indices finds the group, when names are unique. -/
theorem groupIndex_spec (gs : List (List (Item κ))) (n : κ) (j : Nat) (h : groupIndex k gs n = some j) :
    ∃ pre g post, gs = pre ++ g :: post ∧ j = k + pre.length ∧ n ∈ g.map (fun p => p.name) := by
  induction gs generalizing k with
  | nil => cases h
  | cons g gs ih =>
    unfold groupIndex at h
    split at h
    · next i hi =>
      cases h
      obtain ⟨pre, g', post, rfl, hj, hm⟩ := ih (k + 1) hi
      exact ⟨g :: pre, g', post, rfl, by rw [List.length_cons]; omega, hm⟩
    · split at h
      · next hm => cases h; exact ⟨[], g, gs, rfl, by simp, hm⟩
      · cases h

theorem groupIndex_none (gs : List (List (Item κ))) (n : κ) :
    groupIndex k gs n = none ↔ n ∉ gs.flatten.map (fun p => p.name) := by
  induction gs generalizing k with
  | nil => simp [groupIndex]
  | cons g gs ih =>
    unfold groupIndex
    rw [List.flatten_cons, List.map_append, List.mem_append, not_or, ← ih (k + 1)]
    split
    · next i hi => simp [hi]
    · next hi =>
      rw [hi]
      simp

theorem groupIndex_eq (pre post : List (List (Item κ))) (g : List (Item κ)) (n : κ)
    (hn : ((pre ++ g :: post).flatten.map (fun p => p.name)).Nodup) (hm : n ∈ g.map (fun p => p.name)) :
    groupIndex k (pre ++ g :: post) n = some (k + pre.length) := by
  induction pre generalizing k with
  | nil =>
    rw [List.nil_append, groupIndex]
    rw [List.nil_append, List.flatten_cons, List.map_append, List.nodup_append] at hn
    have : groupIndex (k + 1) post n = none := by
      rw [groupIndex_none]
      intro hp
      exact hn.2.2 n hm n hp rfl
    rw [this]
    simp [hm]
  | cons a pre ih =>
    rw [List.cons_append, groupIndex]
    rw [List.cons_append, List.flatten_cons, List.map_append, List.nodup_append] at hn
    rw [ih (k + 1) hn.2.1]
    simp only [List.length_cons]
    congr 1; omega

end Verif.Composer
