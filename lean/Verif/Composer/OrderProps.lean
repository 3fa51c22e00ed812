import Verif.Composer.OrderLemmas
import Mathlib.Tactic.NormNum
import Mathlib.Tactic.FieldSimp
import Mathlib.Algebra.Order.Archimedean.Real.Basic

/-!
# C35: ordering at equal s respects the before/after constraints
-/

namespace Verif.Composer

set_option linter.unusedSectionVars false

variable {κ : Type} [DecidableEq κ]

/-- Two centers are equal or clearly apart. -/
def Separated (tol : ℝ) (l : List (Item κ)) : Prop :=
  ∀ a ∈ l, ∀ b ∈ l, a.center = b.center ∨ tol < |a.center - b.center|

/-- `a` and `b` are at the same position, where there is no thick element. -/
def SameS (l : List (Item κ)) (a b : Item κ) : Prop :=
  a ∈ l ∧ b ∈ l ∧ a.center = b.center ∧ ∀ c ∈ l, c.center = a.center → c.thick = false ∨ c.len = 0

/-- Names with repetition are unique. -/
def UniqueNames (l : List (Item κ)) : Prop := (l.map (fun p => p.name)).Nodup

/-! ### Insertion sort is a possible `sorted` -/

section PythonSort

variable {α : Type} (lt : α → α → Prop) [DecidableRel lt]

theorem insertSorted_perm (x : α) (l : List α) : (insertSorted lt x l).Perm (x :: l) := by
  induction l with
  | nil => exact List.Perm.refl _
  | cons y l ih =>
    unfold insertSorted
    split
    · exact (List.Perm.cons y ih).trans (List.Perm.swap x y l)
    · exact List.Perm.refl _

theorem isort_perm (l : List α) : (isort lt l).Perm l := by
  induction l with
  | nil => exact List.Perm.refl _
  | cons x l ih => exact (insertSorted_perm lt x _).trans (List.Perm.cons x ih)

theorem insertSorted_sublist (x : α) (l : List α) : l.Sublist (insertSorted lt x l) := by
  induction l with
  | nil => simp
  | cons y l ih =>
    unfold insertSorted
    split
    · exact ih.cons_cons y
    · exact List.sublist_cons_self _ _

theorem insertSorted_pairwise (x : α) (l : List α) (hw : WeakOrder lt (x :: l)) (h : l.Pairwise (fun a b => ¬ lt b a)) :
    (insertSorted lt x l).Pairwise (fun a b => ¬ lt b a) := by
  induction l with
  | nil => simp [insertSorted]
  | cons y l ih =>
    rw [List.pairwise_cons] at h
    have hw' : WeakOrder lt (x :: l) := by
      constructor
      · intro a ha b hb; exact hw.asymm a (by simp at ha ⊢; tauto) b (by simp at hb ⊢; tauto)
      · intro a ha b hb c hc
        exact hw.negTrans a (by simp at ha ⊢; tauto) b (by simp at hb ⊢; tauto) c (by simp at hc ⊢; tauto)
    unfold insertSorted
    split
    · next hlt =>
      rw [List.pairwise_cons]
      refine ⟨?_, ih hw' h.2⟩
      intro z hz
      rw [(insertSorted_perm lt x l).mem_iff, List.mem_cons] at hz
      rcases hz with rfl | hz
      · exact hw.asymm y (by simp) z (by simp) hlt
      · exact h.1 z hz
    · next hlt =>
      rw [List.pairwise_cons]
      refine ⟨?_, List.pairwise_cons.mpr h⟩
      intro z hz
      rw [List.mem_cons] at hz
      rcases hz with rfl | hz
      · exact hlt
      · exact hw.negTrans z (by simp [hz]) y (by simp) x (by simp) (h.1 z hz) hlt

theorem insertSorted_stable (x b : α) (l : List α) (hb : b ∈ l) (hw : WeakOrder lt (x :: l))
    (hs : l.Pairwise (fun a b => ¬ lt b a)) (h : ¬ lt b x) : [x, b].Sublist (insertSorted lt x l) := by
  induction l with
  | nil => simp at hb
  | cons y l ih =>
    have hw' : WeakOrder lt (x :: l) := by
      constructor
      · intro a ha b hb; exact hw.asymm a (by simp at ha ⊢; tauto) b (by simp at hb ⊢; tauto)
      · intro a ha b hb c hc
        exact hw.negTrans a (by simp at ha ⊢; tauto) b (by simp at hb ⊢; tauto) c (by simp at hc ⊢; tauto)
    unfold insertSorted
    rw [List.pairwise_cons] at hs
    split
    · next hlt =>
      rw [List.mem_cons] at hb
      rcases hb with rfl | hb
      · exact absurd hlt h
      · exact (ih hb hw' hs.2).cons y
    · apply List.Sublist.cons_cons
      exact List.singleton_sublist.mpr hb

theorem weakOrder_mono {l l' : List α} (h : ∀ a ∈ l', a ∈ l) (hw : WeakOrder lt l) : WeakOrder lt l' :=
  ⟨fun a ha b hb => hw.asymm a (h a ha) b (h b hb), fun a ha b hb c hc => hw.negTrans a (h a ha) b (h b hb) c (h c hc)⟩

theorem isort_sorted (l : List α) (hw : WeakOrder lt l) : (isort lt l).Pairwise (fun a b => ¬ lt b a) := by
  induction l with
  | nil => simp [isort]
  | cons x l ih =>
    rw [isort]
    apply insertSorted_pairwise
    · apply weakOrder_mono lt _ hw
      intro a ha
      rw [List.mem_cons, (isort_perm lt l).mem_iff] at ha
      exact List.mem_cons.mpr ha
    · exact ih (weakOrder_mono lt (fun a ha => List.mem_cons_of_mem _ ha) hw)

/-- `PySort` is satisfiable. -/
theorem isort_pySort : PySort lt (isort lt) := by
  constructor
  · exact isort_perm lt
  · intro l h
    induction l with
    | nil => rfl
    | cons x l ih =>
      rw [isort, ih h.tail]
      cases l with
      | nil => rfl
      | cons y l =>
        rw [List.isChain_cons_cons] at h
        rw [insertSorted, if_neg h.1]
  · exact isort_sorted lt
  · intro l hw a b hs hab
    induction l with
    | nil => cases hs
    | cons x l ih =>
      rw [isort]
      have hw' := weakOrder_mono lt (fun a (ha : a ∈ l) => List.mem_cons_of_mem x ha) hw
      cases hs with
      | cons _ hs => exact (ih hw' hs).trans (insertSorted_sublist lt x _)
      | cons_cons _ hs =>
        have hb : b ∈ l := List.singleton_sublist.mp hs
        apply insertSorted_stable
        · exact (isort_perm lt l).mem_iff.mpr hb
        · apply weakOrder_mono lt _ hw
          intro c hc
          rw [List.mem_cons, (isort_perm lt l).mem_iff] at hc
          exact List.mem_cons.mpr hc
        · exact isort_sorted lt l hw'
        · exact hab

end PythonSort

/-! ### Auxiliary facts for separated centers -/

theorem cmpLt_iff {tol : ℝ} {l : List (Item κ)} (hs : Separated tol l) {a b : Item κ} (ha : a ∈ l) (hb : b ∈ l) :
    cmpLt tol a b ↔ a.center < b.center := by
  unfold cmpLt
  constructor
  · exact fun h => h.2
  · intro h
    refine ⟨?_, h⟩
    rcases hs a ha b hb with he | hg
    · linarith
    · linarith

theorem separated_weak {tol : ℝ} {l : List (Item κ)} (hs : Separated tol l) : WeakOrder (cmpLt tol) l := by
  constructor
  · intro a ha b hb h
    rw [cmpLt_iff hs ha hb] at h
    rw [cmpLt_iff hs hb ha]; linarith
  · intro a ha b hb c hc h1 h2
    rw [cmpLt_iff hs ha hb] at h1
    rw [cmpLt_iff hs hb hc] at h2
    rw [cmpLt_iff hs ha hc]; linarith

theorem separated_sorted {tol : ℝ} {sort : List (Item κ) → List (Item κ)} (hp : PySort (cmpLt tol) sort)
    {l : List (Item κ)} (hs : Separated tol l) : (sort l).Pairwise (fun a b => a.center ≤ b.center) := by
  have h := hp.sorted l (separated_weak hs)
  refine h.imp_of_mem ?_
  intro a b ha hb hn
  rw [(hp.perm l).mem_iff] at ha hb
  rw [cmpLt_iff hs hb ha] at hn
  linarith

/-- All the elements of a group have the same center. -/
theorem group_center {tol : ℝ} {l g : List (Item κ)} (hs : Separated tol l) (hg : ∀ a ∈ g, a ∈ l)
    (hc : g.IsChain (fun a b => ¬ (|b.center - a.center| > tol ∨ a.isThick ∨ b.isThick))) :
    ∀ a ∈ g, ∀ b ∈ g, a.center = b.center := by
  have key : ∀ (x : Item κ) (m : List (Item κ)), (∀ a ∈ x :: m, a ∈ l) →
      (x :: m).IsChain (fun a b => ¬ (|b.center - a.center| > tol ∨ a.isThick ∨ b.isThick)) → ∀ a ∈ m, a.center = x.center := by
    intro x m
    induction m generalizing x with
    | nil => simp
    | cons y m ih =>
      intro hl hch a ha
      rw [List.isChain_cons_cons] at hch
      have hxy : y.center = x.center := by
        rcases hs y (hl y (by simp)) x (hl x (by simp)) with he | hgt
        · exact he
        · exact absurd (Or.inl hgt) hch.1
      rw [List.mem_cons] at ha
      rcases ha with rfl | ha
      · exact hxy
      · rw [ih y (fun a ha => hl a (by simp at ha ⊢; tauto)) hch.2 a ha, hxy]
  intro a ha b hb
  cases g with
  | nil => simp at ha
  | cons x m =>
    have h1 : ∀ c ∈ x :: m, c.center = x.center := by
      intro c hcm
      rw [List.mem_cons] at hcm
      rcases hcm with rfl | hcm
      · rfl
      · exact key x m hg hc c hcm
    rw [h1 a ha, h1 b hb]

theorem sortPlaces_perm {sort : List (Item κ) → List (Item κ)} {tol : ℝ} (hp : PySort (cmpLt tol) sort) {allow : Bool}
    {l out : List (Item κ)} (h : sortPlaces sort tol allow l = some out) : out.Perm l := by
  have := orderGroups_perm allow _ 0 _ out h
  rw [groupSameS_flatten] at this
  exact this.trans (hp.perm l)

/-- In a sorted list, elements between two elements with the same center have that center. -/
theorem between {x y : Item κ} {m m1 m2 : List (Item κ)} (h : (m1 ++ x :: (m ++ y :: m2)).Pairwise (fun a b => a.center ≤ b.center))
    (hxy : x.center = y.center) : ∀ c ∈ m, c.center = x.center := by
  intro c hc
  rw [List.pairwise_append] at h
  have h2 := h.2.1
  rw [List.pairwise_cons] at h2
  have h3 := h2.2
  rw [List.pairwise_append] at h3
  have e1 := h2.1 c (List.mem_append_left _ hc)
  have e2 := h3.2.2 c hc y (by simp)
  linarith

/-- Two elements at the same s are in one group, in the order of the sorted list. -/
theorem same_group {tol : ℝ} (h0 : 0 ≤ tol) {sort : List (Item κ) → List (Item κ)} (hp : PySort (cmpLt tol) sort)
    {l : List (Item κ)} (hs : Separated tol l) {a b : Item κ} (hab : SameS l a b) (hsub : [a, b].Sublist (sort l)) :
    ∃ g ∈ groupSameS tol (sort l), [a, b].Sublist g := by
  have hsorted := separated_sorted hp hs
  obtain ⟨l1, r1, e1, ha1, hb1⟩ := List.append_sublist_iff (l₁ := [a]) (l₂ := [b]) |>.mp (show ([a] ++ [b]).Sublist (sort l) from hsub)
  rw [List.singleton_sublist] at ha1 hb1
  obtain ⟨p1, p2, rfl⟩ := List.append_of_mem ha1
  obtain ⟨q1, q2, rfl⟩ := List.append_of_mem hb1
  have e : sort l = p1 ++ a :: ((p2 ++ q1) ++ b :: q2) := by rw [e1]; simp
  have hmid := between (by rw [← e]; exact hsorted) hab.2.2.1
  have hmem : ∀ c ∈ a :: ((p2 ++ q1) ++ [b]), c ∈ l ∧ c.center = a.center := by
    intro c hc
    constructor
    · rw [← (hp.perm l).mem_iff, e]
      simp at hc ⊢; tauto
    · rw [List.mem_cons, List.mem_append, List.mem_singleton] at hc
      rcases hc with rfl | hc | rfl
      · rfl
      · exact hmid c hc
      · exact hab.2.2.1.symm
  have hch : (a :: ((p2 ++ q1) ++ [b])).IsChain (fun a b => ¬ (|b.center - a.center| > tol ∨ a.isThick ∨ b.isThick)) := by
    apply List.Pairwise.isChain
    apply List.pairwise_of_forall_mem_list
    intro c hc d hd
    have hc' := hmem c hc
    have hd' := hmem d hd
    have thin : ∀ e : Item κ, e ∈ l → e.center = a.center → ¬ e.isThick := by
      intro e he hce hth
      rcases hab.2.2.2 e he hce with ht | ht
      · rw [hth.1] at ht; cases ht
      · apply hth.2; unfold Item.stop; rw [ht]; ring
    rintro (h1 | h1 | h1)
    · rw [hc'.2, hd'.2] at h1
      simp at h1
      linarith
    · exact thin c hc'.1 hc'.2 h1
    · exact thin d hd'.1 hd'.2 h1
  obtain ⟨g, hg, hsg⟩ := groupSameS_mem tol p1 ((p2 ++ q1) ++ [b]) q2 a hch
  refine ⟨g, ?_, ?_⟩
  · rw [e]
    have : p1 ++ a :: (p2 ++ q1 ++ b :: q2) = p1 ++ a :: (p2 ++ q1 ++ [b] ++ q2) := by simp
    rw [this]; exact hg
  · refine List.Sublist.trans ?_ hsg
    apply List.Sublist.cons_cons
    rw [List.singleton_sublist]; simp

theorem pair_or {α : Type} {a b : α} {l : List α} (ha : a ∈ l) (hb : b ∈ l) (hne : a ≠ b) :
    [a, b].Sublist l ∨ [b, a].Sublist l := by
  obtain ⟨p, q, rfl⟩ := List.append_of_mem ha
  rw [List.mem_append, List.mem_cons] at hb
  rcases hb with hb | hb | hb
  · right; exact pair_sublist hb (by simp)
  · exact absurd hb.symm hne
  · left
    exact (List.Sublist.cons_cons a (List.singleton_sublist.mpr hb)).trans (List.sublist_append_right _ _)

/-- Two elements at the same s are in one group. -/
theorem same_group' {tol : ℝ} (h0 : 0 ≤ tol) {sort : List (Item κ) → List (Item κ)} (hp : PySort (cmpLt tol) sort)
    {l : List (Item κ)} (hs : Separated tol l) {a b : Item κ} (hab : SameS l a b) (hne : a ≠ b) :
    ∃ g ∈ groupSameS tol (sort l), a ∈ g ∧ b ∈ g := by
  rcases pair_or ((hp.perm l).mem_iff.mpr hab.1) ((hp.perm l).mem_iff.mpr hab.2.1) hne with h | h
  · obtain ⟨g, hg, hsg⟩ := same_group h0 hp hs hab h
    exact ⟨g, hg, hsg.subset (by simp), hsg.subset (by simp)⟩
  · have hba : SameS l b a := ⟨hab.2.1, hab.1, hab.2.2.1.symm, fun c hc he => hab.2.2.2 c hc (he.trans hab.2.2.1.symm)⟩
    obtain ⟨g, hg, hsg⟩ := same_group h0 hp hs hba h
    exact ⟨g, hg, hsg.subset (by simp), hsg.subset (by simp)⟩

/-- The position of a group, its ordered version and the rest of the output. -/
theorem sortPlaces_group {tol : ℝ} {sort : List (Item κ) → List (Item κ)} {allow : Bool} {l out : List (Item κ)}
    (h : sortPlaces sort tol allow l = some out) {g : List (Item κ)} (hg : g ∈ groupSameS tol (sort l)) :
    ∃ pre post o, groupSameS tol (sort l) = pre ++ g :: post ∧
      orderGroup allow (groupIndex 0 (groupSameS tol (sort l))) pre.length g = some o ∧ o.Sublist out := by
  obtain ⟨pre, post, e⟩ := List.append_of_mem hg
  have h' := h
  unfold sortPlaces at h'
  generalize hidx : groupIndex 0 (groupSameS tol (sort l)) = idx at h' ⊢
  rw [e] at h'
  obtain ⟨x, o, y, rfl, -, ho, -⟩ := orderGroups_split allow idx 0 pre post g out h'
  refine ⟨pre, post, o, e, by simpa using ho, ?_⟩
  exact (List.sublist_append_left _ _).trans (List.sublist_append_right _ _)

theorem groups_nodup {tol : ℝ} {sort : List (Item κ) → List (Item κ)} (hp : PySort (cmpLt tol) sort) {l : List (Item κ)}
    (hu : UniqueNames l) : ((groupSameS tol (sort l)).flatten.map (fun p => p.name)).Nodup := by
  rw [groupSameS_flatten]; exact ((hp.perm l).map _).nodup_iff.mpr hu

/-! ### Properties -/

/-- C35: sorting neither drops nor duplicates a component. -/
theorem C35_permutation (sort : List (Item κ) → List (Item κ)) (tol : ℝ) (hp : PySort (cmpLt tol) sort) (allow : Bool)
    (l out : List (Item κ)) (h : sortPlaces sort tol allow l = some out) : out.Perm l :=
  sortPlaces_perm hp h

/-- C35: components are ordered by s.  Partial: centers must be equal or further apart than the tolerance,
see `C35_sorted_violated`. -/
theorem C35_sorted_partial (sort : List (Item κ) → List (Item κ)) (tol : ℝ) (hp : PySort (cmpLt tol) sort) (allow : Bool)
    (l out : List (Item κ)) (hs : Separated tol l) (h : sortPlaces sort tol allow l = some out) :
    out.Pairwise (fun a b => a.center ≤ b.center) := by
  have hsorted := separated_sorted hp hs
  have hchain := groupSameS_chain tol (sort l)
  have hfl := groupSameS_flatten tol (sort l)
  have hmem : ∀ g ∈ groupSameS tol (sort l), ∀ a ∈ g, a ∈ l := by
    intro g hg a ha
    rw [← (hp.perm l).mem_iff, ← hfl]
    exact List.mem_flatten.mpr ⟨g, hg, ha⟩
  rw [← hfl] at hsorted
  unfold sortPlaces at h
  generalize groupIndex 0 (groupSameS tol (sort l)) = idx at h
  generalize 0 = k at h
  clear hfl
  generalize groupSameS tol (sort l) = gs at *
  induction gs generalizing k out with
  | nil => cases h; exact List.Pairwise.nil
  | cons g gs ih =>
    unfold orderGroups at h
    split at h
    · cases h
    · next o ho =>
      rw [Option.map_eq_some_iff] at h
      obtain ⟨r, hr, rfl⟩ := h
      rw [List.flatten_cons, List.pairwise_append] at hsorted
      have hpo := (orderGroup_spec allow idx k g o ho).1
      rw [List.pairwise_append]
      refine ⟨?_, ?_, ?_⟩
      · apply List.pairwise_of_forall_mem_list
        intro a ha b hb
        exact (group_center hs (hmem g (by simp)) (hchain g (by simp)) a (hpo.mem_iff.mp ha) b (hpo.mem_iff.mp hb)).le
      · exact ih r _ hsorted.2.1 (fun g' hg' => hchain g' (by simp [hg'])) (fun g' hg' => hmem g' (by simp [hg'])) hr
      · intro a ha b hb
        exact hsorted.2.2 a (hpo.mem_iff.mp ha) b ((orderGroups_perm _ _ _ _ _ hr).mem_iff.mp hb)

/-- C35: at the same s, a component placed relative to the start (or center) of another one precedes it and one placed relative to
its end follows it. -/
theorem C35_before_after (sort : List (Item κ) → List (Item κ)) (tol : ℝ) (h0 : 0 ≤ tol) (hp : PySort (cmpLt tol) sort) (allow : Bool)
    (l out : List (Item κ)) (hs : Separated tol l) (hu : UniqueNames l) (h : sortPlaces sort tol allow l = some out)
    (a b : Item κ) (hab : SameS l a b) (hne : a ≠ b) (hf : a.from_ = some b.name) :
    (a.fromAnchor = some .start ∨ a.fromAnchor = some .center → [a, b].Sublist out) ∧
      (a.fromAnchor = some .end → [b, a].Sublist out) := by
  obtain ⟨g, hg, ha, hb⟩ := same_group' h0 hp hs hab hne
  obtain ⟨pre, post, o, e, ho, hsub⟩ := sortPlaces_group h hg
  have hnd := groups_nodup hp hu
  have hspec := (orderGroup_spec _ _ _ _ _ ho).2.2.2
  have hgn : (g.map (fun p => p.name)).Nodup := by
    rw [e, List.flatten_append, List.flatten_cons, List.map_append, List.map_append] at hnd
    exact (List.nodup_append.mp (List.nodup_append.mp hnd).2.1).1
  have hidx := groupIndex_eq 0 pre post g b.name (by rw [← e]; exact hnd) (List.mem_map_of_mem hb)
  rw [← e, Nat.zero_add] at hidx
  have hcls : a.fromAnchor ≠ none → a ∈ ofClass allow (groupIndex 0 (groupSameS tol (sort l))) pre.length .same g := by
    intro hanc
    unfold ofClass
    rw [List.mem_filter]
    refine ⟨ha, ?_⟩
    simp [classify, hf, hidx, hanc]
  constructor
  · intro hanc
    have h1 := hspec hgn a (hcls (by rcases hanc with hanc | hanc <;> simp [hanc])) b hb hne.symm hf
    exact (h1.1 (by rcases hanc with hanc | hanc <;> simp [Item.goesBefore, hanc])).trans hsub
  · intro hanc
    have h1 := hspec hgn a (hcls (by simp [hanc])) b hb hne.symm hf
    exact (h1.2 (by simp [Item.goesBefore, hanc])).trans hsub

/-- No constraint from the placement: no reference, or a reference to the same s without anchor. -/
def Unconstrained (l : List (Item κ)) (a : Item κ) : Prop :=
  a.from_ = none ∨ (a.fromAnchor = none ∧ ∃ c, SameS l a c ∧ a ≠ c ∧ a.from_ = some c.name)

theorem groupIndex_of_same {tol : ℝ} (h0 : 0 ≤ tol) {sort : List (Item κ) → List (Item κ)} (hp : PySort (cmpLt tol) sort)
    {l : List (Item κ)} (hs : Separated tol l) (hu : UniqueNames l) {a c : Item κ} (hac : SameS l a c) (hne : a ≠ c)
    {pre post : List (List (Item κ))} {g : List (Item κ)} (e : groupSameS tol (sort l) = pre ++ g :: post) (ha : a ∈ g) :
    groupIndex 0 (groupSameS tol (sort l)) c.name = some pre.length := by
  have hnd := groups_nodup hp hu
  obtain ⟨g', hg', ha', hc'⟩ := same_group' h0 hp hs hac hne
  obtain ⟨pre', post', e'⟩ := List.append_of_mem hg'
  have i1 := groupIndex_eq 0 pre post g a.name (by rw [← e]; exact hnd) (List.mem_map_of_mem ha)
  have i2 := groupIndex_eq 0 pre' post' g' a.name (by rw [← e']; exact hnd) (List.mem_map_of_mem ha')
  have i3 := groupIndex_eq 0 pre' post' g' c.name (by rw [← e']; exact hnd) (List.mem_map_of_mem hc')
  rw [← e] at i1
  rw [← e'] at i2 i3
  rw [i1] at i2
  rw [i3, ← i2, Nat.zero_add]

theorem unconstrained_free {tol : ℝ} (h0 : 0 ≤ tol) {sort : List (Item κ) → List (Item κ)} (hp : PySort (cmpLt tol) sort)
    {l : List (Item κ)} (hs : Separated tol l) (hu : UniqueNames l) (allow : Bool) {a : Item κ} (hun : Unconstrained l a)
    {pre post : List (List (Item κ))} {g : List (Item κ)} (e : groupSameS tol (sort l) = pre ++ g :: post) (ha : a ∈ g) :
    a ∈ ofClass allow (groupIndex 0 (groupSameS tol (sort l))) pre.length .free g := by
  unfold ofClass
  rw [List.mem_filter]
  refine ⟨ha, ?_⟩
  rcases hun with hun | ⟨hanc, c, hac, hne, hf⟩
  · simp [classify, hun]
  · have := groupIndex_of_same h0 hp hs hu hac hne e ha
    simp [classify, hf, this, hanc]

/-- C35: unconstrained components at the same s keep their input order. -/
theorem C35_input_order (sort : List (Item κ) → List (Item κ)) (tol : ℝ) (h0 : 0 ≤ tol) (hp : PySort (cmpLt tol) sort) (allow : Bool)
    (l out : List (Item κ)) (hs : Separated tol l) (hu : UniqueNames l) (h : sortPlaces sort tol allow l = some out)
    (a b : Item κ) (hab : SameS l a b) (ha : Unconstrained l a) (hb : Unconstrained l b) (hin : [a, b].Sublist l) :
    [a, b].Sublist out := by
  have hsub : [a, b].Sublist (sort l) := by
    apply hp.stable l (separated_weak hs) a b hin
    rw [cmpLt_iff hs hab.2.1 hab.1, hab.2.2.1]
    exact lt_irrefl _
  obtain ⟨g, hg, hsg⟩ := same_group h0 hp hs hab hsub
  obtain ⟨pre, post, o, e, ho, hso⟩ := sortPlaces_group h hg
  have hfa := unconstrained_free h0 hp hs hu allow ha e (hsg.subset (by simp))
  have hfb := unconstrained_free h0 hp hs hu allow hb e (hsg.subset (by simp))
  refine List.Sublist.trans ?_ (((orderGroup_spec _ _ _ _ _ ho).2.2.1 .free (by decide)).trans hso)
  have h2 := hsg.filter (fun p => classify allow (groupIndex 0 (groupSameS tol (sort l))) pre.length p = some .free)
  unfold ofClass at hfa hfb ⊢
  rw [List.mem_filter] at hfa hfb
  rw [List.filter_cons, if_pos hfa.2, List.filter_cons, if_pos hfb.2] at h2
  exact h2

theorem index_lt {tol : ℝ} {sort : List (Item κ) → List (Item κ)} (hp : PySort (cmpLt tol) sort)
    {l : List (Item κ)} (hs : Separated tol l) (hu : UniqueNames l) {a c : Item κ} (ha : a ∈ l) (hc : c ∈ l) (hlt : c.center < a.center) :
    ∃ i j, groupIndex 0 (groupSameS tol (sort l)) c.name = some i ∧ groupIndex 0 (groupSameS tol (sort l)) a.name = some j ∧ i < j := by
  have hnd := groups_nodup hp hu
  have hfl := groupSameS_flatten tol (sort l)
  have hsorted := separated_sorted hp hs
  have hchain := groupSameS_chain tol (sort l)
  have hmem : ∀ g ∈ groupSameS tol (sort l), ∀ a ∈ g, a ∈ l := by
    intro g hg a ha
    rw [← (hp.perm l).mem_iff, ← hfl]
    exact List.mem_flatten.mpr ⟨g, hg, ha⟩
  have hex : ∀ x ∈ l, ∃ pre g post, groupSameS tol (sort l) = pre ++ g :: post ∧ x ∈ g := by
    intro x hx
    rw [← (hp.perm l).mem_iff, ← hfl, List.mem_flatten] at hx
    obtain ⟨g, hg, hxg⟩ := hx
    obtain ⟨pre, post, e⟩ := List.append_of_mem hg
    exact ⟨pre, g, post, e, hxg⟩
  obtain ⟨pre, g, post, e, hag⟩ := hex a ha
  have i1 := groupIndex_eq 0 pre post g a.name (by rw [← e]; exact hnd) (List.mem_map_of_mem hag)
  have hcl : c ∈ (groupSameS tol (sort l)).flatten := by rw [hfl, (hp.perm l).mem_iff]; exact hc
  rw [← hfl, e, List.flatten_append, List.flatten_cons] at hsorted
  have hsorted' := hsorted
  rw [List.pairwise_append] at hsorted'
  rw [e, List.flatten_append, List.mem_append, List.flatten_cons, List.mem_append] at hcl
  rcases hcl with hcl | hcl | hcl
  · rw [List.mem_flatten] at hcl
    obtain ⟨g', hg', hcg'⟩ := hcl
    obtain ⟨p1, p2, rfl⟩ := List.append_of_mem hg'
    have e2 : groupSameS tol (sort l) = p1 ++ g' :: (p2 ++ g :: post) := by rw [e]; simp
    have i2 := groupIndex_eq 0 p1 (p2 ++ g :: post) g' c.name (by rw [← e2]; exact hnd) (List.mem_map_of_mem hcg')
    rw [← e2] at i2
    rw [← e] at i1
    refine ⟨_, _, i2, i1, ?_⟩
    simp only [List.length_append, List.length_cons]
    omega
  · exfalso
    have hg : g ∈ groupSameS tol (sort l) := by rw [e]; simp
    have := group_center hs (hmem g hg) (hchain g hg) a hag c hcl
    linarith
  · exfalso
    have h3 := (List.pairwise_append.mp hsorted'.2.1).2.2 a hag c hcl
    linarith

/-- C35: at the same s, components placed relative to an upstream component come before the unconstrained ones, and components
placed relative to a downstream component come after them. -/
theorem C35_upstream_downstream (sort : List (Item κ) → List (Item κ)) (tol : ℝ) (h0 : 0 ≤ tol) (hp : PySort (cmpLt tol) sort)
    (allow : Bool) (l out : List (Item κ)) (hs : Separated tol l) (hu : UniqueNames l) (h : sortPlaces sort tol allow l = some out)
    (a b c : Item κ) (hab : SameS l a b) (hne : a ≠ b) (hc : c ∈ l) (hf : a.from_ = some c.name) (hb : Unconstrained l b) :
    (c.center < a.center → [a, b].Sublist out) ∧ (a.center < c.center → [b, a].Sublist out) := by
  obtain ⟨g, hg, hag, hbg⟩ := same_group' h0 hp hs hab hne
  obtain ⟨pre, post, o, e, ho, hsub⟩ := sortPlaces_group h hg
  have hnd := groups_nodup hp hu
  have hspec := (orderGroup_spec _ _ _ _ _ ho).2.1
  have ia := groupIndex_eq 0 pre post g a.name (by rw [← e]; exact hnd) (List.mem_map_of_mem hag)
  rw [← e, Nat.zero_add] at ia
  have hfree := unconstrained_free h0 hp hs hu allow hb e hbg
  have hlen : g.length ≠ 1 := by
    intro h1
    obtain ⟨x, rfl⟩ := List.length_eq_one_iff.mp h1
    simp at hag hbg
    exact hne (hag.trans hbg.symm)
  constructor
  · intro hlt
    obtain ⟨i, j, hi, hj, hij⟩ := index_lt hp hs hu hab.1 hc hlt
    rw [ia] at hj
    cases hj
    refine (hspec .upstream .free a b ?_ hfree (Or.inl ⟨rfl, Or.inl rfl⟩) hlen ⟨a, hag, by simp [hf]⟩).trans hsub
    unfold ofClass
    rw [List.mem_filter]
    exact ⟨hag, by simp [classify, hf, hi, hij]⟩
  · intro hlt
    obtain ⟨i, j, hi, hj, hij⟩ := index_lt hp hs hu hc hab.1 hlt
    rw [ia] at hi
    cases hi
    refine (hspec .free .downstream b a hfree ?_ (Or.inr ⟨rfl, rfl⟩) hlen ⟨a, hag, by simp [hf]⟩).trans hsub
    unfold ofClass
    rw [List.mem_filter]
    exact ⟨hag, by simp [classify, hf, hj, hij, Nat.not_lt.mpr hij.le]⟩

/-- C35: an error means that a reference is missing or that there is a set of components each of which is constrained
by another one of the set (so sorting never loops). -/
theorem C35_raises_only (sort : List (Item κ) → List (Item κ)) (tol : ℝ) (hp : PySort (cmpLt tol) sort) (allow : Bool)
    (l : List (Item κ)) (h : sortPlaces sort tol allow l = none) :
    (allow = false ∧ ∃ a ∈ l, ∃ f, a.from_ = some f ∧ ∀ b ∈ l, b.name ≠ f) ∨
      ∃ C : List (Item κ), C ≠ [] ∧ ∀ c ∈ C, c ∈ l ∧ c.fromAnchor ≠ none ∧ ∃ d ∈ C, c.from_ = some d.name := by
  unfold sortPlaces at h
  have hfl := groupSameS_flatten tol (sort l)
  have hmeml : ∀ a, a ∈ (groupSameS tol (sort l)).flatten ↔ a ∈ l := fun a => by rw [hfl, (hp.perm l).mem_iff]
  generalize hgs : groupSameS tol (sort l) = gs at *
  obtain ⟨pre, g, post, e, hn⟩ := orderGroups_none _ _ _ _ h
  rw [Nat.zero_add] at hn
  have hgl : ∀ a ∈ g, a ∈ l := by
    intro a ha
    rw [← hmeml, e]
    simp only [List.flatten_append, List.flatten_cons, List.mem_append]; tauto
  unfold orderGroup at hn
  split at hn
  · cases hn
  · split at hn
    · next hany =>
      left
      rw [List.any_eq_true] at hany
      obtain ⟨a, ha, hcl⟩ := hany
      simp only [decide_eq_true_eq] at hcl
      unfold classify at hcl
      split at hcl
      · cases hcl
      · next f hf =>
        split at hcl
        · next hi =>
          split at hcl
          · cases hcl
          · next hal =>
            refine ⟨by simpa using hal, a, hgl a ha, f, hf, ?_⟩
            rw [groupIndex_none] at hi
            intro b hb hbn
            apply hi
            rw [← hbn]
            exact List.mem_map_of_mem ((hmeml b).mpr hb)
        · split at hcl
          · cases hcl
          · split at hcl
            · cases hcl
            · split at hcl <;> cases hcl
    · next hnone =>
      right
      have hcls : ∀ p ∈ g, classify allow (groupIndex 0 gs) pre.length p ≠ none := by
        intro p hp hn
        apply hnone
        rw [List.any_eq_true]
        exact ⟨p, hp, by simp [hn]⟩
      have hperm := class_perm (classify allow (groupIndex 0 gs) pre.length) g hcls
      have hsame : ∀ q ∈ ofClass allow (groupIndex 0 gs) pre.length .same g,
          q.fromAnchor ≠ none ∧ ∃ t ∈ g, q.from_ = some t.name := by
        intro q hq
        unfold ofClass at hq
        rw [List.mem_filter] at hq
        have hcl := hq.2
        simp only [decide_eq_true_eq] at hcl
        unfold classify at hcl
        split at hcl
        · cases hcl
        · next f hf =>
          split at hcl
          · split at hcl <;> cases hcl
          · next j hj =>
            split at hcl
            · cases hcl
            · split at hcl
              · cases hcl
              · next h1 h2 =>
                split at hcl
                · cases hcl
                · next hanc =>
                  refine ⟨hanc, ?_⟩
                  obtain ⟨pre', g', post', e', hj', hm⟩ := groupIndex_spec 0 gs f j hj
                  have hlen : pre'.length = pre.length := by omega
                  rw [e] at e'
                  obtain ⟨hpp, hgg⟩ := List.append_inj e' hlen.symm
                  rw [List.cons.injEq] at hgg
                  rw [← hgg.1, List.mem_map] at hm
                  obtain ⟨t, ht, hnm⟩ := hm
                  exact ⟨t, ht, by rw [hf, hnm]⟩
      obtain ⟨C, hC, hcl⟩ := insertLoop_none _ _ _ (by
        have : (ofClass allow (groupIndex 0 gs) pre.length .same g).length ≤ g.length := List.length_filter_le _ _
        omega) (by
        intro q hq
        obtain ⟨-, t, ht, hf⟩ := hsame q hq
        exact ⟨t, hperm.mem_iff.mpr ht, hf⟩) hn
      refine ⟨C, hcl.1, ?_⟩
      intro c hc
      have hcs := hC.subset hc
      exact ⟨hgl c (List.mem_of_mem_filter hcs), (hsame c hcs).1, hcl.2 c hc⟩

/-- C35: a contradictory set of constraints at one s raises. -/
theorem C35_cycle_raises (sort : List (Item κ) → List (Item κ)) (tol : ℝ) (h0 : 0 ≤ tol) (hp : PySort (cmpLt tol) sort) (allow : Bool)
    (l C : List (Item κ)) (hs : Separated tol l) (hu : UniqueNames l) (hne : C ≠ [])
    (hC : ∀ c ∈ C, c.fromAnchor ≠ none ∧ ∃ d ∈ C, SameS l c d ∧ c ≠ d ∧ c.from_ = some d.name)
    (hsame : ∀ c ∈ C, ∀ d ∈ C, c.center = d.center) : sortPlaces sort tol allow l = none := by
  obtain ⟨c0, hc0⟩ := List.exists_mem_of_ne_nil C hne
  obtain ⟨-, d0, hd0, hcd0, hne0, -⟩ := hC c0 hc0
  obtain ⟨g, hg, hc0g, hd0g⟩ := same_group' h0 hp hs hcd0 hne0
  obtain ⟨pre, post, e⟩ := List.append_of_mem hg
  have hnd := groups_nodup hp hu
  have hall : ∀ c ∈ C, c ∈ g := by
    intro c hc
    by_cases hcc : c = c0
    · rw [hcc]; exact hc0g
    · have hss : SameS l c0 c := ⟨hcd0.1, (hC c hc).2.choose_spec.2.1.1, hsame c0 hc0 c hc, hcd0.2.2.2⟩
      obtain ⟨g', hg', h1, h2⟩ := same_group' h0 hp hs hss (Ne.symm hcc)
      obtain ⟨pre', post', e'⟩ := List.append_of_mem hg'
      have i1 := groupIndex_eq 0 pre post g c0.name (by rw [← e]; exact hnd) (List.mem_map_of_mem hc0g)
      have i2 := groupIndex_eq 0 pre' post' g' c0.name (by rw [← e']; exact hnd) (List.mem_map_of_mem h1)
      rw [← e] at i1
      rw [← e', i1] at i2
      have hlen : pre.length = pre'.length := by simpa using i2
      rw [e] at e'
      obtain ⟨-, hgg⟩ := List.append_inj e' hlen
      rw [List.cons.injEq] at hgg
      rw [hgg.1]; exact h2
  unfold sortPlaces
  have hidx : ∀ c ∈ C, groupIndex 0 (groupSameS tol (sort l)) c.name = some pre.length := by
    intro c hc
    have := groupIndex_eq 0 pre post g c.name (by rw [← e]; exact hnd) (List.mem_map_of_mem (hall c hc))
    rw [← e, Nat.zero_add] at this
    exact this
  generalize groupIndex 0 (groupSameS tol (sort l)) = idx at hidx ⊢
  rw [e]
  apply orderGroups_none_of
  rw [Nat.zero_add]
  unfold orderGroup
  rw [if_neg]
  · split
    · rfl
    · next hnone =>
      have hcls : ∀ p ∈ g, classify allow idx pre.length p ≠ none := by
        intro p hp hn
        apply hnone
        rw [List.any_eq_true]
        exact ⟨p, hp, by simp [hn]⟩
      have hperm := class_perm (classify allow idx pre.length) g hcls
      have hgn : (g.map (fun p => p.name)).Nodup := by
        rw [e, List.flatten_append, List.flatten_cons, List.map_append, List.map_append] at hnd
        exact (List.nodup_append.mp (List.nodup_append.mp hnd).2.1).1
      apply insertLoop_closed _ _ _ C
      · exact (hperm.map _).nodup_iff.mpr hgn
      · intro c hc
        obtain ⟨hanc, d, hd, -, -, hf⟩ := hC c hc
        unfold ofClass
        rw [List.mem_filter]
        exact ⟨hall c hc, by simp [classify, hf, hidx d hd, hanc]⟩
      · exact ⟨hne, fun c hc => by obtain ⟨-, d, hd, -, -, hf⟩ := hC c hc; exact ⟨d, hd, hf⟩⟩
  · rintro (h1 | h1)
    · obtain ⟨x, rfl⟩ := List.length_eq_one_iff.mp h1
      simp at hc0g hd0g
      exact hne0 (hc0g.trans hd0g.symm)
    · rw [List.all_eq_true] at h1
      have := h1 c0 hc0g
      obtain ⟨-, d, hd, -, -, hf⟩ := hC c0 hc0
      simp [hf] at this

/-- A thin element without reference. -/
def thinAt (n : Nat) (s : ℝ) : Item Nat := ⟨n, 0, false, s, none, none⟩

/-- C35 is violated for chains of close centers: the comparator is not transitive, and a component can stay arbitrarily far behind another
one with a smaller s. -/
theorem C35_sorted_violated (sort : List (Item Nat) → List (Item Nat)) (tol : ℝ) (h0 : 0 < tol) (hp : PySort (cmpLt tol) sort)
    (allow : Bool) (D : ℝ) :
    ∃ (l out : List (Item Nat)) (a b : Item Nat), sortPlaces sort tol allow l = some out ∧ [a, b].Sublist out ∧
      b.center + D < a.center := by
  obtain ⟨n, hn⟩ := exists_nat_gt (D / (tol / 2))
  set l : List (Item Nat) := (List.range (n + 1 + 1)).map (fun i => thinAt i (-(i * (tol / 2)))) with hl
  have hch : l.IsChain (fun a b => b.center = a.center - tol / 2 ∧ a.thick = false ∧ b.thick = false) := by
    rw [hl, List.isChain_map]
    rw [List.isChain_iff_getElem]
    intro i hi
    simp [thinAt, Item.center]
    ring
  have hch1 : l.IsChain (fun a b => ¬ cmpLt tol b a) := by
    refine hch.imp ?_
    rintro a b ⟨h1, -, -⟩ ⟨h2, -⟩
    apply h2
    rw [h1, show a.center - tol / 2 - a.center = -(tol / 2) by ring, abs_neg, abs_of_pos (by linarith)]
    linarith
  have hch2 : l.IsChain (fun a b => ¬ (|b.center - a.center| > tol ∨ a.isThick ∨ b.isThick)) := by
    refine hch.imp ?_
    rintro a b ⟨h1, h2, h3⟩ (h4 | h4 | h4)
    · rw [h1, show a.center - tol / 2 - a.center = -(tol / 2) by ring, abs_neg, abs_of_pos (by linarith)] at h4
      linarith
    · rw [h4.1] at h2; cases h2
    · rw [h4.1] at h3; cases h3
  have hgroup : groupSameS tol l = [l] := by
    have hcons : l ≠ [] := by
      intro hnil
      have := congrArg List.length hnil
      simp [hl] at this
    obtain ⟨x, m, e⟩ := List.exists_cons_of_ne_nil hcons
    rw [e] at hch2 ⊢
    rw [groupSameS]
    obtain ⟨p', hp'⟩ := groupAux_run tol x [x] m [] hch2
    rw [List.append_nil] at hp'
    rw [hp', groupAux]
    rfl
  have hall : l.all (fun p => p.from_.isNone) = true := by
    rw [List.all_eq_true]
    intro p hp
    rw [hl, List.mem_map] at hp
    obtain ⟨i, -, rfl⟩ := hp
    rfl
  refine ⟨l, l, thinAt 0 0, thinAt (n + 1) (-((n + 1 : Nat) * (tol / 2))), ?_, ?_, ?_⟩
  · unfold sortPlaces
    rw [hp.run l hch1, hgroup, orderGroups]
    unfold orderGroup
    rw [if_pos (Or.inr hall)]
    simp [orderGroups]
  · rw [hl, List.range_succ, List.map_append]
    apply pair_sublist
    · rw [List.mem_map]
      exact ⟨0, by simp, by simp⟩
    · simp
  · rw [div_lt_iff₀ (by linarith)] at hn
    simp only [thinAt, Item.center]
    push_cast
    nlinarith

/-- Case of the hypotheses: at s = 1 the elements 0 (free), 1 (before 0), 2 (after 0), 3 (relative to 4, which is upstream). -/
def sample : List (Item Nat) :=
  [thinAt 0 1, ⟨1, 0, false, 1, some 0, some .start⟩, ⟨2, 0, false, 1, some 0, some .end⟩, ⟨3, 0, false, 1, some 4, some .end⟩, thinAt 4 0]

open Classical in
example : sortPlaces (isort (cmpLt (1 / 10))) (1 / 10) false sample =
    some [thinAt 4 0, ⟨3, 0, false, 1, some 4, some .end⟩, ⟨1, 0, false, 1, some 0, some .start⟩, thinAt 0 1,
      ⟨2, 0, false, 1, some 0, some .end⟩] := by
  have h : groupSameS (1 / 10) (isort (cmpLt (1 / 10)) sample) = [[thinAt 4 0], [thinAt 0 1,
      ⟨1, 0, false, 1, some 0, some .start⟩, ⟨2, 0, false, 1, some 0, some .end⟩, ⟨3, 0, false, 1, some 4, some .end⟩]] := by
    norm_num [sample, isort, insertSorted, cmpLt, thinAt, Item.center, groupSameS, groupAux, Item.isThick, Item.stop]
  unfold sortPlaces
  rw [h]
  simp [thinAt, orderGroups, orderGroup, groupIndex, classify, ofClass, insertLoop, walk, Item.goesBefore]

example : Separated (1 / 10) sample ∧ UniqueNames sample ∧ SameS sample ⟨1, 0, false, 1, some 0, some .start⟩ (thinAt 0 1) := by
  refine ⟨?_, ?_, ?_⟩
  · intro a ha b hb
    simp only [sample, thinAt, List.mem_cons, List.not_mem_nil, or_false] at ha hb
    rcases ha with rfl | rfl | rfl | rfl | rfl <;> rcases hb with rfl | rfl | rfl | rfl | rfl <;> norm_num [Item.center]
  · simp [UniqueNames, sample, thinAt]
  · refine ⟨by simp [sample], by simp [sample], by simp [Item.center, thinAt], ?_⟩
    intro c hc _
    simp only [sample, thinAt, List.mem_cons, List.not_mem_nil, or_false] at hc
    rcases hc with rfl | rfl | rfl | rfl | rfl <;> simp

/-- Case of a contradictory set. -/
example : ∀ c ∈ [(⟨0, 0, false, 1, some 1, some .start⟩ : Item Nat), ⟨1, 0, false, 1, some 0, some .start⟩], c.fromAnchor ≠ none ∧
    ∃ d ∈ [(⟨0, 0, false, 1, some 1, some .start⟩ : Item Nat), ⟨1, 0, false, 1, some 0, some .start⟩],
      SameS [⟨0, 0, false, 1, some 1, some .start⟩, ⟨1, 0, false, 1, some 0, some .start⟩] c d ∧ c ≠ d ∧ c.from_ = some d.name := by
  intro c hc
  simp only [List.mem_cons, List.not_mem_nil, or_false] at hc
  rcases hc with rfl | rfl <;> simp [SameS, Item.center]

end Verif.Composer
