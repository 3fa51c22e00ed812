import Verif.Composer.Insert
import Verif.Composer.BuildProps
import Verif.Slicing.CutMore
import Mathlib.Algebra.Order.BigOperators.Group.List

/-!
# Lemmas for `Line.insert`
-/

namespace Verif.Composer

open Slicing (St rowLen isThick Grow Ext CacheOk Boundary startOf cutAtS NoClash)

/-! ### Geometry of the removal -/

/-- With both ends of the insertion strictly within the tolerance of a boundary, a row falls inside the insertion exactly when it overlaps
it by more than the tolerance. -/
theorem falls_iff {tol u v a b bu bv : ℝ} (hu : |u - bu| < tol) (hv : |v - bv| < tol) (h1 : bu ≤ a ∨ b ≤ bu) (h2 : bv ≤ a ∨ b ≤ bv) :
    falls tol u v a b ↔ ¬ (b ≤ u + tol ∨ v - tol ≤ a) := by
  rw [abs_lt] at hu hv
  unfold falls
  constructor
  · rintro ⟨h, hn1, hn2⟩ hor
    rcases hor with hb | ha
    · have : ¬ a ≥ u - tol := fun h' => hn1 ⟨h', hb⟩
      rcases h with h | h
      · exact this h.1
      · rcases h1 with h1 | h1 <;> linarith [h.1, not_le.mp this]
    · have : ¬ b ≤ v + tol := fun h' => hn2 ⟨ha, h'⟩
      rcases h with h | h
      · rcases h2 with h2 | h2 <;> linarith [h.2, not_le.mp this]
      · exact this h.2
  · intro h
    push Not at h
    obtain ⟨h3, h4⟩ := h
    have ha : bu ≤ a := by rcases h1 with h1 | h1 <;> linarith
    have hb : b ≤ bv := by rcases h2 with h2 | h2 <;> linarith
    refine ⟨Or.inl ⟨by linarith, by linarith⟩, ?_, ?_⟩
    · rintro ⟨-, h⟩; linarith
    · rintro ⟨h, -⟩; linarith

/-- A row that falls inside the insertion is covered by it. -/
theorem falls_covered {tol u v a b bu bv : ℝ} (hu : |u - bu| < tol) (hv : |v - bv| < tol) (h1 : bu ≤ a ∨ b ≤ bu)
    (h2 : bv ≤ a ∨ b ≤ bv) (h : falls tol u v a b) : u - tol ≤ a ∧ b ≤ v + tol := by
  have h' := (falls_iff hu hv h1 h2).mp h
  push Not at h'
  rw [abs_lt] at hu hv
  constructor
  · rcases h1 with h1 | h1 <;> linarith
  · rcases h2 with h2 | h2 <;> linarith

/-! ### The table of the line -/

theorem tableOf_names (st : St) (ns : List String) : ∀ a, (tableOf st a ns).map (fun q => q.name) = ns := by
  induction ns with
  | nil => intro a; rfl
  | cons n ns ih => intro a; rw [tableOf, List.map_cons, ih]

theorem tableOf_lens (st : St) (ns : List String) : ∀ a, (tableOf st a ns).map (fun q => q.len) = ns.map (lenOf st) := by
  induction ns with
  | nil => intro a; rfl
  | cons n ns ih => intro a; rw [tableOf, List.map_cons, ih]; rfl

theorem tableOf_len (st : St) (ns : List String) : ∀ a, ∀ q ∈ tableOf st a ns, q.name ∈ ns ∧ q.len = lenOf st q.name := by
  induction ns with
  | nil => intro a q hq; exact absurd hq (by simp [tableOf])
  | cons n ns ih =>
    intro a q hq
    rw [tableOf] at hq
    rcases List.mem_cons.mp hq with rfl | hq
    · exact ⟨List.mem_cons_self, rfl⟩
    · exact ⟨List.mem_cons_of_mem _ (ih _ q hq).1, (ih _ q hq).2⟩

theorem tableOf_start (st : St) (ns : List String) : ∀ (a : ℝ) (k : Nat) (q : Placed), (tableOf st a ns)[k]? = some q →
    q.s = a + ((ns.map (lenOf st)).take k).sum ∧ ns[k]? = some q.name := by
  induction ns with
  | nil => intro a k q hq; exact absurd hq (by simp [tableOf])
  | cons n ns ih =>
    intro a k q hq
    rw [tableOf] at hq
    cases k with
    | zero =>
      simp only [List.getElem?_cons_zero, Option.some.injEq] at hq
      subst hq
      simp
    | succ k =>
      rw [List.getElem?_cons_succ] at hq
      obtain ⟨h1, h2⟩ := ih _ k q hq
      refine ⟨?_, by rw [List.getElem?_cons_succ]; exact h2⟩
      rw [h1, List.map_cons, List.take_succ_cons, List.sum_cons]
      ring

theorem take_sum_mono (l : List ℝ) (h : ∀ x ∈ l, 0 ≤ x) (i j : Nat) (hij : i ≤ j) : (l.take i).sum ≤ (l.take j).sum := by
  have h1 : l.take j = l.take i ++ (l.take j).drop i := by
    have := (List.take_append_drop i (l.take j)).symm
    rwa [List.take_take, Nat.min_eq_left hij] at this
  rw [h1, List.sum_append]
  have : 0 ≤ ((l.take j).drop i).sum := List.sum_nonneg (fun x hx => h x (List.mem_of_mem_take (List.mem_of_mem_drop hx)))
  linarith

/-- A boundary does not lie inside a row. -/
theorem boundary_outside (st : St) (ns : List String) (h : ∀ n ∈ ns, 0 ≤ lenOf st n) (q : Placed) (hq : q ∈ tableOf st 0 ns)
    (b : ℝ) (hb : Boundary (ns.map (lenOf st)) b) : b ≤ q.s ∨ q.s + q.len ≤ b := by
  obtain ⟨k, hk⟩ := List.getElem?_of_mem hq
  obtain ⟨h1, h2⟩ := tableOf_start st ns 0 k q hk
  obtain ⟨j, rfl⟩ := hb
  have hnn : ∀ x ∈ ns.map (lenOf st), 0 ≤ x := by
    intro x hx
    obtain ⟨n, hn, rfl⟩ := List.mem_map.mp hx
    exact h n hn
  have hl : (ns.map (lenOf st))[k]? = some q.len := by rw [List.getElem?_map, h2, (tableOf_len st ns 0 q hq).2]; rfl
  have hend : q.s + q.len = ((ns.map (lenOf st)).take (k + 1)).sum := by
    rw [List.take_add_one, hl, List.sum_append, h1]; simp
  by_cases hjk : j ≤ k
  · left; rw [h1, zero_add]; exact take_sum_mono _ hnn _ _ hjk
  · right; rw [hend]; exact take_sum_mono _ hnn _ _ (by omega)

theorem totalLen_eq (st : St) (ns : List String) (h : ∀ n ∈ ns, rowLen st.dict n ≠ none) :
    totalLen st ns = some (ns.map (lenOf st)).sum := by
  induction ns with
  | nil => rfl
  | cons n ns ih =>
    obtain ⟨l, hl⟩ := Option.ne_none_iff_exists'.mp (h n List.mem_cons_self)
    rw [totalLen, hl, ih (fun m hm => h m (List.mem_cons_of_mem _ hm))]
    simp [lenOf, hl]

theorem lenOf_of {st : St} {n : String} {l : ℝ} (h : rowLen st.dict n = some l) : lenOf st n = l := by
  rw [lenOf, h]; rfl

/-- A line without negative lengths is at least as long as a part of it. -/
theorem totalLen_ge (st : St) (ns : List String) (h : ∀ n ∈ ns, ∃ l : ℝ, 0 ≤ l ∧ rowLen st.dict n = some l) (T : ℝ)
    (hT : totalLen st ns = some T) : 0 ≤ T := by
  have := totalLen_eq st ns (fun n hn => by obtain ⟨l, -, hl⟩ := h n hn; rw [hl]; simp)
  rw [hT, Option.some.injEq] at this
  rw [this]
  apply List.sum_nonneg
  intro x hx
  obtain ⟨n, hn, rfl⟩ := List.mem_map.mp hx
  obtain ⟨l, h0, hl⟩ := h n hn
  rw [lenOf_of hl]
  exact h0

/-! ### The insertions -/

theorem linePlaces_length (st : St) (ns : List String) : ∀ a, (linePlaces st a ns).length = ns.length := by
  induction ns with
  | nil => intro a; rfl
  | cons n ns ih => intro a; rw [linePlaces, List.length_cons, ih, List.length_cons]

theorem linePlaces_get (st : St) (ns : List String) : ∀ (a : ℝ) (i : Nat) (n : String), ns[i]? = some n →
    (linePlaces st a ns)[i]? = some ⟨n, some (a + ((ns.map (lenOf st)).take i).sum + lenOf st n / 2), none, none, none⟩ := by
  induction ns with
  | nil => intro a i n h; exact absurd h (by simp)
  | cons m ns ih =>
    intro a i n h
    rw [linePlaces]
    cases i with
    | zero =>
      simp only [List.getElem?_cons_zero, Option.some.injEq] at h
      subst h
      simp
    | succ i =>
      rw [List.getElem?_cons_succ] at h
      rw [List.getElem?_cons_succ, ih _ i n h, List.map_cons, List.take_succ_cons, List.sum_cons]
      congr 3
      ring

/-- The table of the places to insert. -/
noncomputable def insRows (st : St) (n : Nat) (what : List Place) (s : Nat → ℝ) : List Placed :=
  what.zipIdx.map (fun pj => ⟨pj.1.name, s (n + pj.2), lenOf st pj.1.name⟩)

theorem filter_zipIdx_fst {α : Type} (P : α → Bool) (l : List α) (k : Nat) :
    ((l.zipIdx k).filter (fun r => P r.1)).map Prod.fst = l.filter P := by
  induction l generalizing k with
  | nil => rfl
  | cons a l ih =>
    rw [List.zipIdx_cons, List.filter_cons, List.filter_cons]
    split <;> simp [ih]

theorem sortedInsertions_spec (sort : List (Item Nat) → List (Item Nat)) (hp : PySort (cmpLt (1 / 10 ^ 10)) sort) (st : St)
    (names : List String) (what : List Place) (rows : List Row) (ins : List (Item Nat))
    (h : sortedInsertions sort st names what = some (rows, ins)) :
    ∃ s : Nat → ℝ, Demands (linePlaces st 0 names ++ what) (lenOf st) .center s ∧
      (∀ p ∈ linePlaces st 0 names ++ what, rowLen st.dict p.name ≠ none) ∧
      (ins.map (insPlaced rows)).Perm (insRows st names.length what s) ∧
      (∀ it ∈ ins, (insPlaced rows it) ∈ insRows st names.length what s ∧ (insPlaced rows it).s = it.s ∧
        (insPlaced rows it).len = it.len) ∧
      resolve (linePlaces st 0 names ++ what) (lenOf st) .center = some rows ∧ ∀ it ∈ ins, it ∈ toItems st rows := by
  unfold sortedInsertions at h
  split at h
  · cases h
  next hmiss =>
  push Not at hmiss
  cases hr : resolve (linePlaces st 0 names ++ what) (lenOf st) .center with
  | none => rw [hr] at h; cases h
  | some rows' =>
  rw [hr] at h
  simp only at h
  cases ho : sortPlaces sort (1 / 10 ^ 10) false (toItems st rows') with
  | none => rw [ho] at h; cases h
  | some out =>
  rw [ho] at h
  simp only [Option.some.injEq, Prod.mk.injEq] at h
  obtain ⟨rfl, rfl⟩ := h
  have hpos := C33_positions _ (lenOf st) .center rows' hr
  have hlen : rows'.length = names.length + what.length := by
    have := congrArg List.length hpos.1
    simpa [linePlaces_length] using this
  set s : Nat → ℝ := fun i => match rows'[i]? with | some r => r.s | none => 0 with hs
  have hsr : ∀ (i : Nat) (r : Row), rows'[i]? = some r → s i = r.s := by
    intro i r hi; simp [hs, hi]
  have hperm := C35_permutation sort _ hp false _ out ho
  have hperm' : ((out.filter (fun it => names.length ≤ it.name)).map (insPlaced rows')).Perm (insRows st names.length what s) := by
    refine ((hperm.filter _).map _).trans (List.Perm.of_eq ?_)
    have hsplit : rows' = rows'.take names.length ++ rows'.drop names.length := (List.take_append_drop _ _).symm
    have hA : (rows'.take names.length).length = names.length := by rw [List.length_take]; omega
    unfold toItems
    rw [hsplit, List.zipIdx_append, List.map_append, List.filter_append, hA, Nat.zero_add]
    rw [← hsplit]
    have h1 : ((rows'.take names.length).zipIdx.map (fun ri => (⟨ri.2, lenOf st ri.1.name, (isThick st.dict ri.1.name).getD false, ri.1.s,
        ri.1.ref.map Prod.fst, ri.1.ref.bind Prod.snd⟩ : Item Nat))).filter (fun it => decide (names.length ≤ it.name)) = [] := by
      rw [List.filter_eq_nil_iff]
      intro it hit
      obtain ⟨⟨r, i⟩, hm, rfl⟩ := List.mem_map.mp hit
      have := List.snd_lt_of_mem_zipIdx hm
      rw [hA] at this
      simp only [decide_eq_true_eq]
      omega
    have h2 : (((rows'.drop names.length).zipIdx names.length).map (fun ri => (⟨ri.2, lenOf st ri.1.name,
        (isThick st.dict ri.1.name).getD false, ri.1.s, ri.1.ref.map Prod.fst, ri.1.ref.bind Prod.snd⟩ : Item Nat))).filter
        (fun it => decide (names.length ≤ it.name)) = ((rows'.drop names.length).zipIdx names.length).map
        (fun ri => (⟨ri.2, lenOf st ri.1.name, (isThick st.dict ri.1.name).getD false, ri.1.s, ri.1.ref.map Prod.fst, ri.1.ref.bind Prod.snd⟩ : Item Nat)) := by
      rw [List.filter_eq_self]
      intro it hit
      obtain ⟨⟨r, i⟩, hm, rfl⟩ := List.mem_map.mp hit
      have := List.le_snd_of_mem_zipIdx hm
      simpa using this
    rw [h1, h2, List.nil_append, List.map_map]
    apply List.ext_getElem?
    intro j
    unfold insRows
    rw [List.getElem?_map, List.getElem?_map, List.getElem?_zipIdx, List.getElem?_zipIdx, List.getElem?_drop]
    have hn := congrArg (fun l => l[names.length + j]?) hpos.1
    simp only [List.getElem?_map] at hn
    rw [List.getElem?_append_right (by rw [linePlaces_length]; omega), linePlaces_length, Nat.add_sub_cancel_left] at hn
    cases hw : what[j]? with
    | none =>
      rw [hw] at hn
      rw [Option.map_none, Option.map_eq_none_iff] at hn
      rw [hn]; rfl
    | some p =>
      rw [hw, Option.map_some, Option.map_eq_some_iff] at hn
      obtain ⟨r, hr1, hr2⟩ := hn
      rw [hr1]
      simp only [Option.map_some, Function.comp, insPlaced, hr1, hr2, Option.getD_some, Nat.zero_add, hsr _ _ hr1]
  refine ⟨s, hpos.2 s hsr, hmiss, hperm', ?_, rfl, ?_⟩
  · intro it hit
    exact ⟨hperm'.mem_iff.mp (List.mem_map_of_mem hit), rfl, rfl⟩
  · intro it hit
    exact hperm.mem_iff.mp (List.mem_filter.mp hit).1

/-! ### The concatenated table -/

theorem concat_rows (uniq : List String → List String) (rows : List Row) (ins : List (Item Nat)) (st : St) (names : List String)
    (kept : List (Placed × Nat)) (C : List Placed) (hC : C.length = ins.length + kept.length) :
    (concatItems uniq rows ins st names kept).filterMap (fun it => C[it.name]?) = C := by
  have hn : (concatItems uniq rows ins st names kept).map (fun it => it.name) = List.range C.length := by
    unfold concatItems
    rw [List.map_append, List.map_map, List.map_map, hC, List.range_eq_range', ← List.range'_append_1]
    congr 1
    · exact List.zipIdx_map_snd 0 ins
    · have : ((fun it : Item Nat => it.name) ∘ fun ki : (Placed × Nat) × Nat => (⟨ins.length + ki.2, ki.1.1.len,
          (isThick st.dict ki.1.1.name).getD false, ki.1.1.s, none, none⟩ : Item Nat)) = (fun i => ins.length + i) ∘ Prod.snd := rfl
      rw [this, ← List.map_map, List.zipIdx_map_snd, List.map_add_range']
      simp
  have h2 : (concatItems uniq rows ins st names kept).filterMap (fun it => C[it.name]?) =
      ((concatItems uniq rows ins st names kept).map (fun it => it.name)).filterMap (fun i => C[i]?) := by
    rw [List.filterMap_map]; rfl
  rw [h2, hn]
  have h3 : (List.range C.length).filterMap (fun i => C[i]?) = (List.range C.length).attach.map (fun i => C[i.1]'(List.mem_range.mp i.2)) := by
    rw [← List.filterMap_eq_map]
    conv_lhs => rw [← List.attach_map_subtype_val (List.range C.length)]
    rw [List.filterMap_map]
    apply List.filterMap_congr
    intro i _
    simp [List.getElem?_eq_getElem (List.mem_range.mp i.2)]
  rw [h3]
  apply List.ext_getElem
  · simp
  · intro i h1 h2
    simp

theorem generate_fill (tol : ℝ) (st : St) (rows : List Placed) : generate tol none st rows = fill tol st 0 rows := by
  unfold generate
  cases rows with
  | nil => rfl
  | cons r rows =>
    rw [lastEnd_cons]
    simp only
    cases fill tol st 0 (r :: rows) with
    | none => rfl
    | some t => rfl

end Verif.Composer
