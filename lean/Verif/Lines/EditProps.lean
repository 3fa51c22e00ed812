import Verif.Lines.Edit
import Verif.Slicing.Lemmas
import Mathlib.Tactic.Linarith
import Mathlib.Tactic.NormNum
import Mathlib.Algebra.BigOperators.Group.List.Basic

/-!
# C39, C44, C45: remove, replace, filter_elements, replace_all_repeated_elements
-/

namespace Verif.Lines

open Slicing

/-! ### Specification -/

/-- Start of element `k` of a line: the sum of the lengths before it. -/
noncomputable def startOf (d : Dict) (names : List String) (k : Nat) : ℝ := ((names.take k).map (fun n => (rowLen d n).getD 0)).sum

/-- Element `i` of the line is meant: the table lookup found it or it has a name of the set. -/
def Matched (tab : List Nat) (sel : String → Bool) (names : List String) (i : Nat) : Prop :=
  i ∈ tab ∨ ∃ n, names[i]? = some n ∧ sel n = true

/-- Thick and longer than the tolerance. -/
def Long (d : Dict) (tol : ℝ) (n : String) : Prop := isThick d n = some true ∧ ∃ l, rowLen d n = some l ∧ tol < l

/-- Element `i` disappears from the line. -/
def Dropped (tab : List Nat) (sel : String → Bool) (tol : ℝ) (d : Dict) (names : List String) (i : Nat) : Prop :=
  Matched tab sel names i ∧ ∃ n, names[i]? = some n ∧ ¬ Long d tol n

/-! ### Lemmas -/

theorem startOf_succ (d : Dict) (names : List String) (k : Nat) : startOf d names (k + 1) = startOf d names k + lenAt d names k := by
  unfold startOf lenAt
  rw [List.take_add_one]
  cases h : names[k]? <;> simp

theorem mem_dedup (acc l : List Nat) (i : Nat) : i ∈ dedup acc l ↔ i ∈ acc ∨ i ∈ l := by
  induction l generalizing acc with
  | nil => simp [dedup]
  | cons x l ih =>
    unfold dedup
    split
    · next hx =>
      rw [ih]
      constructor
      · rintro (h | h)
        · exact .inl h
        · exact .inr (List.mem_cons_of_mem _ h)
      · rintro (h | h)
        · exact .inl h
        · rcases List.mem_cons.1 h with rfl | h
          · exact .inl hx
          · exact .inr h
    · rw [ih]; simp [or_assoc]

theorem nameMatch_mem {tab : List Nat} {sel : String → Bool} {names : List String} {idx : List Nat}
    (h : nameMatch tab sel names = some idx) (i : Nat) : i ∈ idx ↔ i ∈ tab ∨ i ∈ byEnvName sel names := by
  unfold nameMatch at h
  split at h
  · cases h
  · simp only [Option.some.injEq] at h
    rw [← h, mem_dedup]
    simp

theorem nameMatch_matched {tab : List Nat} {sel : String → Bool} {names : List String} {idx : List Nat}
    (h : nameMatch tab sel names = some idx) (i : Nat) (hi : i < names.length) : i ∈ idx ↔ Matched tab sel names i := by
  rw [nameMatch_mem h]
  unfold Matched byEnvName
  rw [List.mem_filter, List.mem_range, List.getElem?_append_left hi, List.getElem?_eq_getElem hi]
  have : i < names.length + 1 := by omega
  simp [this]

theorem newDrift_spec (st : St) (l : ℝ) :
    Ext st.dict (newDrift st l).1.dict ∧ get st.dict (newDrift st l).2 = none ∧
      get (newDrift st l).1.dict (newDrift st l).2 = some (.body driftKind l) := by
  unfold newDrift
  have hf := (Names.firstFree_spec driftName driftName_injective (keys st.dict) (st.counter + 1)).2.1
  simp only
  generalize Names.firstFree driftName (keys st.dict) (st.counter + 1) = i at hf ⊢
  exact ⟨ext_cons _ _ _ hf, (get_none_iff _ _).2 hf, get_cons_self _ _ _⟩

theorem Ext.none {d d' : Dict} (h : Ext d d') {n : String} (hn : get d' n = none) : get d n = none := by
  cases e : get d n with
  | none => rfl
  | some x => rw [h n x e] at hn; cases hn

theorem putDrifts_spec (len : Nat → ℝ) (R : List Nat) (st : St) (ns : List String) :
    Ext st.dict (putDrifts len R st ns).1.dict ∧ (putDrifts len R st ns).2.length = ns.length ∧
      (∀ i ∉ R, (putDrifts len R st ns).2[i]? = ns[i]?) ∧
      (∀ i ∈ R, i < ns.length → ∃ dn, (putDrifts len R st ns).2[i]? = some dn ∧ get st.dict dn = none ∧
        get (putDrifts len R st ns).1.dict dn = some (.body driftKind (len i))) := by
  induction R generalizing st ns with
  | nil => simp only [putDrifts]; exact ⟨Ext.refl _, trivial, fun _ _ => trivial, fun i hi => absurd hi (by simp)⟩
  | cons x R ih =>
    simp only [putDrifts]
    obtain ⟨e1, f1, g1⟩ := newDrift_spec st (len x)
    obtain ⟨e2, l2, u2, m2⟩ := ih (newDrift st (len x)).1 (ns.set x (newDrift st (len x)).2)
    refine ⟨e1.trans e2, by rw [l2, List.length_set], ?_, ?_⟩
    · intro i hi
      rw [u2 i (fun h => hi (List.mem_cons_of_mem _ h)), List.getElem?_set_ne]
      rintro rfl
      exact hi List.mem_cons_self
    · intro i hi hlt
      by_cases hr : i ∈ R
      · obtain ⟨dn, a, b, c⟩ := m2 i hr (by rw [List.length_set]; exact hlt)
        exact ⟨dn, a, Ext.none e1 b, c⟩
      · rcases List.mem_cons.1 hi with rfl | hi
        · refine ⟨(newDrift st (len i)).2, ?_, f1, e2 _ _ g1⟩
          rw [u2 i hr, List.getElem?_set_self hlt]
        · exact absurd hi hr

theorem dropRows_eq (drop : List Nat) (ns : List String) :
    dropRows drop ns = (List.range ns.length).filterMap (fun i => if i ∈ drop then none else ns[i]?) := by
  unfold dropRows
  induction ns using List.reverseRecOn with
  | nil => simp
  | append_singleton ns x ih =>
    rw [List.zipIdx_append, List.filter_append, List.map_append, ih, List.length_append, List.length_singleton, List.range_succ,
      List.filterMap_append]
    congr 1
    · apply List.filterMap_congr
      intro i hi
      rw [List.getElem?_append_left (List.mem_range.1 hi)]
    · by_cases h : ns.length ∈ drop <;> simp [h]

/-- Selecting from the positions `0, ..., n-1`. -/
theorem select_at {α : Type} (f : Nat → Option α) (n k : Nat) (hk : k < n) (x : α) (hx : f k = some x) :
    ((List.range n).filterMap f)[((List.range k).filterMap f).length]? = some x ∧
      ((List.range n).filterMap f).take ((List.range k).filterMap f).length = (List.range k).filterMap f := by
  have : List.range n = List.range k ++ (k :: (List.range (n - k - 1)).map (fun i => k + 1 + i)) := by
    apply List.ext_getElem?
    intro i
    rcases lt_trichotomy i k with h | h | h
    · rw [List.getElem?_append_left (by simpa using h)]
      simp [List.getElem?_range, h, (by omega : i < n)]
    · subst h
      rw [List.getElem?_append_right (by simp)]
      simp [hk]
    · rw [List.getElem?_append_right (by simp; omega), List.length_range]
      obtain ⟨m, rfl⟩ : ∃ m, i = k + 1 + m := ⟨i - k - 1, by omega⟩
      rw [show k + 1 + m - k = m + 1 by omega, List.getElem?_cons_succ, List.getElem?_map]
      by_cases hm : k + 1 + m < n
      · rw [List.getElem?_range hm, List.getElem?_range (by omega)]; rfl
      · rw [List.getElem?_eq_none (by simp; omega), List.getElem?_eq_none (by simp; omega)]; rfl
  rw [this, List.filterMap_append, List.filterMap_cons_some hx]
  constructor
  · rw [List.getElem?_append_right (le_refl _), Nat.sub_self]; rfl
  · rw [List.take_left]

theorem select_lt {α : Type} (f : Nat → Option α) (i k : Nat) (h : i < k) (x : α) (hx : f i = some x) :
    ((List.range i).filterMap f).length < ((List.range k).filterMap f).length := by
  have := (select_at f k i h x hx).1
  by_contra hge
  rw [List.getElem?_eq_none (by omega)] at this
  cases this

theorem maskThick_iff (d : Dict) (names : List String) (tol : ℝ) (i : Nat) (n : String) (hn : names[i]? = some n)
    (hk : rowLen d n ≠ none) : maskThick d names tol i = true ↔ Long d tol n := by
  obtain ⟨l, hl⟩ := Option.ne_none_iff_exists'.1 hk
  unfold maskThick thickAt lenAt Long
  rw [hn]
  simp only [hl, Option.getD_some, Bool.and_eq_true, decide_eq_true_eq, gt_iff_lt]
  constructor
  · rintro ⟨h1, h2⟩
    refine ⟨?_, l, rfl, h2⟩
    cases h : isThick d n with
    | none => rw [h] at h1; cases h1
    | some b => rw [h] at h1; simpa using h1
  · rintro ⟨h1, l', e, h2⟩
    rw [Option.some.injEq] at e
    subst e
    rw [h1]
    exact ⟨rfl, h2⟩

/-- What `remove` does, position by position: `f i` is what element `i` becomes. -/
theorem remove_spec (tab : List Nat) (sel : String → Bool) (tol : ℝ) (st st' : St) (names names' : List String)
    (h : remove tab sel tol st names = some (st', names')) :
    Ext st.dict st'.dict ∧ (∀ n ∈ names, rowLen st.dict n ≠ none) ∧ ∃ f : Nat → Option String,
      names' = (List.range names.length).filterMap f ∧
      ∀ i n, names[i]? = some n →
        (¬ Matched tab sel names i → f i = some n) ∧
        (Matched tab sel names i → Long st.dict tol n → ∃ dn, f i = some dn ∧ get st.dict dn = none ∧
          get st'.dict dn = some (.body driftKind ((rowLen st.dict n).getD 0))) ∧
        (Matched tab sel names i → ¬ Long st.dict tol n → f i = none) := by
  unfold remove at h
  split at h
  · cases h
  · next hk =>
    push Not at hk
    split at h
    · cases h
    · next idx hidx =>
      simp only [Option.some.injEq, Prod.mk.injEq] at h
      obtain ⟨rfl, rfl⟩ := h
      obtain ⟨e, hl, hu, hm⟩ := putDrifts_spec (lenAt st.dict names) (idx.filter (maskThick st.dict names tol)) st names
      refine ⟨e, hk, fun i => if i ∈ idx.filter (fun i => !maskThick st.dict names tol i) then none
        else (putDrifts (lenAt st.dict names) (idx.filter (maskThick st.dict names tol)) st names).2[i]?, ?_, ?_⟩
      · rw [dropRows_eq, hl]
      · intro i n hn
        have hi : i < names.length := by
          by_contra hge
          rw [List.getElem?_eq_none (by omega)] at hn; cases hn
        have hkn := hk n (List.mem_of_getElem? hn)
        have hmt := maskThick_iff st.dict names tol i n hn hkn
        have hmi := nameMatch_matched hidx i hi
        refine ⟨?_, ?_, ?_⟩
        · intro hnm
          have : i ∉ idx := fun hh => hnm (hmi.1 hh)
          simp only [List.mem_filter, this, false_and, if_false]
          rw [hu i (by simp [List.mem_filter, this]), hn]
        · intro hM hL
          have h1 : i ∉ idx.filter (fun i => !maskThick st.dict names tol i) := by
            simp only [List.mem_filter, not_and]
            intro _
            simp [hmt.2 hL]
          obtain ⟨dn, a, b, c⟩ := hm i (List.mem_filter.2 ⟨hmi.2 hM, hmt.2 hL⟩) hi
          refine ⟨dn, by simp only [h1, if_false]; exact a, b, ?_⟩
          rw [c]
          unfold lenAt
          rw [hn]
        · intro hM hL
          have h1 : i ∈ idx.filter (fun i => !maskThick st.dict names tol i) := by
            rw [List.mem_filter]
            refine ⟨hmi.2 hM, ?_⟩
            cases e : maskThick st.dict names tol i with
            | false => rfl
            | true => exact absurd (hmt.1 e) hL
          simp only [h1, if_true]

theorem rowLen_driftBody (d : Dict) (n : String) (l : ℝ) (h : get d n = some (.body driftKind l)) : rowLen d n = some l := by
  simp [rowLen, baseEl, baseName, h, elLen]

open Classical in
/-- C39: `remove` replaces every matched element that is thick and longer than the tolerance by a new drift of the same length and
drops the other matched elements.  The elements that are not matched keep their order (`pos` is increasing) and move
towards the start by exactly the lengths of the dropped elements before them.  No element of the environment is changed. -/
theorem C39_remove (tab : List Nat) (sel : String → Bool) (tol : ℝ) (st st' : St) (names names' : List String)
    (h : remove tab sel tol st names = some (st', names')) :
    Ext st.dict st'.dict ∧ ∃ pos : Nat → Nat,
      (∀ i k, i < k → k ≤ names.length → ¬ Dropped tab sel tol st.dict names i → pos i < pos k) ∧
      pos 0 = 0 ∧ pos names.length = names'.length ∧
      (∀ i < names.length, Dropped tab sel tol st.dict names i → pos (i + 1) = pos i) ∧
      (∀ i < names.length, ¬ Dropped tab sel tol st.dict names i → pos (i + 1) = pos i + 1) ∧
      ∀ k n, names[k]? = some n →
        (¬ Matched tab sel names k → names'[pos k]? = some n) ∧
        (Matched tab sel names k → Long st.dict tol n → ∃ dn, names'[pos k]? = some dn ∧ get st.dict dn = none ∧
          ∃ l, rowLen st.dict n = some l ∧ get st'.dict dn = some (.body driftKind l)) ∧
        (¬ Dropped tab sel tol st.dict names k → startOf st'.dict names' (pos k) = startOf st.dict names k -
          ((List.range k).map (fun i => if Dropped tab sel tol st.dict names i then lenAt st.dict names i else 0)).sum) := by
  obtain ⟨hext, hknown, f, rfl, hf⟩ := remove_spec tab sel tol st st' names names' h
  have hsome : ∀ i < names.length, ∃ n, names[i]? = some n := fun i hi => ⟨names[i], List.getElem?_eq_getElem hi⟩
  have hdrop : ∀ i < names.length, Dropped tab sel tol st.dict names i → f i = none := by
    rintro i hi ⟨hM, n, hn, hL⟩
    exact (hf i n hn).2.2 hM hL
  have hkeep : ∀ i < names.length, ¬ Dropped tab sel tol st.dict names i → ∃ x, f i = some x ∧
      (rowLen st'.dict x).getD 0 = lenAt st.dict names i := by
    intro i hi hD
    obtain ⟨n, hn⟩ := hsome i hi
    have hkn := hknown n (List.mem_of_getElem? hn)
    obtain ⟨l, hl⟩ := Option.ne_none_iff_exists'.1 hkn
    have hlen : lenAt st.dict names i = l := by unfold lenAt; rw [hn]; simp [hl]
    by_cases hM : Matched tab sel names i
    · have hL : Long st.dict tol n := by
        by_contra hL
        exact hD ⟨hM, n, hn, hL⟩
      obtain ⟨dn, a, b, c⟩ := (hf i n hn).2.1 hM hL
      rw [hl] at c
      exact ⟨dn, a, by rw [rowLen_driftBody _ _ _ c, hlen]; rfl⟩
    · exact ⟨n, (hf i n hn).1 hM, by rw [hext.rowLen hl, hlen]; rfl⟩
  have hsum : ∀ k ≤ names.length, (((List.range k).filterMap f).map (fun n => (rowLen st'.dict n).getD 0)).sum =
      startOf st.dict names k -
        ((List.range k).map (fun i => if Dropped tab sel tol st.dict names i then lenAt st.dict names i else 0)).sum := by
    intro k
    induction k with
    | zero => intro _; simp [startOf]
    | succ k ih =>
      intro hk
      rw [List.range_succ, List.filterMap_append, List.map_append, List.sum_append, ih (by omega), startOf_succ, List.map_append,
        List.sum_append]
      by_cases hD : Dropped tab sel tol st.dict names k
      · simp only [List.filterMap_cons, hdrop k (by omega) hD, List.filterMap_nil, List.map_nil, List.sum_nil, List.map_cons,
          if_pos hD, List.sum_cons]
        ring
      · obtain ⟨x, hx, hlx⟩ := hkeep k (by omega) hD
        simp only [List.filterMap_cons, hx, List.filterMap_nil, List.map_nil, List.sum_nil, List.map_cons, if_neg hD, List.sum_cons, hlx]
        ring
  refine ⟨hext, fun k => ((List.range k).filterMap f).length, ?_, rfl, rfl, ?_, ?_, ?_⟩
  · intro i k hik hk hD
    obtain ⟨x, hx, -⟩ := hkeep i (by omega) hD
    exact select_lt f i k hik x hx
  · intro i hi hD
    simp [List.range_succ, List.filterMap_append, hdrop i hi hD]
  · intro i hi hD
    obtain ⟨x, hx, -⟩ := hkeep i hi hD
    simp [List.range_succ, List.filterMap_append, hx]
  · intro k n hn
    have hk : k < names.length := by
      by_contra hge
      rw [List.getElem?_eq_none (by omega)] at hn; cases hn
    refine ⟨?_, ?_, ?_⟩
    · intro hM
      exact (select_at f names.length k hk n ((hf k n hn).1 hM)).1
    · intro hM hL
      obtain ⟨dn, a, b, c⟩ := (hf k n hn).2.1 hM hL
      obtain ⟨l, hl⟩ := Option.ne_none_iff_exists'.1 (hknown n (List.mem_of_getElem? hn))
      rw [hl] at c
      exact ⟨dn, (select_at f names.length k hk dn a).1, b, l, hl, c⟩
    · intro hD
      obtain ⟨x, hx, -⟩ := hkeep k hk hD
      unfold startOf
      rw [(select_at f names.length k hk x hx).2, hsum k (by omega)]
      rfl

theorem thin_len (d : Dict) (n : String) (l : ℝ) (h : rowLen d n = some l) (ht : isThick d n ≠ some true) : l = 0 := by
  unfold isThick at ht
  unfold rowLen at h
  cases hb : baseEl d n with
  | none => rw [hb] at h; cases h
  | some e =>
    rw [hb] at h ht
    cases e with
    | thin => simp [elLen] at h; exact h.symm
    | body k l' => simp at ht
    | slice k p w o =>
      cases k with
      | thick => simp at ht
      | drift => simp at ht
      | thin => simp [elLen] at h; exact h.symm
      | edge => simp [elLen] at h; exact h.symm
    | replica p => simp [elLen] at h

open Classical in
/-- C39 (partial: the removed elements have no negative length): the shift of every other element is at most the tolerance times the
number of dropped elements before it (and exactly 0 when those have no length). -/
theorem C39_remove_shift_partial (tab : List Nat) (sel : String → Bool) (tol : ℝ) (d : Dict) (names : List String)
    (hpos : ∀ i n l, Matched tab sel names i → names[i]? = some n → rowLen d n = some l → 0 ≤ l) (ht : 0 ≤ tol)
    (k : Nat) :
    0 ≤ ((List.range k).map (fun i => if Dropped tab sel tol d names i then lenAt d names i else 0)).sum ∧
      ((List.range k).map (fun i => if Dropped tab sel tol d names i then lenAt d names i else 0)).sum ≤
        tol * ((List.range k).filter (fun i => Dropped tab sel tol d names i ∧ lenAt d names i ≠ 0)).length := by
  induction k with
  | zero => simp
  | succ k ih =>
    rw [List.range_succ, List.map_append, List.sum_append, List.filter_append, List.length_append]
    push_cast
    rw [mul_add]
    have hone : 0 ≤ ([k].map (fun i => if Dropped tab sel tol d names i then lenAt d names i else 0)).sum ∧
        ([k].map (fun i => if Dropped tab sel tol d names i then lenAt d names i else 0)).sum ≤
          tol * (([k].filter (fun i => Dropped tab sel tol d names i ∧ lenAt d names i ≠ 0)).length : ℝ) := by
      by_cases hD : Dropped tab sel tol d names k
      · obtain ⟨hM, n, hn, hL⟩ := hD
        have hD' : Dropped tab sel tol d names k := ⟨hM, n, hn, hL⟩
        simp only [List.map_cons, if_pos hD', List.map_nil, List.sum_cons, List.sum_nil, add_zero]
        have hlen : lenAt d names k = (rowLen d n).getD 0 := by unfold lenAt; rw [hn]
        cases hr : rowLen d n with
        | none =>
          rw [hr] at hlen
          simp only [Option.getD_none] at hlen
          rw [hlen]
          exact ⟨le_refl _, by positivity⟩
        | some l =>
          rw [hr] at hlen
          simp only [Option.getD_some] at hlen
          have h0 := hpos k n l hM hn hr
          refine ⟨by rw [hlen]; exact h0, ?_⟩
          by_cases hz : l = 0
          · rw [hlen, hz]; positivity
          · have hle : l ≤ tol := by
              by_contra hgt
              apply hL
              refine ⟨?_, l, hr, by linarith⟩
              by_contra ht2
              exact hz (thin_len d n l hr ht2)
            simp [hD', hlen, hz, hle]
      · simp [hD]
    constructor
    · exact add_nonneg ih.1 hone.1
    · exact add_le_add ih.2 hone.2

/-- `remove` of a drift of −1 m: the marker behind it moves from 1 m to 2 m. -/
theorem C39_negative_length_violated :
    ∃ (st st' : St) (names names' : List String), remove [] (fun n => n = "b") (1 / 10 ^ 10) st names = some (st', names') ∧
      names = ["a", "b", "m"] ∧ names' = ["a", "m"] ∧ startOf st.dict names 2 = 1 ∧ startOf st'.dict names' 1 = 2 := by
  refine ⟨⟨[("a", .body driftKind 2), ("b", .body driftKind (-1)), ("m", .thin)], [], 0⟩,
    ⟨[("a", .body driftKind 2), ("b", .body driftKind (-1)), ("m", .thin)], [], 0⟩, ["a", "b", "m"], ["a", "m"], ?_, rfl, rfl, ?_, ?_⟩
  · have hm : nameMatch [] (fun n => n = "b") ["a", "b", "m"] = some [1] := by decide +kernel
    unfold remove
    rw [if_neg (by simp [rowLen, baseEl, baseName, Slicing.get, elLen]), hm]
    have hmask : maskThick [("a", .body driftKind 2), ("b", .body driftKind (-1)), ("m", .thin)] ["a", "b", "m"] (1 / 10 ^ 10) 1 =
        false := by
      have : lenAt [("a", .body driftKind 2), ("b", .body driftKind (-1)), ("m", .thin)] ["a", "b", "m"] 1 = -1 := by
        simp [lenAt, rowLen, baseEl, baseName, Slicing.get, elLen]
      unfold maskThick
      rw [this]
      norm_num
    simp only [List.filter_cons, hmask, List.filter_nil, Bool.false_eq_true, if_false, Bool.not_false, if_true, putDrifts]
    simp [dropRows]
  · simp [startOf, rowLen, baseEl, baseName, Slicing.get, elLen]; norm_num
  · simp [startOf, rowLen, baseEl, baseName, Slicing.get, elLen]

/-! ### replace -/

theorem assignRows_spec (new : String) (R : List Nat) (ns : List String) (h : ∀ i ∈ R, i < ns.length) :
    (assignRows new R ns).2 = true ∧ (assignRows new R ns).1.length = ns.length ∧
      ∀ i < ns.length, (assignRows new R ns).1[i]? = if i ∈ R then some new else ns[i]? := by
  induction R generalizing ns with
  | nil => simp [assignRows]
  | cons x R ih =>
    unfold assignRows
    have hx := h x List.mem_cons_self
    rw [if_pos hx]
    obtain ⟨a, b, c⟩ := ih (ns.set x new) (fun i hi => by rw [List.length_set]; exact h i (List.mem_cons_of_mem _ hi))
    refine ⟨a, by rw [b, List.length_set], ?_⟩
    intro i hi
    rw [c i (by rw [List.length_set]; exact hi)]
    by_cases hR : i ∈ R
    · simp [hR]
    · by_cases hxi : i = x
      · subst hxi
        simp [hR, hi]
      · rw [List.getElem?_set_ne (fun e => hxi e.symm)]
        simp [hR, hxi]

open Classical in
/-- C39 (partial: the row `_end_point` of the table is not matched, see `C39_end_point_violated`): `replace` either raises and changes
nothing, or every matched element now has the new name, the others are as before, and every element keeps its position
up to the tolerance times the number of replaced elements before it. -/
theorem C39_replace_partial (tab : List Nat) (sel : String → Bool) (new : String) (tol : ℝ) (d : Dict) (names : List String)
    (ht : ∀ i ∈ tab, i < names.length) (hs : sel "_end_point" = false) :
    let r := replaceEl tab sel new tol d names
    (r.2 = false → r.1 = names) ∧
    (r.2 = true → r.1.length = names.length ∧
      (∀ i < names.length, (Matched tab sel names i → r.1[i]? = some new) ∧ (¬ Matched tab sel names i → r.1[i]? = names[i]?)) ∧
      ∀ k ≤ names.length, |startOf d r.1 k - startOf d names k| ≤
        tol * ((List.range k).filter (fun i => Matched tab sel names i)).length) := by
  intro r
  have hr : r = replaceEl tab sel new tol d names := rfl
  unfold replaceEl at hr
  split at hr
  · rw [hr]; exact ⟨fun _ => rfl, fun h => absurd h (by simp)⟩
  · split at hr
    · rw [hr]; exact ⟨fun _ => rfl, fun h => absurd h (by simp)⟩
    · next idx hidx =>
      split at hr
      · rw [hr]; exact ⟨fun _ => rfl, fun h => absurd h (by simp)⟩
      · next lnew hl =>
        split at hr
        · rw [hr]; exact ⟨fun _ => rfl, fun h => absurd h (by simp)⟩
        · next hlen =>
          push Not at hlen
          have hbound : ∀ i ∈ idx, i < names.length := by
            intro i hi
            rcases (nameMatch_mem hidx i).1 hi with h | h
            · exact ht i h
            · unfold byEnvName at h
              rw [List.mem_filter, List.mem_range] at h
              by_contra hge
              have : i = names.length := by omega
              subst this
              rw [List.getElem?_append_right (le_refl _)] at h
              simp [hs] at h
          obtain ⟨a, b, c⟩ := assignRows_spec new idx names hbound
          rw [← hr] at a b c
          refine ⟨fun h => absurd (a.symm.trans h) (by simp), fun _ => ⟨b, ?_, ?_⟩⟩
          · intro i hi
            have hm := nameMatch_matched hidx i hi
            constructor
            · intro hM; rw [c i hi, if_pos (hm.2 hM)]
            · intro hM; rw [c i hi, if_neg (fun h => hM (hm.1 h))]
          · intro k
            induction k with
            | zero => intro _; simp [startOf]
            | succ k ih =>
              intro hk
              have ih' := ih (by omega)
              rw [startOf_succ, startOf_succ, List.range_succ, List.filter_append, List.length_append]
              push_cast
              rw [mul_add]
              have hm := nameMatch_matched hidx k (by omega)
              have hone : |lenAt d r.1 k - lenAt d names k| ≤
                  tol * (([k].filter (fun i => decide (Matched tab sel names i))).length : ℝ) := by
                by_cases hM : Matched tab sel names k
                · have h1 : lenAt d r.1 k = lnew := by
                    unfold lenAt
                    rw [c k (by omega), if_pos (hm.2 hM)]
                    simp [hl]
                  rw [h1, abs_sub_comm]
                  have := hlen k (hm.2 hM)
                  simpa [hM] using this
                · have h1 : lenAt d r.1 k = lenAt d names k := by
                    unfold lenAt
                    rw [c k (by omega), if_neg (fun h => hM (hm.1 h))]
                  rw [h1, sub_self, abs_zero]
                  simp [hM]
              calc |startOf d r.1 k + lenAt d r.1 k - (startOf d names k + lenAt d names k)|
                  = |(startOf d r.1 k - startOf d names k) + (lenAt d r.1 k - lenAt d names k)| := by ring_nf
                _ ≤ |startOf d r.1 k - startOf d names k| + |lenAt d r.1 k - lenAt d names k| := abs_add_le _ _
                _ ≤ _ := add_le_add ih' hone

/-- `line.replace('.*', 'n')` on a line of one marker: the table row `_end_point` is matched too, the marker is replaced and then
an `IndexError` is raised. -/
theorem C39_end_point_violated :
    ∃ (d : Dict), replaceEl [0, 1] (fun _ => false) "n" (1 / 10 ^ 10) d ["m"] = (["n"], false) := by
  refine ⟨[("m", .thin), ("n", .thin)], ?_⟩
  have hm : nameMatch [0, 1] (fun _ => false) ["m"] = some [0, 1] := by decide +kernel
  have hr : ∀ n ∈ ["m", "n"], rowLen [("m", .thin), ("n", .thin)] n = some 0 := by
    intro n hn
    simp at hn
    rcases hn with rfl | rfl <;> simp [rowLen, baseEl, baseName, Slicing.get, elLen]
  unfold replaceEl
  rw [if_neg (by simp [hr]), hm]
  simp only
  rw [hr "n" (by simp)]
  simp only
  rw [if_neg]
  · simp [assignRows]
  · simp [lenAt, hr]

/-! ### filter_elements -/

/-- The mask excludes an element with this name. -/
def Excluded (mask : List Bool) (names : List String) (n : String) : Prop := ∃ i : Nat, mask[i]? = some false ∧ names[i]? = some n

theorem filterLoop_get (d : Dict) (mask : List Bool) (names : List String) (new : Dict) (n : String) :
    (Excluded mask names n → get (filterLoop d mask names new) n = some (filtered d n)) ∧
      (¬ Excluded mask names n → get (filterLoop d mask names new) n = get new n) := by
  have general : ∀ (mask : List Bool) (names : List String) (new : Dict),
      (Excluded mask names n ∨ get new n = some (filtered d n) → get (filterLoop d mask names new) n = some (filtered d n)) ∧
      (¬ Excluded mask names n → get (filterLoop d mask names new) n = get new n) := by
    intro mask
    induction mask with
    | nil =>
      intro names new
      simp only [filterLoop]
      exact ⟨fun h => h.elim (fun ⟨i, hi, _⟩ => absurd hi (by simp)) id, fun _ => trivial⟩
    | cons b bs ih =>
      intro names new
      cases names with
      | nil =>
        simp only [filterLoop]
        exact ⟨fun h => h.elim (fun ⟨i, _, hi⟩ => absurd hi (by simp)) id, fun _ => trivial⟩
      | cons m ns =>
        simp only [filterLoop]
        constructor
        · intro h
          apply (ih ns _).1
          rcases h with ⟨i, h1, h2⟩ | h
          · cases i with
            | zero =>
              right
              simp only [List.getElem?_cons_zero, Option.some.injEq] at h1 h2
              subst h1 h2
              simp [get_cons_self]
            | succ i => exact .inl ⟨i, by simpa using h1, by simpa using h2⟩
          · right
            cases b with
            | true => simpa using h
            | false =>
              by_cases hm : m = n
              · subst hm; simp [get_cons_self]
              · simp only [Bool.false_eq_true, if_false]; rw [get_cons_ne _ _ _ _ hm]; exact h
        · intro h
          rw [(ih ns _).2 (fun ⟨i, h1, h2⟩ => h ⟨i + 1, by simpa using h1, by simpa using h2⟩)]
          cases b with
          | true => simp
          | false =>
            have hm : m ≠ n := by
              rintro rfl
              exact h ⟨0, by simp, by simp⟩
            simp only [Bool.false_eq_true, if_false]
            rw [get_cons_ne _ _ _ _ hm]
  exact ⟨fun h => (general mask names new).1 (.inl h), (general mask names new).2⟩

theorem rowLen_of_get (d : Dict) (n : String) (e : El) (h : get d n = some e) (hn : NotReplica e) : rowLen d n = elLen d e := by
  have hb : baseName d n = some n := by
    unfold baseName
    rw [h]
    cases e <;> first | rfl | exact absurd hn (by simp [NotReplica])
  unfold rowLen baseEl
  rw [hb]
  simp only [h]

theorem rowLen_replica {d : Dict} {x y : String} {l : ℝ} (h : get d x = some (.replica y)) :
    rowLen d x = some l ↔ rowLen d y = some l := by
  have key : baseName d x = baseName d y := by
    unfold baseName
    rw [h]
    simp only
    have hfound : ∀ t, resolve d y = .found t ↔ (∃ e, get d y = some e ∧ NotReplica e ∧ t = y) ∨
        ∃ z, get d y = some (.replica z) ∧ resolve d z = .found t := by
      intro t
      rw [C55_found]
      constructor
      · rintro ⟨hl, e, he, hn⟩
        rcases Relation.ReflTransGen.cases_head hl with rfl | ⟨z, hz, hl⟩
        · exact .inl ⟨e, he, hn, rfl⟩
        · exact .inr ⟨z, hz, (C55_found d z t).2 ⟨hl, e, he, hn⟩⟩
      · rintro (⟨e, he, hn, rfl⟩ | ⟨z, hz, hr⟩)
        · exact ⟨Relation.ReflTransGen.refl, e, he, hn⟩
        · obtain ⟨hl, e, he, hn⟩ := (C55_found d z t).1 hr
          exact ⟨Relation.ReflTransGen.head hz hl, e, he, hn⟩
    cases hy : get d y with
    | none =>
      simp only
      cases hr : resolve d y with
      | found t =>
        rcases (hfound t).1 hr with ⟨e, he, -⟩ | ⟨z, hz, -⟩
        · rw [hy] at he; cases he
        · rw [hy] at hz; cases hz
      | keyError => rfl
      | circular => rfl
      | running => rfl
    | some e =>
      cases e with
      | replica z =>
        simp only
        cases hr : resolve d y with
        | found t =>
          rcases (hfound t).1 hr with ⟨e, he, hn, -⟩ | ⟨z', hz, hz'⟩
          · rw [hy, Option.some.injEq] at he; subst he; exact absurd hn (by simp [NotReplica])
          · rw [hy, Option.some.injEq, El.replica.injEq] at hz
            subst hz
            rw [hz']
        | _ =>
          cases hz : resolve d z with
          | found t => rw [(hfound t).2 (.inr ⟨z, hy, hz⟩)] at hr; cases hr
          | _ => rfl
      | thin =>
        rw [(hfound y).2 (.inl ⟨_, hy, by simp [NotReplica], rfl⟩)]
      | body k l =>
        rw [(hfound y).2 (.inl ⟨_, hy, by simp [NotReplica], rfl⟩)]
      | slice k p w o =>
        rw [(hfound y).2 (.inl ⟨_, hy, by simp [NotReplica], rfl⟩)]
  unfold rowLen baseEl
  rw [key]

theorem filtered_len (d : Dict) (n : String) (l : ℝ) (h : rowLen d n = some l) (hd : isDriftLike d n = true → l = 0) :
    filtered d n = .body driftKind l := by
  unfold filtered
  split
  · rw [h]; rfl
  · next hc =>
    simp only [Bool.and_eq_true, Bool.not_eq_true', not_and, Bool.not_eq_false] at hc
    cases ht : (isThick d n).getD false with
    | true => rw [hd (hc ht)]
    | false =>
      have : l = 0 := thin_len d n l h (by intro e; rw [e] at ht; cases ht)
      rw [this]

/-- C44 (partial: the excluded drifts have no length, see `C44_drift_violated`): in the line returned by `filter_elements` every
excluded name is a drift, every other element of the environment is unchanged, every element has the length it had, and
so every element is where it was. -/
theorem C44_filter_partial (d d' : Dict) (mask : List Bool) (names : List String) (h : filterElements d mask names = some d')
    (hd : ∀ n, Excluded mask names n → isDriftLike d n = true → rowLen d n = some 0) :
    (∀ n, Excluded mask names n → ∃ l, get d' n = some (.body driftKind l) ∧ rowLen d n = some l) ∧
      (∀ n, ¬ Excluded mask names n → get d' n = get d n) ∧
      (∀ n l, rowLen d n = some l → rowLen d' n = some l) ∧ ∀ k, startOf d' names k = startOf d names k := by
  unfold filterElements at h
  split at h
  · next hc =>
    obtain ⟨hlen, hk⟩ := hc
    simp only [Option.some.injEq] at h
    subst h
    have hexl : ∀ n, Excluded mask names n → ∃ l, get (filterLoop d mask names d) n = some (.body driftKind l) ∧ rowLen d n = some l := by
      intro n hn
      obtain ⟨l, hl⟩ := Option.ne_none_iff_exists'.1 (hk n (by obtain ⟨i, _, hi⟩ := hn; exact List.mem_of_getElem? hi))
      refine ⟨l, ?_, hl⟩
      rw [(filterLoop_get d mask names d n).1 hn, filtered_len d n l hl]
      intro hdr
      have := hd n hn hdr
      rw [hl, Option.some.injEq] at this
      exact this
    have hkeep : ∀ n, ¬ Excluded mask names n → get (filterLoop d mask names d) n = get d n := fun n => (filterLoop_get d mask names d n).2
    have hall : ∀ n l, rowLen d n = some l → rowLen (filterLoop d mask names d) n = some l := by
      intro n l hl
      have hb : ∃ t, baseName d n = some t := by
        cases hb : baseName d n with
        | none => unfold rowLen baseEl at hl; rw [hb] at hl; cases hl
        | some t => exact ⟨t, rfl⟩
      obtain ⟨t, hb⟩ := hb
      have hlead : Leads d n t ∧ ∃ e, get d t = some e ∧ NotReplica e := by
        unfold baseName at hb
        split at hb
        · cases hb
        · next p hp =>
          split at hb
          · next t' ht =>
            simp only [Option.some.injEq] at hb
            subst hb
            obtain ⟨h1, h2⟩ := (C55_found d p t').1 ht
            exact ⟨Relation.ReflTransGen.head hp h1, h2⟩
          · cases hb
        · next e hnr he =>
          simp only [Option.some.injEq] at hb
          subst hb
          refine ⟨Relation.ReflTransGen.refl, e, he, ?_⟩
          cases e with
          | replica p => exact (hnr p rfl).elim
          | _ => trivial
      obtain ⟨hlead, e, he, hnr⟩ := hlead
      clear hb
      induction hlead using Relation.ReflTransGen.head_induction_on with
      | refl =>
        by_cases hx : Excluded mask names t
        · obtain ⟨l', h1, h2⟩ := hexl t hx
          rw [hl, Option.some.injEq] at h2
          subst h2
          exact rowLen_driftBody _ _ _ h1
        · rw [rowLen_of_get d t e he hnr] at hl
          rw [rowLen_of_get _ t e (by rw [hkeep t hx]; exact he) hnr]
          have hbody : ∀ p w, ((bodyOf d p).map (fun b => b.2 * w)) = some l →
              ((bodyOf (filterLoop d mask names d) p).map (fun b => b.2 * w)) = some l := by
            intro p w hp
            rw [Option.map_eq_some_iff] at hp
            obtain ⟨⟨k, lp⟩, hp, hpl⟩ := hp
            have hg : get d p = some (.body k lp) := by
              unfold bodyOf at hp
              split at hp
              · next k' l' hg => simp only [Option.some.injEq, Prod.mk.injEq] at hp; rw [hg, hp.1, hp.2]
              · cases hp
            by_cases hxp : Excluded mask names p
            · obtain ⟨l', h1, h2⟩ := hexl p hxp
              rw [rowLen_of_get d p _ hg (by simp [NotReplica])] at h2
              simp only [elLen, Option.some.injEq] at h2
              subst h2
              unfold bodyOf
              rw [h1]
              simpa using hpl
            · unfold bodyOf
              rw [hkeep p hxp, hg]
              simpa using hpl
          cases e with
          | thin => exact hl
          | body k l' => exact hl
          | slice k p w o =>
            cases k with
            | thick => exact hbody p w hl
            | drift => exact hbody p w hl
            | thin => exact hl
            | edge => exact hl
          | replica p => exact absurd hnr (by simp [NotReplica])
      | @head a c hac hct ih =>
        by_cases hx : Excluded mask names a
        · obtain ⟨l', h1, h2⟩ := hexl a hx
          rw [hl, Option.some.injEq] at h2
          subst h2
          exact rowLen_driftBody _ _ _ h1
        · rw [rowLen_replica (by rw [hkeep a hx]; exact hac)]
          exact ih ((rowLen_replica hac).1 hl)
    refine ⟨hexl, hkeep, hall, ?_⟩
    intro k
    unfold startOf
    congr 1
    apply List.map_congr_left
    intro n hn
    obtain ⟨l, hl⟩ := Option.ne_none_iff_exists'.1 (hk n (List.mem_of_mem_take hn))
    rw [hl, hall n l hl]
  · cases h

/-- `filter_elements` with a mask that excludes a drift of 2 m: it gets length 0 and the marker behind it moves. -/
theorem C44_drift_violated :
    ∃ (d d' : Dict) (names : List String), filterElements d [false, true] names = some d' ∧ startOf d names 1 = 2 ∧
      startOf d' names 1 = 0 := by
  refine ⟨[("a", .body driftKind 2), ("m", .thin)], [("a", .body driftKind 0), ("a", .body driftKind 2), ("m", .thin)], ["a", "m"], ?_,
    ?_, ?_⟩
  · unfold filterElements
    rw [if_pos]
    · simp [filterLoop, filtered, isDriftLike, isThick, baseEl, baseName, Slicing.get]
    · simp [rowLen, baseEl, baseName, Slicing.get, elLen]
  · simp [startOf, rowLen, baseEl, baseName, Slicing.get, elLen]
  · simp [startOf, rowLen, baseEl, baseName, Slicing.get, elLen]

/-- The mask keeps the first occurrence of a quadrupole and excludes the second: both are replaced. -/
theorem C44_repeated_violated :
    ∃ (d d' : Dict) (names : List String), filterElements d [true, false] names = some d' ∧ names[0]? = some "q" ∧
      get d "q" = some (.body ⟨false, false, true, true, true⟩ 2) ∧ get d' "q" = some (.body driftKind 2) := by
  refine ⟨[("q", .body ⟨false, false, true, true, true⟩ 2)],
    [("q", .body driftKind 2), ("q", .body ⟨false, false, true, true, true⟩ 2)], ["q", "q"], ?_, rfl, rfl, rfl⟩
  unfold filterElements
  rw [if_pos]
  · simp [filterLoop, filtered, isDriftLike, isThick, baseEl, baseName, Slicing.get, rowLen, elLen]
  · simp [rowLen, baseEl, baseName, Slicing.get, elLen]

/-! ### replace_all_repeated_elements -/

theorem repName_injective (sep nn : String) : Function.Injective (repName sep nn) := by
  intro a b h
  unfold repName at h
  exact Names.numbered_injective _ h

/-- State of the replacement: `T` are the positions done so far. -/
structure RepInv (clone : Bool) (d0 : Dict) (names0 : List String) (T : Nat → Prop) (d : Dict) (ns : List String) : Prop where
  ext : Ext d0 d
  length : ns.length = names0.length
  inside : ∀ i, T i → i < names0.length
  other : ∀ i, ¬ T i → ns[i]? = names0[i]?
  made : ∀ i n, T i → names0[i]? = some n → ∃ m x, ns[i]? = some m ∧ get d0 m = none ∧ get d m = some x ∧
    if clone then baseEl d0 n = some x else x = .replica n
  apart : ∀ (i j : Nat) m, T i → T j → ns[i]? = some m → ns[j]? = some m → i = j

theorem RepInv.step {clone : Bool} {d0 : Dict} {names0 : List String} {T : Nat → Prop} {d : Dict} {ns : List String}
    (h : RepInv clone d0 names0 T d ns) (p : Nat) (nn new : String) (x : El) (hp : names0[p]? = some nn) (hfree : get d new = none)
    (hx : if clone then baseEl d0 nn = some x else x = .replica nn) :
    RepInv clone d0 names0 (fun k => T k ∨ k = p) ((new, x) :: d) (ns.set p new) := by
  have hpl : p < names0.length := by
    by_contra hge
    rw [List.getElem?_eq_none (by omega)] at hp; cases hp
  have hne : ∀ m y, get d m = some y → new ≠ m := by
    rintro m y hm rfl
    rw [hfree] at hm; cases hm
  have hold : ∀ k, T k → k ≠ p → ∃ m y, (ns.set p new)[k]? = some m ∧ get d m = some y := by
    intro k hk hkp
    obtain ⟨m, y, a, _, c, _⟩ := h.made k (names0[k]'(h.inside k hk)) hk (List.getElem?_eq_getElem (h.inside k hk))
    exact ⟨m, y, by rw [List.getElem?_set_ne (fun e => hkp e.symm)]; exact a, c⟩
  have hself : (ns.set p new)[p]? = some new := List.getElem?_set_self (by rw [h.length]; exact hpl)
  refine ⟨h.ext.trans (ext_cons d new x ((get_none_iff _ _).1 hfree)), by rw [List.length_set, h.length], ?_, ?_, ?_, ?_⟩
  · rintro i (hi | rfl)
    · exact h.inside i hi
    · exact hpl
  · intro k hk
    simp only [not_or] at hk
    rw [List.getElem?_set_ne (fun e => hk.2 e.symm)]
    exact h.other k hk.1
  · intro k n hk hn
    by_cases hkp : k = p
    · subst hkp
      rw [hp, Option.some.injEq] at hn
      subst hn
      exact ⟨new, x, hself, Ext.none h.ext hfree, get_cons_self _ _ _, hx⟩
    · have hk : T k := hk.elim id (fun e => absurd e hkp)
      obtain ⟨m, y, a, b, c, e⟩ := h.made k n hk hn
      exact ⟨m, y, by rw [List.getElem?_set_ne (fun e => hkp e.symm)]; exact a, b, by rw [get_cons_ne _ _ _ _ (hne m y c)]; exact c, e⟩
  · intro a b m ha hb hma hmb
    by_cases hap : a = p
    · by_cases hbp : b = p
      · rw [hap, hbp]
      · obtain ⟨m', y, e1, e2⟩ := hold b (hb.elim id (fun e => absurd e hbp)) hbp
        rw [hap, hself, Option.some.injEq] at hma
        rw [hmb, Option.some.injEq] at e1
        exact absurd (hma.trans e1) (hne m' y e2)
    · by_cases hbp : b = p
      · obtain ⟨m', y, e1, e2⟩ := hold a (ha.elim id (fun e => absurd e hap)) hap
        rw [hbp, hself, Option.some.injEq] at hmb
        rw [hma, Option.some.injEq] at e1
        exact absurd (hmb.trans e1) (hne m' y e2)
      · rw [List.getElem?_set_ne (fun e => hap e.symm)] at hma
        rw [List.getElem?_set_ne (fun e => hbp e.symm)] at hmb
        exact h.apart a b m (ha.elim id (fun e => absurd e hap)) (hb.elim id (fun e => absurd e hbp)) hma hmb

theorem repRows_inv (reserved : List String) (clone : Bool) (sep nn : String) (d0 : Dict) (names0 : List String)
    (hb : baseEl d0 nn ≠ none) (R : List Nat) (hR : ∀ i ∈ R, names0[i]? = some nn) (i : Nat) (T : Nat → Prop) (d : Dict)
    (ns : List String) (h : RepInv clone d0 names0 T d ns) :
    Ext d0 (repRows reserved clone sep nn R i d ns).1 ∧
      ((repRows reserved clone sep nn R i d ns).2.2 = true →
        RepInv clone d0 names0 (fun k => T k ∨ k ∈ R) (repRows reserved clone sep nn R i d ns).1 (repRows reserved clone sep nn R i d ns).2.1) ∧
      ((repRows reserved clone sep nn R i d ns).2.2 = false → ∃ j, repName sep nn j ∈ reserved) := by
  induction R generalizing i T d ns with
  | nil =>
    simp only [repRows]
    exact ⟨h.ext, fun _ => by simpa using h, fun hh => absurd hh (by simp)⟩
  | cons p R ih =>
    simp only [repRows]
    have hfree := (Names.firstFree_spec (repName sep nn) (repName_injective sep nn) (keys d) i).2.1
    generalize Names.firstFree (repName sep nn) (keys d) i = j at hfree ⊢
    have hfree' := (get_none_iff _ _).2 hfree
    have hp := hR p List.mem_cons_self
    obtain ⟨e, he⟩ := Option.ne_none_iff_exists'.1 hb
    have he' := h.ext.baseEl he
    obtain ⟨e', hg⟩ : ∃ e', get d nn = some e' := by
      cases hg : get d nn with
      | some e' => exact ⟨e', rfl⟩
      | none => unfold baseEl baseName at he'; rw [hg] at he'; cases he'
    have hT : ∀ d' ns', RepInv clone d0 names0 (fun k => (T k ∨ k = p) ∨ k ∈ R) d' ns' →
        RepInv clone d0 names0 (fun k => T k ∨ k ∈ p :: R) d' ns' := by
      intro d' ns' h'
      have : (fun k => (T k ∨ k = p) ∨ k ∈ R) = fun k => T k ∨ k ∈ p :: R := by
        funext k; simp [or_assoc]
      rw [← this]; exact h'
    by_cases hres : repName sep nn j ∈ reserved
    · have : newFrom reserved clone d (repName sep nn j) nn = (d, false) := by
        unfold newFrom; rw [if_pos hres]
      rw [this]
      exact ⟨h.ext, fun hh => absurd hh (by simp), fun _ => ⟨j, hres⟩⟩
    · obtain ⟨x, hx, hnew⟩ : ∃ x, (if clone then baseEl d0 nn = some x else x = .replica nn) ∧
          newFrom reserved clone d (repName sep nn j) nn = ((repName sep nn j, x) :: d, true) := by
        cases clone with
        | true => exact ⟨e, by simpa using he, by unfold newFrom; rw [if_neg hres]; simp [he']⟩
        | false => exact ⟨.replica nn, by simp, by unfold newFrom; rw [if_neg hres]; simp [hg]⟩
      rw [hnew]
      simp only
      have := ih (fun k hk => hR k (List.mem_cons_of_mem _ hk)) j _ _ _ (h.step p nn (repName sep nn j) x hp hfree' hx)
      exact ⟨this.1, fun hh => hT _ _ (this.2.1 hh), this.2.2⟩

/-- The names whose occurrences are replaced. -/
def Repeated (generated : Bool) (names : List String) (nn : String) : Prop :=
  1 < names.count nn ∧ (generated = true ∨ isAutoName nn = false)

theorem occurrences_length (names : List String) (nn : String) : (occurrences names nn).length = names.count nn := by
  unfold occurrences
  induction names using List.reverseRecOn with
  | nil => simp
  | append_singleton names x ih =>
    rw [List.length_append, List.length_singleton, List.range_succ, List.filter_append, List.length_append, List.count_append, ← ih]
    congr 1
    · congr 1
      apply List.filter_congr
      intro i hi
      rw [List.getElem?_append_left (List.mem_range.1 hi)]
    · by_cases hx : x = nn <;> simp [hx]

theorem repNames_inv (reserved : List String) (clone : Bool) (sep : String) (generated : Bool) (d0 : Dict) (names0 : List String)
    (hb : ∀ n ∈ names0, baseEl d0 n ≠ none) (order : List String) (T : Nat → Prop) (d : Dict) (ns : List String)
    (h : RepInv clone d0 names0 T d ns) :
    let r := repNames reserved clone sep generated names0 order d ns
    Ext d0 r.1 ∧
      (r.2.2 = true → RepInv clone d0 names0
        (fun k => T k ∨ ∃ nn ∈ order, Repeated generated names0 nn ∧ names0[k]? = some nn) r.1 r.2.1) ∧
      (r.2.2 = false → ∃ nn j, nn ∈ names0 ∧ repName sep nn j ∈ reserved) := by
  induction order generalizing T d ns with
  | nil =>
    simp only [repNames]
    exact ⟨h.ext, fun _ => by simpa using h, fun hh => absurd hh (by simp)⟩
  | cons nn order ih =>
    have skip : ¬ Repeated generated names0 nn → ∀ r : Dict × List String × Bool,
        (Ext d0 r.1 ∧ (r.2.2 = true → RepInv clone d0 names0
          (fun k => T k ∨ ∃ nn ∈ order, Repeated generated names0 nn ∧ names0[k]? = some nn) r.1 r.2.1) ∧
          (r.2.2 = false → ∃ nn j, nn ∈ names0 ∧ repName sep nn j ∈ reserved)) →
        (Ext d0 r.1 ∧ (r.2.2 = true → RepInv clone d0 names0
          (fun k => T k ∨ ∃ m ∈ nn :: order, Repeated generated names0 m ∧ names0[k]? = some m) r.1 r.2.1) ∧
          (r.2.2 = false → ∃ nn j, nn ∈ names0 ∧ repName sep nn j ∈ reserved)) := by
      intro hR r hr
      refine ⟨hr.1, fun hh => ?_, hr.2.2⟩
      have heq : (fun k => T k ∨ ∃ m ∈ nn :: order, Repeated generated names0 m ∧ names0[k]? = some m) =
          fun k => T k ∨ ∃ nn ∈ order, Repeated generated names0 nn ∧ names0[k]? = some nn := by
        funext k
        simp [hR]
      rw [heq]
      exact hr.2.1 hh
    simp only [repNames]
    split
    · next hg =>
      apply skip _ _ (ih T d ns h)
      rintro ⟨-, hh⟩
      simp only [Bool.and_eq_true, Bool.not_eq_true'] at hg
      rcases hh with hh | hh
      · rw [hg.1] at hh; cases hh
      · rw [hg.2] at hh; cases hh
    · next hg =>
      split
      · next hlen =>
        have hrep : Repeated generated names0 nn := by
          refine ⟨by rw [← occurrences_length]; exact hlen, ?_⟩
          simp only [Bool.and_eq_true, Bool.not_eq_true', not_and] at hg
          cases hgen : generated with
          | true => exact .inl rfl
          | false =>
            right
            have := hg hgen
            simpa using this
        have hmem : nn ∈ names0 := List.count_pos_iff.1 (by have := hrep.1; omega)
        have hocc : ∀ i ∈ occurrences names0 nn, names0[i]? = some nn := by
          intro i hi
          unfold occurrences at hi
          simpa using (List.mem_filter.1 hi).2
        have hocc' : ∀ i, names0[i]? = some nn → i ∈ occurrences names0 nn := by
          intro i hi
          unfold occurrences
          rw [List.mem_filter, List.mem_range]
          refine ⟨?_, by simpa using hi⟩
          by_contra hge
          rw [List.getElem?_eq_none (by omega)] at hi; cases hi
        obtain ⟨a, b, c⟩ := repRows_inv reserved clone sep nn d0 names0 (hb nn hmem) (occurrences names0 nn) hocc 0 T d ns h
        revert a b c
        generalize repRows reserved clone sep nn (occurrences names0 nn) 0 d ns = r
        obtain ⟨d', ns', ok⟩ := r
        cases ok with
        | false =>
          intro a b c
          obtain ⟨j, hj⟩ := c rfl
          exact ⟨a, fun hh => absurd hh (by simp), fun _ => ⟨nn, j, hmem, hj⟩⟩
        | true =>
          intro a b c
          simp only
          obtain ⟨a', b', c'⟩ := ih _ d' ns' (b rfl)
          refine ⟨a', fun hh => ?_, c'⟩
          have heq : (fun k => T k ∨ ∃ m ∈ nn :: order, Repeated generated names0 m ∧ names0[k]? = some m) =
              fun k => (T k ∨ k ∈ occurrences names0 nn) ∨ ∃ nn ∈ order, Repeated generated names0 nn ∧ names0[k]? = some nn := by
            funext k
            apply propext
            constructor
            · rintro (h | ⟨m, hm, h1, h2⟩)
              · exact .inl (.inl h)
              · rcases List.mem_cons.1 hm with rfl | hm
                · exact .inl (.inr (hocc' k h2))
                · exact .inr ⟨m, hm, h1, h2⟩
            · rintro ((h | h) | ⟨m, hm, h1, h2⟩)
              · exact .inl h
              · exact .inr ⟨nn, List.mem_cons_self, hrep, hocc k h⟩
              · exact .inr ⟨m, List.mem_cons_of_mem _ hm, h1, h2⟩
          rw [heq]
          exact b' hh
      · next hlen =>
        apply skip _ _ (ih T d ns h)
        rintro ⟨hh, -⟩
        rw [occurrences_length] at hlen
        exact hlen hh

/-- C45: for every order in which the distinct names are visited, after `replace_all_repeated_elements` the line has the same number
of elements; names that occurred once (and generated drifts when they are excluded) are kept; every other
occurrence has a new name of its own, which was not in the environment and stands for a copy of the element (or a replica
of it); two positions have the same name only if it is an excluded generated drift; no element is overwritten, not even
when the method raises, and it raises only when a line, particle or variable has one of the new names. -/
theorem C45_unique_names (reserved : List String) (clone : Bool) (sep : String) (generated : Bool) (order : List String) (d : Dict)
    (names : List String) (ho : ∀ n, n ∈ order ↔ n ∈ names) (hb : ∀ n ∈ names, baseEl d n ≠ none) :
    let r := replaceRepeated reserved clone sep generated order d names
    (∀ n e, get d n = some e → get r.1 n = some e) ∧
    (r.2.2 = false → ∃ n i, n ∈ names ∧ repName sep n i ∈ reserved) ∧
    (r.2.2 = true → r.2.1.length = names.length ∧
      (∀ (i : Nat) n, names[i]? = some n → names.count n = 1 ∨ (generated = false ∧ isAutoName n = true) → r.2.1[i]? = some n) ∧
      (∀ (i : Nat) n, names[i]? = some n → names.count n ≠ 1 → (generated = true ∨ isAutoName n = false) →
        ∃ m x, r.2.1[i]? = some m ∧ get d m = none ∧ get r.1 m = some x ∧
          (clone = true → baseEl d n = some x) ∧ (clone = false → x = .replica n)) ∧
      (∀ (i j : Nat) m, i ≠ j → r.2.1[i]? = some m → r.2.1[j]? = some m → generated = false ∧ isAutoName m = true ∧ names[i]? = some m)) := by
  intro r
  have hinit : RepInv clone d names (fun _ => False) d names :=
    ⟨Ext.refl d, rfl, fun _ h => h.elim, fun _ _ => rfl, fun _ _ h => h.elim, fun _ _ _ h => h.elim⟩
  obtain ⟨h1, h2, h3⟩ := repNames_inv reserved clone sep generated d names hb order (fun _ => False) d names hinit
  have hr : r = repNames reserved clone sep generated names order d names := rfl
  rw [← hr] at h1 h2 h3
  refine ⟨h1, h3, fun hok => ?_⟩
  have hI := h2 hok
  have hTiff : ∀ (i : Nat) n, names[i]? = some n → ((False ∨ ∃ nn ∈ order, Repeated generated names nn ∧ names[i]? = some nn) ↔
      Repeated generated names n) := by
    intro i n hn
    constructor
    · rintro (h | ⟨m, _, hm, he⟩)
      · exact h.elim
      · rw [hn, Option.some.injEq] at he
        subst he; exact hm
    · intro h
      exact .inr ⟨n, (ho n).2 (List.mem_of_getElem? hn), h, hn⟩
  have hkeep : ∀ (i : Nat) n, names[i]? = some n → ¬ Repeated generated names n → r.2.1[i]? = some n := by
    intro i n hn hR
    rw [hI.other i (fun h => hR ((hTiff i n hn).1 h)), hn]
  refine ⟨hI.length, ?_, ?_, ?_⟩
  · intro i n hn hc
    apply hkeep i n hn
    rintro ⟨h1, h2⟩
    rcases hc with hc | ⟨hc1, hc2⟩
    · omega
    · rcases h2 with h2 | h2
      · rw [hc1] at h2; cases h2
      · rw [hc2] at h2; cases h2
  · intro i n hn hc hg
    have hpos : 0 < names.count n := List.count_pos_iff.2 (List.mem_of_getElem? hn)
    obtain ⟨m, x, a, b, c, e⟩ := hI.made i n ((hTiff i n hn).2 ⟨by omega, hg⟩) hn
    refine ⟨m, x, a, b, c, ?_, ?_⟩
    · rintro rfl; simpa using e
    · rintro rfl; simpa using e
  · intro i j m hij hi hj
    have hlen : ∀ k : Nat, ∀ m', r.2.1[k]? = some m' → ∃ n, names[k]? = some n := by
      intro k m' hk
      have : k < names.length := by
        rw [← hI.length]
        by_contra hge
        rw [List.getElem?_eq_none (by omega)] at hk; cases hk
      exact ⟨names[k], List.getElem?_eq_getElem this⟩
    obtain ⟨ni, hni⟩ := hlen i m hi
    obtain ⟨nj, hnj⟩ := hlen j m hj
    have hget : ∀ n ∈ names, get d n ≠ none := by
      intro n hn hg
      apply hb n hn
      unfold baseEl baseName
      rw [hg]
    by_cases hRi : Repeated generated names ni
    · obtain ⟨m1, x, a, b, c, -⟩ := hI.made i ni ((hTiff i ni hni).2 hRi) hni
      rw [hi, Option.some.injEq] at a
      subst a
      by_cases hRj : Repeated generated names nj
      · exact absurd (hI.apart i j m ((hTiff i ni hni).2 hRi) ((hTiff j nj hnj).2 hRj) hi hj) hij
      · have := hkeep j nj hnj hRj
        rw [hj, Option.some.injEq] at this
        subst this
        exact absurd b (hget m (List.mem_of_getElem? hnj))
    · have e1 := hkeep i ni hni hRi
      rw [hi, Option.some.injEq] at e1
      subst e1
      have hcount : 1 < names.count m := by
        by_cases hRj : Repeated generated names nj
        · obtain ⟨m1, x, a, b, c, -⟩ := hI.made j nj ((hTiff j nj hnj).2 hRj) hnj
          rw [hj, Option.some.injEq] at a
          subst a
          exact absurd b (hget m (List.mem_of_getElem? hni))
        · have e2 := hkeep j nj hnj hRj
          rw [hj, Option.some.injEq] at e2
          subst e2
          rw [← occurrences_length]
          have hmem : ∀ k : Nat, names[k]? = some m → k ∈ occurrences names m := by
            intro k hk
            unfold occurrences
            rw [List.mem_filter, List.mem_range]
            refine ⟨?_, by simpa using hk⟩
            by_contra hge
            rw [List.getElem?_eq_none (by omega)] at hk; cases hk
          have m1 := hmem i hni
          have m2 := hmem j hnj
          by_contra hle
          match hl : occurrences names m with
          | [] => rw [hl] at m1; cases m1
          | [y] =>
            rw [hl] at m1 m2
            simp at m1 m2
            exact hij (m1.trans m2.symm)
          | y :: z :: l => rw [hl] at hle; simp at hle
      have hcase : ¬ (generated = true ∨ isAutoName m = false) := fun hh => hRi ⟨hcount, hh⟩
      simp only [not_or, Bool.not_eq_true, Bool.not_eq_false] at hcase
      exact ⟨hcase.1, hcase.2, hni⟩

/-! ### Cases that meet the hypotheses -/

/-- `remove` of a quadrupole that occurs twice and of a marker with a matching regular expression. -/
example : ∃ t, remove [1] (fun n => n = "q") (1 / 10 ^ 10)
    ⟨[("q", .body ⟨false, false, true, true, true⟩ 2), ("m", .thin)], [], 0⟩ ["q", "m", "q"] = some t := by
  have hm : nameMatch [1] (fun n => n = "q") ["q", "m", "q"] = some [1, 0, 2] := by decide +kernel
  unfold remove
  rw [if_neg (by simp [rowLen, baseEl, baseName, Slicing.get, elLen]), hm]
  exact ⟨_, rfl⟩

/-- `replace` of a marker by another one succeeds. -/
example : (replaceEl [] (fun n => n = "m") "n" (1 / 10 ^ 10) [("m", .thin), ("n", .thin)] ["m", "m"]) = (["n", "n"], true) := by
  have hm : nameMatch [] (fun n => n = "m") ["m", "m"] = some [0, 1] := by decide +kernel
  have hr : ∀ n ∈ ["m", "n"], rowLen [("m", .thin), ("n", .thin)] n = some 0 := by
    intro n hn
    simp at hn
    rcases hn with rfl | rfl <;> simp [rowLen, baseEl, baseName, Slicing.get, elLen]
  unfold replaceEl
  rw [if_neg (by simp [hr]), hm]
  simp only
  rw [hr "n" (by simp)]
  simp only
  rw [if_neg]
  · simp [assignRows]
  · simp [lenAt, hr]

/-- A mask that excludes a quadrupole, with a replica of it that is kept. -/
example : ∃ d', filterElements [("q", .body ⟨false, false, true, true, true⟩ 2), ("r", .replica "q")] [false, true] ["q", "r"] = some d' ∧
    ∀ n, Excluded [false, true] ["q", "r"] n →
      isDriftLike [("q", .body ⟨false, false, true, true, true⟩ 2), ("r", .replica "q")] n = true →
        rowLen [("q", .body ⟨false, false, true, true, true⟩ 2), ("r", .replica "q")] n = some 0 := by
  refine ⟨filterLoop [("q", .body ⟨false, false, true, true, true⟩ 2), ("r", .replica "q")] [false, true] ["q", "r"]
    [("q", .body ⟨false, false, true, true, true⟩ 2), ("r", .replica "q")], ?_, ?_⟩
  · unfold filterElements
    rw [if_pos]
    simp [rowLen, baseEl, baseName, Slicing.get, elLen, Slicing.resolve, resolveLoop]
  · rintro n ⟨i, h1, h2⟩
    match i with
    | 0 =>
      simp only [List.getElem?_cons_zero, Option.some.injEq] at h2
      subst h2
      simp [isDriftLike, baseEl, baseName, Slicing.get]
    | 1 => simp at h1
    | i + 2 => simp at h1

/-- Repeated elements, one of the candidate names taken. -/
example : (replaceRepeated [] true "." false ["a", "b"] [("a", .thin), ("b", .thin), ("a.0", .thin)] ["a", "b", "a"]).2.2 = true := by
  obtain ⟨-, h, -⟩ := C45_unique_names [] true "." false ["a", "b"] [("a", .thin), ("b", .thin), ("a.0", .thin)] ["a", "b", "a"]
    (by intro n; simp; tauto) (by simp [baseEl, baseName, Slicing.get])
  by_contra hh
  obtain ⟨n, i, -, hi⟩ := h (by simpa using hh)
  cases hi

end Verif.Lines
