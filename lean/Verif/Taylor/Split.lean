import Verif.Taylor.Props
import Mathlib.Data.List.Nodup
import Mathlib.Data.List.Range
import Mathlib.Tactic.Ring
import Mathlib.Tactic.Push

/-!
# Lines with parts replaced by second order maps
-/

namespace Verif.Taylor

open Verif.Twiss

/-! ## Specification -/

/-- Positions of the elements of the old line for which an item of the new line stands. -/
def Item.positions : Item → List ℕ
  | .keep i => [i]
  | .map i j => List.range' i (j - i)

/-- Tracking through elements one after the other. -/
def run (els : List (Vec → Vec)) (z : Vec) : Vec := els.foldl (fun z f => f z) z

/-- Tracking through an item: a kept element acts as in the old line, a map acts as `fit i j`. -/
def Item.act (els : List (Vec → Vec)) (fit : ℕ → ℕ → Vec → Vec) : Item → Vec → Vec
  | .keep i => (els[i]?).getD id
  | .map i j => fit i j

/-! ## Lemmas -/

theorem idxOf_append {pre : List String} {a : String} {t : List String}
    (h : (pre ++ a :: t).Nodup) : (pre ++ a :: t).idxOf a = pre.length := by
  rw [List.idxOf_append_of_notMem]
  · simp
  · intro hm
    exact (List.nodup_append.mp h).2.2 a hm a (List.mem_cons_self) rfl

/-- The first cut after `a`. -/
theorem next_cut {c : String → Bool} {t : List String} (ht : t ≠ [])
    (hl : c (t.getLast ht) = true) :
    ∃ seg b t', t = seg ++ b :: t' ∧ (∀ x ∈ seg, c x = false) ∧ c b = true := by
  induction t with
  | nil => exact absurd rfl ht
  | cons x t ih =>
    by_cases hx : c x = true
    · exact ⟨[], x, t, rfl, by simp, hx⟩
    · have htn : t ≠ [] := by
        rintro rfl
        exact hx hl
      obtain ⟨seg, b, t', e, h1, h2⟩ := ih htn (by rwa [List.getLast_cons htn] at hl)
      refine ⟨x :: seg, b, t', by rw [e]; rfl, ?_, h2⟩
      intro z hz
      rcases List.mem_cons.mp hz with rfl | hz
      · simpa using hx
      · exact h1 z hz

theorem filter_skip {c : String → Bool} {seg : List String} (h : ∀ x ∈ seg, c x = false)
    (r : List String) : (seg ++ r).filter c = r.filter c := by
  rw [List.filter_append, List.filter_eq_nil_iff.mpr, List.nil_append]
  intro a ha
  simp [h a ha]

theorem buildMaps_positions {names : List String} (nd : names.Nodup) {c : String → Bool} (n : ℕ) :
    ∀ (pre : List String) (a : String) (t : List String) (ii : ℕ), t.length ≤ n →
      names = pre ++ a :: t → c a = true →
      (∀ h : t ≠ [], c (t.getLast h) = true) →
      (buildMaps names ii ((a :: t).filter c)).flatMap (fun e => e.2.positions)
        = List.range' pre.length (t.length + 1) := by
  induction n with
  | zero =>
    intro pre a t ii hn e ha _
    have ht : t = [] := List.length_eq_zero_iff.mp (Nat.le_zero.mp hn)
    subst ht
    rw [List.filter_cons_of_pos ha, List.filter_nil, buildMaps]
    subst e
    rw [idxOf_append nd]
    simp [Item.positions]
  | succ n ih =>
    intro pre a t ii hn e ha hl
    by_cases ht : t = []
    · exact ih pre a t ii (by simp [ht]) e ha hl
    · obtain ⟨seg, b, t', et, hseg, hb⟩ := next_cut ht (hl ht)
      have e' : names = (pre ++ a :: seg) ++ b :: t' := by rw [e, et]; simp
      have ia : names.idxOf a = pre.length := by
        conv_lhs => rw [e]
        exact idxOf_append (e ▸ nd)
      have ib : names.idxOf b = pre.length + 1 + seg.length := by
        conv_lhs => rw [e']
        rw [idxOf_append (e' ▸ nd), List.length_append, List.length_cons]
        omega
      have hb' : ∀ h : t' ≠ [], c (t'.getLast h) = true := by
        intro h
        have := hl ht
        have hg : t.getLast ht = t'.getLast h := by
          subst et
          rw [List.getLast_append_of_ne_nil _ (List.cons_ne_nil b t'), List.getLast_cons h]
        rwa [hg] at this
      have rec' := ih (pre ++ a :: seg) b t' (ii + 1)
        (by rw [et] at hn; simp at hn; omega) e' hb hb'
      have ef : (a :: t).filter c = a :: b :: t'.filter c := by
        rw [List.filter_cons_of_pos ha, et, filter_skip hseg, List.filter_cons_of_pos hb]
      have ef' : (b :: t').filter c = b :: t'.filter c := List.filter_cons_of_pos hb
      rw [ef'] at rec'
      rw [ef, buildMaps, List.flatMap_cons, List.flatMap_append, rec', ia, ib]
      have nx : names[pre.length + 1]? = (seg ++ b :: t')[0]? := by
        rw [e, et, List.getElem?_append_right (by omega)]
        simp
      rw [nx]
      have len : t.length = seg.length + 1 + t'.length := by rw [et]; simp; omega
      cases seg with
      | nil =>
        simp only [List.nil_append, List.getElem?_cons_zero, if_true, List.flatMap_nil,
          Item.positions, len, List.length_nil, List.length_append, List.length_cons]
        rw [show 0 + 1 + t'.length + 1 = (t'.length + 1) + 1 by omega, List.range'_succ]
        rfl
      | cons x seg =>
        have hxb : x ≠ b := by
          rintro rfl
          have := hseg x List.mem_cons_self
          rw [hb] at this
          exact Bool.noConfusion this
        have : (some x : Option String) ≠ some b := fun h => hxb (Option.some.inj h)
        simp only [List.cons_append, List.getElem?_cons_zero, this, if_false, List.flatMap_cons,
          List.flatMap_nil, List.append_nil, Item.positions, len, List.length_append, List.length_cons]
        rw [show pre.length + 1 + (seg.length + 1) - (pre.length + 1) = seg.length + 1 by omega,
          ← List.append_assoc]
        rw [show pre.length + (seg.length + 1 + 1) = (pre.length + 1) + 1 * (seg.length + 1) by omega]
        rw [List.append_assoc, List.range'_append]
        rw [show seg.length + 1 + 1 + t'.length + 1 = (seg.length + 1 + (t'.length + 1)) + 1 by omega,
          List.range'_succ]
        rfl

theorem isCut_head {n : String} {t splitAt : List String} : isCut (n :: t) splitAt n = true := by
  simp [isCut]

theorem isCut_last {names splitAt : List String} (h : names ≠ []) :
    isCut names splitAt (names.getLast h) = true := by
  simp [isCut, List.getLast?_eq_some_getLast h]

/-- **C102.** Every element of the line is represented exactly once and in the same order in the new
line: either it is kept, or it is in the part replaced by one map. -/
theorem C102_cover {names splitAt : List String} (nd : names.Nodup) (hne : names ≠ [])
    {l : List (String × Item)} (h : lineWithMaps names splitAt = some l) :
    l.flatMap (fun e => e.2.positions) = List.range names.length := by
  unfold lineWithMaps at h
  split_ifs at h
  cases h
  cases names with
  | nil => exact absurd rfl hne
  | cons n t =>
    have := buildMaps_positions nd (c := isCut (n :: t) splitAt) t.length [] n t 0 le_rfl rfl
      isCut_head (fun h => by
        have := isCut_last (splitAt := splitAt) (names := n :: t) (by simp)
        rwa [List.getLast_cons h] at this)
    rw [this, List.length_cons, List.length_nil, List.range_eq_range']

theorem buildMaps_keep (names : List String) : ∀ (ii : ℕ) (cuts : List String) (n : String),
    n ∈ cuts → (n, Item.keep (names.idxOf n)) ∈ buildMaps names ii cuts
  | _, [], n, h => absurd h (by simp)
  | _, [a], n, h => by
    have : n = a := by simpa using h
    simp [buildMaps, this]
  | ii, a :: b :: r, n, h => by
    rw [buildMaps]
    rcases List.mem_cons.mp h with rfl | h
    · exact List.mem_cons_self
    · exact List.mem_cons_of_mem _ (List.mem_append_right _ (buildMaps_keep names (ii + 1) (b :: r) n h))

/-- **C102.** The split elements are kept as they are (and under their names), and also the first and
the last element of the line. -/
theorem C102_kept {names splitAt : List String} {l : List (String × Item)}
    (h : lineWithMaps names splitAt = some l) {n : String}
    (hn : n ∈ splitAt ∨ names.head? = some n ∨ names.getLast? = some n) :
    (n, Item.keep (names.idxOf n)) ∈ l := by
  unfold lineWithMaps at h
  split_ifs at h with ha
  cases h
  apply buildMaps_keep
  rw [List.mem_filter]
  constructor
  · rcases hn with h | h | h
    · have := List.all_eq_true.mp ha n h
      simpa using this
    · exact List.mem_of_head? h
    · exact List.mem_of_getLast? h
  · rcases hn with h | h | h <;> simp [isCut, h]

theorem lookup_nodup {α : Type} {l : List (String × α)} (nd : (l.map (·.1)).Nodup) {e : String × α}
    (he : e ∈ l) : l.lookup e.1 = some e.2 := by
  induction l with
  | nil => exact absurd he (by simp)
  | cons x l ih =>
    obtain ⟨n, v⟩ := x
    obtain ⟨m, w⟩ := e
    rw [List.map_cons, List.nodup_cons] at nd
    rcases List.mem_cons.mp he with h | h
    · cases h
      simp [List.lookup]
    · have : m ≠ n := by
        rintro rfl
        exact nd.1 (List.mem_map.mpr ⟨(m, w), h, rfl⟩)
      rw [List.lookup_cons, beq_false_of_ne this]
      exact ih nd.2 h

/-- With different names the elements given to `Line` are the ones of the line. -/
theorem dictZip_nodup {α : Type} {l : List (String × α)} (nd : (l.map (·.1)).Nodup) :
    dictZip l = l := by
  unfold dictZip
  conv_rhs => rw [← List.map_id l]
  refine List.map_congr_left fun e he => ?_
  have nd' : (l.reverse.map (·.1)).Nodup := by
    rw [List.map_reverse]
    exact List.nodup_reverse.mpr nd
  rw [lookup_nodup nd' (List.mem_reverse.mpr he)]
  rfl

/-- Names of the new line: those of the cuts and `map_ii` with `ii` from the loop counter on. -/
theorem buildMaps_names (names : List String) : ∀ (ii : ℕ) (cuts : List String) (e : String × Item),
    e ∈ buildMaps names ii cuts → (e.1 ∈ cuts ∧ e.2 = .keep (names.idxOf e.1))
      ∨ ∃ k, ii ≤ k ∧ e.1 = "map_" ++ k.repr
  | _, [], e, h => absurd h (by simp [buildMaps])
  | _, [a], e, h => by
    have : e = (a, .keep (names.idxOf a)) := by simpa [buildMaps] using h
    subst this
    exact Or.inl ⟨by simp, rfl⟩
  | ii, a :: b :: r, e, h => by
    rw [buildMaps] at h
    rcases List.mem_cons.mp h with rfl | h
    · exact Or.inl ⟨by simp, rfl⟩
    · rcases List.mem_append.mp h with h | h
      · split_ifs at h
        · exact absurd h (by simp)
        · have : e = ("map_" ++ ii.repr, .map (names.idxOf a + 1) (names.idxOf b)) := by
            simpa using h
          subst this
          exact Or.inr ⟨ii, le_rfl, rfl⟩
      · rcases buildMaps_names names (ii + 1) (b :: r) e h with h | ⟨k, hk, h⟩
        · exact Or.inl ⟨List.mem_cons_of_mem _ h.1, h.2⟩
        · exact Or.inr ⟨k, by omega, h⟩

theorem buildMaps_nodup {names : List String} : ∀ (ii : ℕ) (cuts : List String), cuts.Nodup →
    (∀ n ∈ cuts, ∀ k : ℕ, n ≠ "map_" ++ k.repr) → ((buildMaps names ii cuts).map (·.1)).Nodup
  | _, [], _, _ => by simp [buildMaps]
  | _, [a], _, _ => by simp [buildMaps]
  | ii, a :: b :: r, nd, hm => by
    rw [List.nodup_cons] at nd
    have ih := buildMaps_nodup (names := names) (ii + 1) (b :: r) nd.2
      fun n hn => hm n (List.mem_cons_of_mem _ hn)
    rw [buildMaps, List.map_cons, List.map_append, List.nodup_cons]
    have na : ∀ m ∈ (buildMaps names (ii + 1) (b :: r)).map (·.1), m ≠ a ∧ m ≠ "map_" ++ ii.repr := by
      intro m hmm
      obtain ⟨e, he, rfl⟩ := List.mem_map.mp hmm
      rcases buildMaps_names names _ _ e he with h | ⟨k, hk, h⟩
      · refine ⟨?_, hm _ (List.mem_cons_of_mem _ h.1) ii⟩
        intro h'
        exact nd.1 (h' ▸ h.1)
      · refine ⟨?_, ?_⟩
        · intro h'
          exact hm a List.mem_cons_self k (h'.symm.trans h)
        · intro h'
          have := Names.numbered_injective "map_" (h'.symm.trans h)
          omega
    split_ifs with hx
    · refine ⟨?_, by simpa using ih⟩
      intro h
      exact (na a (by simpa using h)).1 rfl
    · refine ⟨?_, ?_⟩
      · intro h
        rcases List.mem_append.mp h with h | h
        · have : a = "map_" ++ ii.repr := by simpa using h
          exact hm a List.mem_cons_self ii this
        · exact (na a h).1 rfl
      · rw [List.nodup_append]
        refine ⟨by simp, ih, ?_⟩
        intro x hx y hy
        have : x = "map_" ++ ii.repr := by simpa using hx
        rw [this]
        exact fun h => (na y hy).2 h.symm

theorem run_append (a b : List (Vec → Vec)) (z : Vec) : run (a ++ b) z = run b (run a z) := by
  unfold run
  rw [List.foldl_append]

theorem run_items (els : List (Vec → Vec)) (fit : ℕ → ℕ → Vec → Vec) :
    ∀ (l : List (String × Item)),
    (∀ e ∈ l, ∀ i ∈ e.2.positions, i < els.length) →
    (∀ e ∈ l, ∀ i j, e.2 = .map i j → fit i j = run (((List.range' i (j - i)).map fun k => (els[k]?).getD id))) →
    ∀ z, run (l.map fun e => e.2.act els fit) z
      = run ((l.flatMap fun e => e.2.positions).map fun k => (els[k]?).getD id) z
  | [], _, _, z => rfl
  | e :: l, hp, hf, z => by
    rw [List.map_cons, List.flatMap_cons, List.map_append, run_append]
    have ih := run_items els fit l (fun e he => hp e (List.mem_cons_of_mem _ he))
      (fun e he => hf e (List.mem_cons_of_mem _ he))
    have : run ((e.2.positions).map fun k => (els[k]?).getD id) z = e.2.act els fit z := by
      rcases h : e.2 with i | ⟨i, j⟩
      · rfl
      · show _ = fit i j z
        rw [hf e List.mem_cons_self i j h]
        rfl
    rw [this, ← ih]
    rfl

/-- **C102.** Tracking through the new line is tracking through the old one, if each map reproduces the
part for which it stands (see C99) and no kept element has the name of a map. -/
theorem C102_track_partial {names splitAt : List String} (nd : names.Nodup) (hne : names ≠ [])
    (els : List (Vec → Vec)) (hlen : els.length = names.length)
    (fit : ℕ → ℕ → Vec → Vec) {l : List (String × Item)} (h : lineWithMaps names splitAt = some l)
    (hmap : ∀ n ∈ names, ∀ k : ℕ, n ≠ "map_" ++ k.repr)
    (hfit : ∀ e ∈ l, ∀ i j, e.2 = .map i j → fit i j = run ((els.take j).drop i)) (z : Vec) :
    run ((dictZip l).map fun e => e.2.act els fit) z = run els z := by
  have cover := C102_cover nd hne h
  have ndl : (l.map (·.1)).Nodup := by
    unfold lineWithMaps at h
    split_ifs at h
    cases h
    exact buildMaps_nodup 0 _ (nd.filter _) fun n hn => hmap n (List.mem_filter.mp hn).1
  rw [dictZip_nodup ndl]
  have hall : ∀ (n : ℕ), (List.range n).map (fun k => (els[k]?).getD id) = els.take n ∨ els.length < n := by
    intro n
    by_cases hn : els.length < n
    · exact Or.inr hn
    · left
      apply List.ext_getElem (by simp; omega)
      intro i h1 h2
      simp at h1 h2
      rw [List.getElem_map, List.getElem_range, List.getElem_take, List.getElem?_eq_getElem (by omega)]
      rfl
  have pos : ∀ e ∈ l, ∀ i ∈ e.2.positions, i < els.length := by
    intro e he i hi
    have : i ∈ l.flatMap fun e => e.2.positions := List.mem_flatMap.mpr ⟨e, he, hi⟩
    rw [cover, List.mem_range] at this
    omega
  rw [run_items els fit l pos]
  · rw [cover]
    rcases hall names.length with e | e
    · rw [e, ← hlen, List.take_length]
    · omega
  · intro e he i j hij
    rw [hfit e he i j hij]
    congr 1
    apply List.ext_getElem
    · rw [List.length_drop, List.length_take, List.length_map, List.length_range']
      by_cases hji : i < j
      · have : j - 1 < els.length := pos e he (j - 1) (by
          rw [hij]; simp [Item.positions, List.mem_range']
          exact ⟨j - 1 - i, by omega, by omega⟩)
        omega
      · omega
    · intro k h1 h2
      rw [List.length_drop, List.length_take] at h1
      rw [List.getElem_drop, List.getElem_take, List.getElem_map, List.getElem_range',
        List.getElem?_eq_getElem (by omega)]
      simp

theorem buildMaps_order {names : List String} (nd : names.Nodup) {c : String → Bool} (n : ℕ) :
    ∀ (pre : List String) (a : String) (t : List String) (ii : ℕ), t.length ≤ n →
      names = pre ++ a :: t → c a = true →
      (∀ h : t ≠ [], c (t.getLast h) = true) →
      ∀ e ∈ buildMaps names ii ((a :: t).filter c), ∀ i j, e.2 = .map i j → i ≤ j := by
  induction n with
  | zero =>
    intro pre a t ii hn e ha _
    have ht : t = [] := List.length_eq_zero_iff.mp (Nat.le_zero.mp hn)
    subst ht
    rw [List.filter_cons_of_pos ha, List.filter_nil, buildMaps]
    intro x hx i j h
    rw [List.mem_singleton] at hx
    rw [hx] at h
    exact absurd h (by simp)
  | succ n ih =>
    intro pre a t ii hn e ha hl
    by_cases ht : t = []
    · exact ih pre a t ii (by simp [ht]) e ha hl
    · obtain ⟨seg, b, t', et, hseg, hb⟩ := next_cut ht (hl ht)
      have e' : names = (pre ++ a :: seg) ++ b :: t' := by rw [e, et]; simp
      have ia : names.idxOf a = pre.length := by
        conv_lhs => rw [e]
        exact idxOf_append (e ▸ nd)
      have ib : names.idxOf b = pre.length + 1 + seg.length := by
        conv_lhs => rw [e']
        rw [idxOf_append (e' ▸ nd), List.length_append, List.length_cons]
        omega
      have hb' : ∀ h : t' ≠ [], c (t'.getLast h) = true := by
        intro h
        have := hl ht
        have hg : t.getLast ht = t'.getLast h := by
          subst et
          rw [List.getLast_append_of_ne_nil _ (List.cons_ne_nil b t'), List.getLast_cons h]
        rwa [hg] at this
      have rec' := ih (pre ++ a :: seg) b t' (ii + 1)
        (by rw [et] at hn; simp at hn; omega) e' hb hb'
      have ef : (a :: t).filter c = a :: b :: t'.filter c := by
        rw [List.filter_cons_of_pos ha, et, filter_skip hseg, List.filter_cons_of_pos hb]
      rw [List.filter_cons_of_pos hb] at rec'
      rw [ef, buildMaps]
      intro x hx i j h
      rcases List.mem_cons.mp hx with rfl | hx
      · exact absurd h (by simp)
      · rcases List.mem_append.mp hx with hx | hx
        · split_ifs at hx
          · exact absurd hx (by simp)
          · rw [List.mem_singleton] at hx
            rw [hx, Item.map.injEq, ia, ib] at h
            omega
        · exact rec' x hx i j h

/-- `s` at the entrance of the element `k`, from the lengths of the elements. -/
def sAt (len : ℕ → ℝ) (k : ℕ) : ℝ := ((List.range k).map len).sum

/-- Length of an item: a map is given the difference of `s` of its ends (C99). -/
def Item.length (len : ℕ → ℝ) : Item → ℝ
  | .keep i => len i
  | .map i j => sAt len j - sAt len i

theorem sAt_range (len : ℕ → ℝ) {i j : ℕ} (h : i ≤ j) :
    ((List.range' i (j - i)).map len).sum = sAt len j - sAt len i := by
  obtain ⟨d, rfl⟩ := Nat.exists_eq_add_of_le h
  have : List.range (i + d) = List.range i ++ List.range' i d := by
    rw [List.range_eq_range', List.range_eq_range', ← List.range'_append]
    simp
  rw [sAt, sAt, this, List.map_append, List.sum_append, Nat.add_sub_cancel_left]
  ring

/-- **C102.** The length of the line stays the same, and with it `s` at the kept elements. -/
theorem C102_length {names splitAt : List String} (nd : names.Nodup) (hne : names ≠ [])
    (len : ℕ → ℝ) {l : List (String × Item)} (h : lineWithMaps names splitAt = some l) :
    (l.map fun e => e.2.length len).sum = sAt len names.length := by
  have ord : ∀ e ∈ l, ∀ i j, e.2 = .map i j → i ≤ j := by
    unfold lineWithMaps at h
    split_ifs at h
    cases h
    cases names with
    | nil => exact absurd rfl hne
    | cons n t =>
      exact buildMaps_order nd (c := isCut (n :: t) splitAt) t.length [] n t 0 le_rfl rfl
        isCut_head (fun h => by
          have := isCut_last (splitAt := splitAt) (names := n :: t) (by simp)
          rwa [List.getLast_cons h] at this)
  rw [sAt, ← C102_cover nd hne h, List.map_flatMap]
  clear h
  induction l with
  | nil => rfl
  | cons e l ih =>
    rw [List.map_cons, List.sum_cons, List.flatMap_cons, List.sum_append,
      ih fun x hx => ord x (List.mem_cons_of_mem _ hx)]
    congr 1
    rcases he : e.2 with i | ⟨i, j⟩
    · simp [Item.length, Item.positions]
    · rw [Item.length, Item.positions, sAt_range len (ord e List.mem_cons_self i j he)]

/-- A line of five elements split at the third one. -/
example : lineWithMaps ["a", "d1", "oct", "d2", "b"] ["oct"]
    = some [("a", .keep 0), ("map_0", .map 1 2), ("oct", .keep 2), ("map_1", .map 3 4),
      ("b", .keep 4)] := by decide

/-- **C102.** A kept element which has the name of a map replaces this map: in the new line of
`a, d, map_0, b`, split at `map_0`, the element `map_0` is passed twice and `d` never. -/
theorem C102_names_violated :
    ∃ l, lineWithMaps ["a", "d", "map_0", "b"] ["map_0"] = some l
      ∧ l = [("a", .keep 0), ("map_0", .map 1 2), ("map_0", .keep 2), ("b", .keep 3)]
      ∧ dictZip l = [("a", .keep 0), ("map_0", .keep 2), ("map_0", .keep 2), ("b", .keep 3)] := by
  refine ⟨_, rfl, ?_, ?_⟩ <;> decide

end Verif.Taylor
