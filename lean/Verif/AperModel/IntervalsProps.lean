import Verif.AperModel.Intervals

/-!
C152: intervals of positions on a ring.
C153: the optics used at a position are those of the nearest row.
-/
namespace Verif.AperModel.Intervals

/-- The position `x` lies on the arc which begins at `a` and extends over the length `len` in the direction of the beam. -/
def OnArc (L a len x : Rat) : Prop := ∃ (t : Rat) (k : Int), 0 ≤ t ∧ t ≤ len ∧ x = a + t + L * k

theorem md_range {x L : Rat} (hL : 0 < L) : 0 ≤ md x L ∧ md x L < L := by
  unfold md
  have h1 := Int.floor_le (x / L)
  have h2 := Int.lt_floor_add_one (x / L)
  rw [le_div_iff₀ hL] at h1
  rw [div_lt_iff₀ hL] at h2
  constructor <;> linarith

theorem md_unique {x L r : Rat} {k : Int} (hL : 0 < L) (h0 : 0 ≤ r) (h1 : r < L) (h : x = r + L * k) : md x L = r := by
  have : ⌊x / L⌋ = k := by
    rw [Int.floor_eq_iff]
    constructor
    · rw [le_div_iff₀ hL]; linarith
    · rw [div_lt_iff₀ hL]; linarith
  unfold md
  rw [this, h]
  ring

theorem md_eq (x L : Rat) : x = md x L + L * ⌊x / L⌋ := by unfold md; ring

/-- The length of arc from `a` to `x`. -/
theorem onArc_iff {L a len x : Rat} (hL : 0 < L) : OnArc L a len x ↔ md (x - a) L ≤ len := by
  constructor
  · rintro ⟨t, k, h0, h1, h⟩
    by_cases ht : t < L
    · rw [md_unique (k := k) hL h0 ht (by linarith)]; exact h1
    · have := (md_range (x := x - a) hL).2; linarith
  · intro h
    exact ⟨md (x - a) L, ⌊(x - a) / L⌋, (md_range hL).1, h, by have := md_eq (x - a) L; linarith⟩

theorem sorted_perm (l : List Rat) : (sorted l).Perm l := List.perm_insertionSort _ l

theorem sorted_pairwise (l : List Rat) : (sorted l).Pairwise (· ≤ ·) := by
  exact List.pairwise_insertionSort (· ≤ ·) l

theorem widest_spec (q : List Rat) (L : Rat) : ∀ n, 0 < n → widest q L n < n ∧ ∀ i, i < n → gap q L i ≤ gap q L (widest q L n) := by
  intro n
  induction n with
  | zero => intro h; omega
  | succ n ih =>
    intro _
    rcases Nat.eq_zero_or_pos n with h0 | h0
    · subst h0
      have hw : widest q L (0 + 1) = 0 := by simp [widest]
      rw [hw]
      exact ⟨by omega, fun i hi => by rw [show i = 0 by omega]⟩
    · obtain ⟨h1, h2⟩ := ih h0
      unfold widest
      by_cases hc : gap q L (widest q L n) < gap q L n
      · rw [if_pos hc]
        refine ⟨by omega, fun i hi => ?_⟩
        rcases Nat.lt_or_ge i n with h | h
        · exact le_of_lt (lt_of_le_of_lt (h2 i h) hc)
        · rw [show i = n by omega]
      · rw [if_neg hc]
        refine ⟨by omega, fun i hi => ?_⟩
        rcases Nat.lt_or_ge i n with h | h
        · exact h2 i h
        · rw [show i = n by omega]; exact not_lt.mp hc

/-- Facts about reduced points in order. -/
structure Ring (q : List Rat) (L : Rat) : Prop where
  pos : 0 < L
  two : 2 ≤ q.length
  order : ∀ i j, i ≤ j → j < q.length → q.getD i 0 ≤ q.getD j 0
  range : ∀ i, i < q.length → 0 ≤ q.getD i 0 ∧ q.getD i 0 < L

theorem span_eq {q : List Rat} {L : Rat} (h : Ring q L) :
    md (q.getD (widest q L q.length) 0 - q.getD ((widest q L q.length + 1) % q.length) 0) L = L - gap q L (widest q L q.length) := by
  obtain ⟨hw, hmax⟩ := widest_spec q L q.length (by have := h.two; omega)
  have hlast := hmax (q.length - 1) (by omega)
  have hgl : gap q L (q.length - 1) = q.getD 0 0 + L - q.getD (q.length - 1) 0 := by
    unfold gap; rw [if_neg (by omega)]
  have r0 := h.range 0 (by omega)
  have rl := h.range (q.length - 1) (by omega)
  have rw_ := h.range _ hw
  generalize hW : widest q L q.length = w at *
  by_cases hc : w + 1 < q.length
  · have hg : gap q L w = q.getD (w + 1) 0 - q.getD w 0 := by unfold gap; rw [if_pos hc]
    rw [Nat.mod_eq_of_lt hc]
    have r1 := h.range (w + 1) hc
    exact md_unique (k := -1) h.pos (by linarith) (by linarith) (by push_cast; linarith)
  · have hn : w + 1 = q.length := by omega
    have hg : gap q L w = q.getD 0 0 + L - q.getD w 0 := by unfold gap; rw [if_neg hc]
    rw [hn, Nat.mod_self]
    have := h.order 0 w (by omega) hw
    exact md_unique (k := 0) h.pos (by linarith) (by linarith) (by push_cast; linarith)

theorem covers {q : List Rat} {L : Rat} (h : Ring q L) {i : Nat} (hi : i < q.length) :
    md (q.getD i 0 - q.getD ((widest q L q.length + 1) % q.length) 0) L ≤ L - gap q L (widest q L q.length) := by
  obtain ⟨hw, hmax⟩ := widest_spec q L q.length (by have := h.two; omega)
  have hlast := hmax (q.length - 1) (by omega)
  have hgl : gap q L (q.length - 1) = q.getD 0 0 + L - q.getD (q.length - 1) 0 := by
    unfold gap; rw [if_neg (by omega)]
  have r0 := h.range 0 (by omega)
  have rl := h.range (q.length - 1) (by omega)
  have rw_ := h.range _ hw
  have ri := h.range i hi
  generalize hW : widest q L q.length = w at *
  by_cases hc : w + 1 < q.length
  · have hg : gap q L w = q.getD (w + 1) 0 - q.getD w 0 := by unfold gap; rw [if_pos hc]
    rw [Nat.mod_eq_of_lt hc]
    have r1 := h.range (w + 1) hc
    rcases Nat.lt_or_ge i (w + 1) with h1 | h1
    · have o := h.order i w (by omega) hw
      rw [md_unique (k := -1) (r := q.getD i 0 - q.getD (w + 1) 0 + L) h.pos (by linarith) (by linarith) (by push_cast; linarith)]
      linarith
    · have o := h.order (w + 1) i h1 hi
      rw [md_unique (k := 0) (r := q.getD i 0 - q.getD (w + 1) 0) h.pos (by linarith) (by linarith) (by push_cast; linarith)]
      linarith
  · have hn : w + 1 = q.length := by omega
    have hg : gap q L w = q.getD 0 0 + L - q.getD w 0 := by unfold gap; rw [if_neg hc]
    rw [hn, Nat.mod_self]
    have o1 := h.order 0 i (by omega) hi
    have o2 := h.order i w (by omega) hw
    rw [md_unique (k := 0) (r := q.getD i 0 - q.getD 0 0) h.pos (by linarith) (by linarith) (by push_cast; linarith)]
    linarith

theorem minimal {q : List Rat} {L : Rat} (h : Ring q L) {a len : Rat} (ha : 0 ≤ a ∧ a < L)
    (hc : ∀ i, i < q.length → md (q.getD i 0 - a) L ≤ len) : L - gap q L (widest q L q.length) ≤ len := by
  obtain ⟨hw, hmax⟩ := widest_spec q L q.length (by have := h.two; omega)
  have hlast := hmax (q.length - 1) (by omega)
  have hgl : gap q L (q.length - 1) = q.getD 0 0 + L - q.getD (q.length - 1) 0 := by
    unfold gap; rw [if_neg (by omega)]
  have two := h.two
  have r0 := h.range 0 (by omega)
  have rl := h.range (q.length - 1) (by omega)
  have cl := hc (q.length - 1) (by omega)
  have ol := h.order 0 (q.length - 1) (by omega) (by omega)
  by_cases hall : q.getD (q.length - 1) 0 < a
  · rw [md_unique (k := -1) (r := q.getD (q.length - 1) 0 - a + L) h.pos (by linarith) (by linarith) (by push_cast; linarith)] at cl
    linarith
  · by_cases hnone : a ≤ q.getD 0 0
    · rw [md_unique (k := 0) (r := q.getD (q.length - 1) 0 - a) h.pos (by linarith) (by linarith) (by push_cast; linarith)] at cl
      linarith
    · -- some are before `a`, some are not: find the place where it changes
      have ex : ∃ k, k + 1 < q.length ∧ q.getD k 0 < a ∧ a ≤ q.getD (k + 1) 0 := by
        by_contra hno
        have all : ∀ k, k < q.length → q.getD k 0 < a := by
          intro k
          induction k with
          | zero => intro _; exact not_le.mp hnone
          | succ k ih =>
            intro hk
            by_contra hh
            exact hno ⟨k, hk, ih (by omega), not_lt.mp hh⟩
        exact hall (all (q.length - 1) (by omega))
      obtain ⟨k, hk, h1, h2⟩ := ex
      have rk := h.range k (by omega)
      have g := hmax k (by omega)
      have hg : gap q L k = q.getD (k + 1) 0 - q.getD k 0 := by unfold gap; rw [if_pos hk]
      have ck := hc k (by omega)
      rw [md_unique (k := -1) (r := q.getD k 0 - a + L) h.pos (by linarith) (by linarith) (by push_cast; linarith)] at ck
      linarith

theorem md_sub_md {x a L : Rat} (hL : 0 < L) : md (md x L - a) L = md (x - a) L := by
  refine md_unique (k := ⌊(x - a) / L⌋ - ⌊x / L⌋) hL (md_range hL).1 (md_range hL).2 ?_
  have h1 := md_eq x L
  have h2 := md_eq (x - a) L
  push_cast
  linarith

theorem md_sub_md_right {x a L : Rat} (hL : 0 < L) : md (x - md a L) L = md (x - a) L := by
  refine md_unique (k := ⌊(x - a) / L⌋ + ⌊a / L⌋) hL (md_range hL).1 (md_range hL).2 ?_
  have h1 := md_eq a L
  have h2 := md_eq (x - a) L
  push_cast
  linarith

/-- **C152 (shortest interval).** The interval given contains all the points, it ends at its end, and every arc which contains all the
points is at least as long. -/
theorem C152_shortest (points : List Rat) (L : Rat) (hL : 0 < L) (hne : points ≠ []) :
    ∃ s e span, shortest points L = some (s, e, span) ∧ 0 ≤ span ∧ (∀ p ∈ points, OnArc L s span p) ∧
      (∃ k : Int, e = s + span + L * k) ∧
      ∀ a len, (∀ p ∈ points, OnArc L a len p) → span ≤ len := by
  have hlen : (sorted (points.map (md · L))).length = points.length := by
    rw [(sorted_perm _).length_eq, List.length_map]
  have hmem : ∀ x, x ∈ sorted (points.map (md · L)) ↔ ∃ p ∈ points, md p L = x := by
    intro x; rw [(sorted_perm _).mem_iff, List.mem_map]
  have hso := sorted_pairwise (points.map (md · L))
  have hpos : 0 < points.length := List.length_pos_iff.mpr hne
  unfold shortest
  generalize sorted (points.map (md · L)) = q at *
  match q, hlen, hmem, hso with
  | [], hlen, _, _ => simp at hlen; omega
  | [p], _, hmem, _ =>
    refine ⟨p, p, 0, rfl, le_rfl, ?_, ⟨0, by push_cast; ring⟩, ?_⟩
    · intro x hx
      have h1 : md x L = p := by
        have := (hmem (md x L)).mpr ⟨x, hx, rfl⟩
        simpa using this
      exact ⟨0, ⌊x / L⌋, le_rfl, le_rfl, by have := md_eq x L; linarith⟩
    · intro a len hc
      obtain ⟨x, hx⟩ := List.exists_mem_of_ne_nil _ hne
      obtain ⟨t, k, h1, h2, -⟩ := hc x hx
      linarith
  | x :: y :: rest, hlen, hmem, hso =>
    have hr : Ring (x :: y :: rest) L := by
      refine ⟨hL, by simp, ?_, ?_⟩
      · intro i j hij hj
        rcases Nat.lt_or_ge i j with h | h
        · have := List.pairwise_iff_getElem.mp hso i j (by omega) hj h
          rw [List.getD_eq_getElem _ _ (by omega), List.getD_eq_getElem _ _ hj]
          exact this
        · rw [show i = j by omega]
      · intro i hi
        have : (x :: y :: rest).getD i 0 ∈ x :: y :: rest := by
          rw [List.getD_eq_getElem _ _ hi]; exact List.getElem_mem hi
        obtain ⟨p, -, hp⟩ := (hmem _).mp this
        rw [← hp]
        exact md_range hL
    generalize hq : x :: y :: rest = q at *
    have hspan := span_eq hr
    obtain ⟨hw, -⟩ := widest_spec q L q.length (by have := hr.two; omega)
    refine ⟨q.getD ((widest q L q.length + 1) % q.length) 0, q.getD (widest q L q.length) 0,
      md (q.getD (widest q L q.length) 0 - q.getD ((widest q L q.length + 1) % q.length) 0) L, ?_, (md_range hL).1, ?_, ?_, ?_⟩
    · subst hq; rfl
    · intro p hp
      rw [onArc_iff hL, hspan, ← md_sub_md hL]
      obtain ⟨i, hi, he⟩ := List.getElem_of_mem ((hmem (md p L)).mpr ⟨p, hp, rfl⟩)
      have := covers hr hi
      rw [List.getD_eq_getElem _ _ hi, he] at this
      exact this
    · exact ⟨_, by
        have := md_eq (q.getD (widest q L q.length) 0 - q.getD ((widest q L q.length + 1) % q.length) 0) L
        linarith⟩
    · intro a len hc
      rw [hspan]
      refine minimal hr (a := md a L) (md_range hL) fun i hi => ?_
      have hm : q.getD i 0 ∈ q := by rw [List.getD_eq_getElem _ _ hi]; exact List.getElem_mem hi
      obtain ⟨p, hp, he⟩ := (hmem _).mp hm
      rw [← he, md_sub_md hL, md_sub_md_right hL]
      exact (onArc_iff hL).mp (hc p hp)

/-- For example across the end of the line. -/
example : shortest [1, 98, 3] 100 = some (98, 3, 5) := by decide +kernel

/-- **C152 (cut, partial).** An interval on a ring is cut into pieces of the line which lie on the arc from its start to its end, and
which contain every position of that arc, but for a tolerance at the end of the line. What is missing: `h` excludes an end which,
reduced to the ring, comes at or less than the tolerance before the start; see `C152_whole_violated`. -/
theorem C152_split_partial (start stop L tol : Rat) (hL : 0 < L) (ht : 0 ≤ tol)
    (h : md start L ≤ md stop L ∨ md stop L + tol < md start L) (x : Rat) (hx : tol < x ∧ x < L - tol) :
    (∃ p ∈ split start stop L true tol, p.1 ≤ x ∧ x ≤ p.2) ↔ OnArc L start (md (stop - start) L) x := by
  have ra := md_range (x := start) hL
  have rb := md_range (x := stop) hL
  rw [onArc_iff hL, ← md_sub_md_right hL, ← md_sub_md_right (x := stop) hL, ← md_sub_md (x := stop) hL]
  unfold split
  rw [if_pos rfl]
  generalize md start L = a at *
  generalize md stop L = b at *
  have hsplit : (∃ p ∈ (if a > b + tol then [(a, L), ((0 : Rat), b)].filter (fun p => decide (p.2 - p.1 > tol)) else [(a, b)]), p.1 ≤ x ∧ x ≤ p.2) ↔
      md (x - a) L ≤ md (b - a) L := by
    rcases h with h | h
    · rw [if_neg (by linarith)]
      rw [md_unique (x := b - a) (k := 0) (r := b - a) hL (by linarith) (by linarith) (by push_cast; ring)]
      by_cases hxa : a ≤ x
      · rw [md_unique (k := 0) (r := x - a) hL (by linarith) (by linarith) (by push_cast; ring)]
        simp [hxa]
      · rw [md_unique (k := -1) (r := x - a + L) hL (by linarith) (by linarith) (by push_cast; ring)]
        simp [hxa]
        linarith
    · rw [if_pos h]
      rw [md_unique (x := b - a) (k := -1) (r := b - a + L) hL (by linarith) (by linarith) (by push_cast; ring)]
      have lhs : (∃ p ∈ [(a, L), ((0 : Rat), b)].filter (fun p => decide (p.2 - p.1 > tol)), p.1 ≤ x ∧ x ≤ p.2) ↔ a ≤ x ∨ x ≤ b := by
        constructor
        · rintro ⟨p, hp, h1, h2⟩
          simp only [List.mem_filter, List.mem_cons, List.not_mem_nil, or_false] at hp
          rcases hp.1 with rfl | rfl
          · exact Or.inl h1
          · exact Or.inr h2
        · rintro (h1 | h1)
          · refine ⟨(a, L), ?_, h1, by dsimp only; linarith⟩
            simp only [List.mem_filter, List.mem_cons, true_or, true_and, decide_eq_true_eq]
            linarith
          · refine ⟨(0, b), ?_, by dsimp only; linarith, h1⟩
            simp only [List.mem_filter, List.mem_cons, List.not_mem_nil, or_false, or_true, true_and, decide_eq_true_eq]
            linarith
      rw [lhs]
      by_cases hxa : a ≤ x
      · rw [md_unique (k := 0) (r := x - a) hL (by linarith) (by linarith) (by push_cast; ring)]
        constructor
        · intro _; linarith
        · intro _; exact Or.inl hxa
      · rw [md_unique (k := -1) (r := x - a + L) hL (by linarith) (by linarith) (by push_cast; ring)]
        constructor
        · rintro (h1 | h1)
          · exact absurd h1 hxa
          · linarith
        · intro h1; right; linarith
  exact hsplit

example : split 90 110 100 true (1 / 1000) = [(90, 100), (0, 10)] := by decide +kernel

/-- Intervals on a line stay as they are. -/
theorem C152_line (start stop L tol : Rat) : split start stop L false tol = [(start, stop)] := rfl

/-- **C152 fails** for the whole ring: the end of the line is reduced to its beginning, and from `(0, L)` the single point 0 is
left. `s_around_transitions(s_range=(0, L))` then returns none of the transitions inside the ring, and without a range all of them. -/
theorem C152_whole_violated : split 0 100 100 true (1 / 1000) = [(0, 0)] ∧
    around [20, 40] 100 1 true (some (0, 100)) = [] ∧ around [20, 40] 100 1 true none = [19, 39, 21, 41] := by
  refine ⟨?_, ?_, ?_⟩ <;> decide +kernel

/-- Positions around transitions: every one lies on the line and, if a range is given, in one of its pieces. -/
theorem C152_around (bounds : List Rat) (L tol : Rat) (hL : 0 ≤ L) (ring : Bool) (range : Option (Rat × Rat)) :
    ∀ s ∈ around bounds L tol ring range, (0 ≤ s ∧ s ≤ L) ∧
      ∀ r, range = some r → ∃ p ∈ split r.1 r.2 L ring tol, p.1 ≤ s ∧ s ≤ p.2 := by
  have hclip : ∀ x, 0 ≤ clip L x ∧ clip L x ≤ L := by
    intro x
    unfold clip
    split
    · exact ⟨le_rfl, hL⟩
    · split
      · exact ⟨hL, le_rfl⟩
      · constructor <;> linarith
  intro s hs
  cases range with
  | none =>
    refine ⟨?_, fun r h => by cases h⟩
    simp only [around, List.mem_map] at hs
    obtain ⟨x, -, rfl⟩ := hs
    exact hclip x
  | some r =>
    simp only [around, List.mem_filter, List.mem_map] at hs
    obtain ⟨⟨x, -, rfl⟩, h2⟩ := hs
    refine ⟨hclip x, fun r' h => ?_⟩
    cases h
    simpa using h2

/-- Both sides of every transition away from the ends of the line are among them. -/
theorem C152_both_sides (bounds : List Rat) (L tol : Rat) (ring : Bool) (b : Rat) (hb : b ∈ bounds) (h0 : 0 ≤ b - tol) (h1 : b + tol ≤ L)
    (ht : 0 ≤ tol) : b - tol ∈ around bounds L tol ring none ∧ b + tol ∈ around bounds L tol ring none := by
  have c1 : clip L (b - tol) = b - tol := by unfold clip; rw [if_neg (by linarith), if_neg (by linarith)]
  have c2 : clip L (b + tol) = b + tol := by unfold clip; rw [if_neg (by linarith), if_neg (by linarith)]
  constructor
  · simp only [around, List.mem_map, List.mem_append]
    exact ⟨b - tol, Or.inl ⟨b, hb, rfl⟩, c1⟩
  · simp only [around, List.mem_map, List.mem_append]
    exact ⟨b + tol, Or.inr ⟨b, hb, rfl⟩, c2⟩

example : (19 : Rat) ∈ around [20, 40] 100 1 true none := by decide +kernel

/-! ## C153 -/

theorem countP_sorted {t : List Rat} (ht : t.Pairwise (· ≤ ·)) (f : Rat → Bool) (hf : ∀ a b, a ≤ b → f b = true → f a = true) (i : Nat)
    (hi : i < t.length) : i < t.countP f ↔ f t[i] = true := by
  induction t generalizing i with
  | nil => simp at hi
  | cons x rest ih =>
    have hp := List.pairwise_cons.mp ht
    by_cases hx : f x = true
    · rw [List.countP_cons_of_pos hx]
      cases i with
      | zero => simp [hx]
      | succ i =>
        simp only [List.getElem_cons_succ]
        rw [← ih hp.2 i (by simpa using hi)]
        omega
    · have h0 : rest.countP f = 0 := by
        rw [List.countP_eq_zero]
        intro y hy hfy
        exact hx (hf x y (hp.1 y hy) hfy)
      rw [List.countP_cons_of_neg hx, h0]
      constructor
      · intro h; omega
      · intro h
        exfalso
        cases i with
        | zero => exact hx (by simpa using h)
        | succ i =>
          simp only [List.getElem_cons_succ] at h
          exact hx (hf x _ (hp.1 _ (List.getElem_mem _)) h)

/-- **C153.** The row taken for a position is a row of the table, and none is nearer to the position asked for. -/
theorem C153_nearest (t : List Rat) (ht : t.Pairwise (· ≤ ·)) (hne : t ≠ []) (s : Rat) :
    nearest t s < t.length ∧ ∀ i, i < t.length → |t.getD (nearest t s) 0 - s| ≤ |t.getD i 0 - s| := by
  have hpos : 0 < t.length := List.length_pos_iff.mpr hne
  have hcl : ∀ i : Int, clipIdx t.length i < t.length := by
    intro i; unfold clipIdx; omega
  have mono : ∀ i j, i ≤ j → j < t.length → t.getD i 0 ≤ t.getD j 0 := by
    intro i j hij hj
    rcases Nat.lt_or_ge i j with h | h
    · rw [List.getD_eq_getElem _ _ (by omega), List.getD_eq_getElem _ _ hj]
      exact List.pairwise_iff_getElem.mp ht i j (by omega) hj h
    · rw [show i = j by omega]
  have hR : ∀ i, i < t.length → (i < searchRight t s ↔ t.getD i 0 ≤ s) := by
    intro i hi
    rw [List.getD_eq_getElem _ _ hi]
    have := countP_sorted ht (fun x => decide (x ≤ s)) (by intro a b hab; simp; intro h; linarith) i hi
    simpa [searchRight] using this
  have hLf : ∀ i, i < t.length → (i < searchLeft t s ↔ t.getD i 0 < s) := by
    intro i hi
    rw [List.getD_eq_getElem _ _ hi]
    have := countP_sorted ht (fun x => decide (x < s)) (by intro a b hab; simp; intro h; linarith) i hi
    simpa [searchLeft] using this
  have rle : searchRight t s ≤ t.length := List.countP_le_length
  have lle : searchLeft t s ≤ t.length := List.countP_le_length
  -- the two candidates bracket the position
  have best : ∀ i, i < t.length → |t.getD (clipIdx t.length (searchLeft t s)) 0 - s| ≤ |t.getD i 0 - s| ∨
      |t.getD (clipIdx t.length ((searchRight t s : Int) - 1)) 0 - s| ≤ |t.getD i 0 - s| := by
    intro i hi
    by_cases hc : t.getD i 0 ≤ s
    · right
      have h1 := (hR i hi).mpr hc
      have e : clipIdx t.length ((searchRight t s : Int) - 1) = searchRight t s - 1 := by unfold clipIdx; omega
      rw [e]
      have h2 : t.getD (searchRight t s - 1) 0 ≤ s := (hR _ (by omega)).mp (by omega)
      have h3 := mono i (searchRight t s - 1) (by omega) (by omega)
      rw [abs_of_nonpos (by linarith), abs_of_nonpos (by linarith)]
      linarith
    · left
      have h1 : ¬ i < searchLeft t s := by rw [hLf i hi]; intro h; linarith
      have e : clipIdx t.length (searchLeft t s) = searchLeft t s := by unfold clipIdx; omega
      rw [e]
      have h2 : s ≤ t.getD (searchLeft t s) 0 := by
        have := (hLf (searchLeft t s) (by omega)).not.mp (by omega)
        exact not_lt.mp this
      have h3 := mono (searchLeft t s) i (by omega) hi
      rw [abs_of_nonneg (by linarith), abs_of_nonneg (by linarith)]
      linarith
  unfold nearest
  by_cases hc : |t.getD (clipIdx t.length (searchLeft t s)) 0 - s| ≤ |t.getD (clipIdx t.length ((searchRight t s : Int) - 1)) 0 - s|
  · rw [if_pos hc]
    refine ⟨hcl _, fun i hi => ?_⟩
    rcases best i hi with h | h
    · exact h
    · exact le_trans hc h
  · rw [if_neg hc]
    refine ⟨hcl _, fun i hi => ?_⟩
    rcases best i hi with h | h
    · exact le_trans (le_of_lt (not_le.mp hc)) h
    · exact h

example : nearest [0, 1, 1, 3] (5 / 4) = 2 ∧ nearest [0, 1, 1, 3] (-1) = 0 ∧ nearest [0, 1, 1, 3] 7 = 3 := by
  refine ⟨?_, ?_, ?_⟩ <;> decide +kernel

end Verif.AperModel.Intervals
