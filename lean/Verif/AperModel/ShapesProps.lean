import Verif.AperModel.Shapes
import Verif.Apertures.Props
import Mathlib.Tactic.FieldSimp
import Mathlib.Tactic.LinearCombination

/-!
C168: the points put on the outline of a profile are on the boundary of its shape, all of them are written, at equal distances along
the outline.
-/
namespace Verif.AperModel.Shapes
open Verif.Apertures

/-! ## What the shapes are -/

/-- The points within a shape. -/
def Inside : Shape → ℝ → ℝ → Prop
  | .circle r, x, y => x ^ 2 + y ^ 2 ≤ r ^ 2
  | .rectangle w h, x, y => |x| ≤ w ∧ |y| ≤ h
  | .ellipse rx ry, x, y => InEllipse rx ry x y
  | .rectEllipse w h rx ry, x, y => (|x| ≤ w ∧ |y| ≤ h) ∧ InEllipse rx ry x y
  | .racetrack w h rx ry, x, y => InRounded (-w) w (-h) h rx ry x y
  | .octagon w h d, x, y => (|x| ≤ w ∧ |y| ≤ h) ∧ |x| + |y| ≤ d * Real.sqrt 2

/-- The parameters make sense: sizes are positive, rounded corners fit in the rectangle, cut corners meet its sides. -/
def Valid : Shape → Prop
  | .circle r => 0 < r
  | .rectangle w h => 0 < w ∧ 0 < h
  | .ellipse rx ry => 0 < rx ∧ 0 < ry
  | .rectEllipse w h rx ry => (0 < w ∧ 0 < h) ∧ 0 < rx ∧ 0 < ry
  | .racetrack w h rx ry => (0 < w ∧ 0 < h) ∧ (0 ≤ rx ∧ rx ≤ w) ∧ 0 ≤ ry ∧ ry ≤ h
  | .octagon w h d => (0 < w ∧ 0 < h) ∧ (w ≤ d * Real.sqrt 2 ∧ h ≤ d * Real.sqrt 2) ∧ d * Real.sqrt 2 ≤ w + h

/-- On the boundary: the point is in the set, and all points behind it, seen from the origin, are not. -/
def Edge (inside : ℝ → ℝ → Prop) (p : P) : Prop := inside p.1 p.2 ∧ ∀ k : ℝ, 1 < k → ¬ inside (k * p.1) (k * p.2)

/-! ## Points at equal distances -/

theorem onSegment_spec (pt : ℝ → P) (ds start stop : ℝ) (m : ℕ) : ∀ fuel i, m ≤ fuel + i → i ≤ m →
    let r := onSegment pt ds start stop m fuel i
    r.2 = i + r.1.length ∧ r.2 ≤ m ∧ (m ≤ r.2 ∨ stop < r.2 * ds) ∧
    ∀ j, j < r.1.length → r.1[j]? = some (pt ((i + j : ℕ) * ds - start)) ∧ ((i + j : ℕ) : ℝ) * ds ≤ stop := by
  intro fuel
  induction fuel with
  | zero =>
    intro i h1 h2
    refine ⟨rfl, h2, Or.inl (by simp [onSegment]; omega), ?_⟩
    intro j hj
    simp [onSegment] at hj
  | succ f ih =>
    intro i h1 h2
    unfold onSegment
    by_cases hc : i < m ∧ (i : ℝ) * ds ≤ stop
    · simp only [if_pos hc]
      obtain ⟨e1, e2, e3, e4⟩ := ih (i + 1) (by omega) (by omega)
      refine ⟨by rw [e1]; simp; omega, e2, e3, ?_⟩
      intro j hj
      cases j with
      | zero => exact ⟨rfl, hc.2⟩
      | succ j =>
        simp only [List.length_cons, Nat.add_lt_add_iff_right] at hj
        have := e4 j hj
        rw [show i + 1 + j = i + (j + 1) by omega] at this
        simpa using this
    · simp only [if_neg hc]
      refine ⟨by simp, h2, ?_, fun j hj => by simp at hj⟩
      by_cases h3 : i < m
      · right
        by_contra h4
        exact hc ⟨h3, not_lt.mp h4⟩
      · left; omega

/-- The point is on the path at the given distance from its start. -/
def At (E : ℝ → ℝ → ℝ) (path : List Seg) (d : ℝ) (p : P) : Prop := ∃ pre s post, path = pre ++ s :: post ∧
  total E pre ≤ d ∧ d ≤ total E pre + len E s ∧ p = point E s (d - total E pre)

theorem total_cons (E : ℝ → ℝ → ℝ) (s : Seg) (l : List Seg) : total E (s :: l) = len E s + total E l := by
  simp [total]

theorem onPath_spec (E : ℝ → ℝ → ℝ) (ds : ℝ) (hd : 0 ≤ ds) (m : ℕ) : ∀ (path : List Seg) (start : ℝ) (i : ℕ), (start ≤ (i : ℝ) * ds ∨ m ≤ i) → (path = [] → m ≤ i) → i ≤ m →
    (∀ j : ℕ, j < m → (j : ℝ) * ds ≤ start + total E path) →
    (onPath E ds m path start i).length = m - i ∧
    ∀ j, j < m - i → ∃ p, (onPath E ds m path start i)[j]? = some p ∧ At E path ((i + j : ℕ) * ds - start) p := by
  intro path
  induction path with
  | nil =>
    intro start i h1 h2 h3 h4
    have := h2 rfl
    refine ⟨by simp [onPath]; omega, fun j hj => by omega⟩
  | cons s rest ih =>
    intro start i h1 h2 h3 h4
    obtain ⟨e1, e2, e3, e4⟩ := onSegment_spec (point E s) ds start (start + len E s) m m i (by omega) h3
    unfold onPath
    simp only
    generalize onSegment (point E s) ds start (start + len E s) m m i = r at e1 e2 e3 e4
    have h5 : ∀ j : ℕ, j < m → (j : ℝ) * ds ≤ start + len E s + total E rest := by
      intro j hj
      have := h4 j hj
      rw [total_cons] at this
      linarith
    have h6 : rest = [] → m ≤ r.2 := by
      intro hn
      rcases e3 with e3 | e3
      · exact e3
      · by_contra hlt
        have := h5 r.2 (by omega)
        rw [hn] at this
        simp [total] at this
        linarith
    obtain ⟨f1, f2⟩ := ih (start + len E s) r.2 (e3.elim Or.inr (fun h => Or.inl h.le)) h6 e2 h5
    refine ⟨by rw [List.length_append, f1]; omega, ?_⟩
    intro j hj
    by_cases hjr : j < r.1.length
    · obtain ⟨g1, g2⟩ := e4 j hjr
      refine ⟨_, by rw [List.getElem?_append_left hjr]; exact g1, [], s, rest, rfl, ?_, ?_, ?_⟩
      · rcases h1 with hi | hi
        · have : (i : ℝ) * ds ≤ ((i + j : ℕ) : ℝ) * ds := by
            apply mul_le_mul_of_nonneg_right _ hd
            push_cast
            linarith [(Nat.cast_nonneg j : (0 : ℝ) ≤ j)]
          simp [total]
          push_cast at this
          linarith
        · omega
      · simp [total]; push_cast at g2; linarith
      · simp [total]
    · obtain ⟨p, g1, pre, t, post, g2, g3, g4, g5⟩ := f2 (j - r.1.length) (by omega)
      have hij : r.2 + (j - r.1.length) = i + j := by omega
      rw [hij] at g3 g4 g5
      refine ⟨p, by rw [List.getElem?_append_right (by omega)]; exact g1, s :: pre, t, post, by rw [g2]; rfl, ?_, ?_, ?_⟩
      · rw [total_cons]; linarith
      · rw [total_cons]; linarith
      · rw [g5, total_cons]; congr 1; ring

theorem total_nonneg (E : ℝ → ℝ → ℝ) (path : List Seg) (h : ∀ s ∈ path, 0 ≤ len E s) : 0 ≤ total E path :=
  List.sum_nonneg (by simpa using h)

/-- **C168.** If the lengths of the segments are not negative, all points are written; they are at equal distances along the outline, the
last of them is the first one, and the steps make up the whole outline. -/
theorem C168_uniform (E : ℝ → ℝ → ℝ) (path : List Seg) (n : ℕ) (hn : 2 ≤ n) (hp : path ≠ []) (hl : ∀ s ∈ path, 0 ≤ len E s) :
    ∃ ps, uniform E path n = some ps ∧ ps.length = n ∧ ps[n - 1]? = ps[0]? ∧
      ∃ ds, ((n - 1 : ℕ) : ℝ) * ds = total E path ∧ ∀ i, i < n - 1 → ∃ p, ps[i]? = some p ∧ At E path (i * ds) p := by
  have ht := total_nonneg E path hl
  have hn1 : (0 : ℝ) < (n : ℝ) - 1 := by
    have : (2 : ℝ) ≤ n := by exact_mod_cast hn
    linarith
  have hcast : ((n - 1 : ℕ) : ℝ) = (n : ℝ) - 1 := by rw [Nat.cast_sub (by omega)]; simp
  have hd : 0 ≤ total E path / ((n : ℝ) - 1) := div_nonneg ht hn1.le
  have hmul : ((n - 1 : ℕ) : ℝ) * (total E path / ((n : ℝ) - 1)) = total E path := by rw [hcast]; field_simp
  obtain ⟨e1, e2⟩ := onPath_spec E (total E path / ((n : ℝ) - 1)) hd (n - 1) path 0 0 (Or.inl (by simp)) (fun h => absurd h hp) (by omega)
    (fun j hj => by
      rw [zero_add]
      refine le_trans ?_ hmul.le
      apply mul_le_mul_of_nonneg_right _ hd
      exact_mod_cast hj.le)
  unfold uniform
  simp only
  generalize total E path / ((n : ℝ) - 1) = ds at e1 e2 hmul
  generalize onPath E ds (n - 1) path 0 0 = pts at e1 e2
  simp only [Nat.sub_zero] at e1 e2
  rw [if_pos e1]
  cases pts with
  | nil => simp at e1; omega
  | cons q qs =>
    refine ⟨(q :: qs) ++ [q], rfl, by rw [List.length_append, e1]; simp; omega, ?_, ds, hmul, ?_⟩
    · rw [List.getElem?_append_right (by omega), e1]; simp
    · intro i hi
      obtain ⟨p, g1, g2⟩ := e2 i hi
      refine ⟨p, by rw [List.getElem?_append_left (by omega)]; exact g1, ?_⟩
      simpa using g2

/-- All points written are points of the segments. -/
theorem uniform_mem (E : ℝ → ℝ → ℝ) (path : List Seg) (n : ℕ) (hn : 2 ≤ n) (hl : ∀ s ∈ path, 0 ≤ len E s) (ps : List P)
    (h : uniform E path n = some ps) (p : P) (hp : p ∈ ps) : ∃ s ∈ path, ∃ d, 0 ≤ d ∧ d ≤ len E s ∧ p = point E s d := by
  have hpath : path ≠ [] := by
    rintro rfl
    have e : uniform E [] n = none := if_neg (by show ¬ (0 = n - 1); omega)
    rw [e] at h
    cases h
  obtain ⟨ps', g1, g2, g3, ds, -, g5⟩ := C168_uniform E path n hn hpath hl
  rw [h] at g1
  cases g1
  obtain ⟨i, hi, rfl⟩ := List.mem_iff_getElem.mp hp
  have key : ∀ i, i < n - 1 → (hi : i < ps.length) → ∃ s ∈ path, ∃ d, 0 ≤ d ∧ d ≤ len E s ∧ ps[i] = point E s d := by
    intro i h1 hi
    obtain ⟨p, e1, pre, s, post, e2, e3, e4, e5⟩ := g5 i h1
    rw [List.getElem?_eq_getElem hi] at e1
    cases e1
    exact ⟨s, by rw [e2]; simp, _, by linarith, by linarith, e5⟩
  by_cases h1 : i < n - 1
  · exact key i h1 hi
  · have h2 : i = n - 1 := by omega
    subst h2
    rw [List.getElem?_eq_getElem hi, List.getElem?_eq_getElem (by omega)] at g3
    have := key 0 (by omega) (by omega)
    simpa [Option.some.inj g3] using this

/-! ## Points of segments -/

theorem line_on (E : ℝ → ℝ → ℝ) (x0 y0 x1 y1 d : ℝ) (h0 : 0 ≤ d) (h1 : d ≤ len E (.line x0 y0 x1 y1)) :
    ∃ t, 0 ≤ t ∧ t ≤ 1 ∧ point E (.line x0 y0 x1 y1) d = (x0 + t * (x1 - x0), y0 + t * (y1 - y0)) := by
  simp only [len] at h1
  simp only [point]
  by_cases hs : hypot (x1 - x0) (y1 - y0) ≤ eps
  · rw [if_pos hs]
    exact ⟨0, le_refl _, zero_le_one, by simp⟩
  · rw [if_neg hs]
    have hp : 0 < hypot (x1 - x0) (y1 - y0) := lt_trans (by norm_num [eps]) (not_le.mp hs)
    refine ⟨d / hypot (x1 - x0) (y1 - y0), div_nonneg h0 hp.le, (div_le_one hp).mpr h1, ?_⟩
    ext <;> simp only <;> ring

theorem halve_in (E : ℝ → ℝ → ℝ) (a dir rx ry target c : ℝ) : ∀ n (p : ℝ × ℝ), 0 ≤ p.1 → p.1 ≤ p.2 → p.2 ≤ c →
    0 ≤ (halve E a dir rx ry target n p).1 ∧ (halve E a dir rx ry target n p).1 ≤ (halve E a dir rx ry target n p).2 ∧
    (halve E a dir rx ry target n p).2 ≤ c := by
  intro n
  induction n with
  | zero => intro p h1 h2 h3; exact ⟨h1, h2, h3⟩
  | succ n ih =>
    intro p h1 h2 h3
    unfold halve
    simp only
    split
    · exact ih _ (by simp only; linarith) (by simp only; linarith) h3
    · exact ih _ h1 (by simp only; linarith) (by simp only; linarith)

theorem angleAt_in (E : ℝ → ℝ → ℝ) (a b rx ry target : ℝ) (hab : a ≤ b) (hr : rx ≠ ry) :
    a ≤ angleAt E a b rx ry target ∧ angleAt E a b rx ry target ≤ b := by
  unfold angleAt
  by_cases c1 : rx ≤ 0 ∨ ry ≤ 0
  · rw [if_pos c1]; exact ⟨le_refl _, hab⟩
  rw [if_neg c1]
  by_cases c2 : between E a b rx ry = 0
  · rw [if_pos c2]; exact ⟨le_refl _, hab⟩
  rw [if_neg c2]
  by_cases c3 : target ≤ 0
  · rw [if_pos c3]; exact ⟨le_refl _, hab⟩
  rw [if_neg c3]
  by_cases c4 : target ≥ between E a b rx ry
  · rw [if_pos c4]; exact ⟨hab, le_refl _⟩
  rw [if_neg c4]
  simp only [if_pos (ge_iff_le.mpr hab), if_neg hr]
  have h := halve_in E a 1 rx ry target (b - a) 60 (0, |b - a|) (le_refl _) (abs_nonneg _) (by rw [abs_of_nonneg (by linarith)])
  constructor <;> linarith [h.1, h.2.1, h.2.2]

theorem maybe_on (E : ℝ → ℝ → ℝ) (cx cy rx ry a b d : ℝ) (hab : a ≤ b) (hr : 0 ≤ rx) (h0 : 0 ≤ d) (h1 : d ≤ len E (maybeEll cx cy rx ry a b)) :
    ∃ t, a ≤ t ∧ t ≤ b ∧ point E (maybeEll cx cy rx ry a b) d = (cx + rx * Real.cos t, cy + ry * Real.sin t) := by
  unfold maybeEll at h1 ⊢
  by_cases he : rx = ry
  · rw [if_pos he] at h1 ⊢
    simp only [len] at h1
    simp only [point]
    by_cases hs : |b - a| * rx ≤ eps
    · rw [if_pos hs, ← he]
      exact ⟨a, le_refl _, hab, rfl⟩
    · rw [if_neg hs, ← he]
      have hp : 0 < |b - a| * rx := lt_trans (by norm_num [eps]) (not_le.mp hs)
      have q0 := div_nonneg h0 hp.le
      have q1 := (div_le_one hp).mpr h1
      exact ⟨_, by nlinarith, by nlinarith, rfl⟩
  · rw [if_neg he]
    obtain ⟨g1, g2⟩ := angleAt_in E a b rx ry d hab he
    exact ⟨_, g1, g2, rfl⟩

theorem len_line (E : ℝ → ℝ → ℝ) (x0 y0 x1 y1 : ℝ) : 0 ≤ len E (.line x0 y0 x1 y1) := Real.sqrt_nonneg _

theorem len_maybe (E : ℝ → ℝ → ℝ) (cx cy rx ry a b : ℝ) (hr : 0 ≤ rx) : 0 ≤ len E (maybeEll cx cy rx ry a b) := by
  unfold maybeEll
  split
  · exact mul_nonneg (abs_nonneg _) hr
  · exact abs_nonneg _

/-! ## Points of the boundary -/

/-- A point where a linear function takes its largest, positive, value on the set. -/
theorem edge_of_support (inside : ℝ → ℝ → Prop) (p : P) (u v σ : ℝ) (hσ : 0 < σ) (hs : ∀ x y, inside x y → u * x + v * y ≤ σ)
    (hp : u * p.1 + v * p.2 = σ) (hi : inside p.1 p.2) : Edge inside p := by
  refine ⟨hi, fun k hk h => ?_⟩
  have := hs _ _ h
  nlinarith

/-- All points of the path are boundary points. -/
def Good (E : ℝ → ℝ → ℝ) (inside : ℝ → ℝ → Prop) (s : Seg) : Prop :=
  0 ≤ len E s ∧ ∀ d, 0 ≤ d → d ≤ len E s → Edge inside (point E s d)

theorem good_line (E : ℝ → ℝ → ℝ) (inside : ℝ → ℝ → Prop) (x0 y0 x1 y1 : ℝ)
    (h : ∀ t, 0 ≤ t → t ≤ 1 → Edge inside (x0 + t * (x1 - x0), y0 + t * (y1 - y0))) : Good E inside (.line x0 y0 x1 y1) := by
  refine ⟨len_line E _ _ _ _, fun d h0 h1 => ?_⟩
  obtain ⟨t, t0, t1, e⟩ := line_on E x0 y0 x1 y1 d h0 h1
  rw [e]; exact h t t0 t1

theorem good_maybe (E : ℝ → ℝ → ℝ) (inside : ℝ → ℝ → Prop) (cx cy rx ry a b : ℝ) (hab : a ≤ b) (hr : 0 ≤ rx)
    (h : ∀ t, a ≤ t → t ≤ b → Edge inside (cx + rx * Real.cos t, cy + ry * Real.sin t)) : Good E inside (maybeEll cx cy rx ry a b) := by
  refine ⟨len_maybe E _ _ _ _ _ _ hr, fun d h0 h1 => ?_⟩
  obtain ⟨t, t0, t1, e⟩ := maybe_on E cx cy rx ry a b d hab hr h0 h1
  rw [e]; exact h t t0 t1

theorem edge_congr {i j : ℝ → ℝ → Prop} (h : ∀ x y, i x y ↔ j x y) (p : P) : Edge i p ↔ Edge j p := by
  unfold Edge; simp only [h]

theorem edge_right {inside : ℝ → ℝ → Prop} {w y : ℝ} (hw : 0 < w) (hb : ∀ x y, inside x y → |x| ≤ w) (hi : inside w y) : Edge inside (w, y) :=
  edge_of_support inside _ 1 0 w hw (fun x y h => by linarith [le_abs_self x, hb x y h]) (by simp) hi

theorem edge_left {inside : ℝ → ℝ → Prop} {w y : ℝ} (hw : 0 < w) (hb : ∀ x y, inside x y → |x| ≤ w) (hi : inside (-w) y) : Edge inside (-w, y) :=
  edge_of_support inside _ (-1) 0 w hw (fun x y h => by linarith [neg_abs_le x, hb x y h]) (by simp) hi

theorem edge_top {inside : ℝ → ℝ → Prop} {h x : ℝ} (hh : 0 < h) (hb : ∀ x y, inside x y → |y| ≤ h) (hi : inside x h) : Edge inside (x, h) :=
  edge_of_support inside _ 0 1 h hh (fun x y hxy => by linarith [le_abs_self y, hb x y hxy]) (by simp) hi

theorem edge_bottom {inside : ℝ → ℝ → Prop} {h x : ℝ} (hh : 0 < h) (hb : ∀ x y, inside x y → |y| ≤ h) (hi : inside x (-h)) : Edge inside (x, -h) :=
  edge_of_support inside _ 0 (-1) h hh (fun x y hxy => by linarith [neg_abs_le y, hb x y hxy]) (by simp) hi

/-- The sides of a symmetric shape with flat parts: vertical lines at ±w between ±c. -/
theorem good_right (E : ℝ → ℝ → ℝ) {inside : ℝ → ℝ → Prop} {w c : ℝ} (hw : 0 < w) (hb : ∀ x y, inside x y → |x| ≤ w)
    (hc : 0 ≤ c) (hi : ∀ y, |y| ≤ c → inside w y) : Good E inside (.line w (-c) w c) := by
  refine good_line E _ _ _ _ _ fun t t0 t1 => ?_
  rw [show w + t * (w - w) = w by ring]
  exact edge_right hw hb (hi _ (abs_le.mpr ⟨by nlinarith, by nlinarith⟩))

theorem good_left (E : ℝ → ℝ → ℝ) {inside : ℝ → ℝ → Prop} {w c : ℝ} (hw : 0 < w) (hb : ∀ x y, inside x y → |x| ≤ w)
    (hc : 0 ≤ c) (hi : ∀ y, |y| ≤ c → inside (-w) y) : Good E inside (.line (-w) c (-w) (-c)) := by
  refine good_line E _ _ _ _ _ fun t t0 t1 => ?_
  rw [show -w + t * (-w - -w) = -w by ring]
  exact edge_left hw hb (hi _ (abs_le.mpr ⟨by nlinarith, by nlinarith⟩))

theorem good_top (E : ℝ → ℝ → ℝ) {inside : ℝ → ℝ → Prop} {h c : ℝ} (hh : 0 < h) (hb : ∀ x y, inside x y → |y| ≤ h)
    (hc : 0 ≤ c) (hi : ∀ x, |x| ≤ c → inside x h) : Good E inside (.line c h (-c) h) := by
  refine good_line E _ _ _ _ _ fun t t0 t1 => ?_
  rw [show h + t * (h - h) = h by ring]
  exact edge_top hh hb (hi _ (abs_le.mpr ⟨by nlinarith, by nlinarith⟩))

theorem good_bottom (E : ℝ → ℝ → ℝ) {inside : ℝ → ℝ → Prop} {h c : ℝ} (hh : 0 < h) (hb : ∀ x y, inside x y → |y| ≤ h)
    (hc : 0 ≤ c) (hi : ∀ x, |x| ≤ c → inside x (-h)) : Good E inside (.line (-c) (-h) c (-h)) := by
  refine good_line E _ _ _ _ _ fun t t0 t1 => ?_
  rw [show -h + t * (-h - -h) = -h by ring]
  exact edge_bottom hh hb (hi _ (abs_le.mpr ⟨by nlinarith, by nlinarith⟩))

theorem good_rectangle (E : ℝ → ℝ → ℝ) {inside : ℝ → ℝ → Prop} {w h : ℝ} (hw : 0 < w) (hh : 0 < h)
    (hi : ∀ x y, inside x y ↔ |x| ≤ w ∧ |y| ≤ h) : ∀ s ∈ rectangle w h, Good E inside s := by
  have b1 : ∀ x y, inside x y → |x| ≤ w := fun x y g => ((hi x y).mp g).1
  have b2 : ∀ x y, inside x y → |y| ≤ h := fun x y g => ((hi x y).mp g).2
  have aw : |w| ≤ w := (abs_of_pos hw).le
  have ah : |h| ≤ h := (abs_of_pos hh).le
  intro s hs
  simp only [rectangle, List.mem_cons, List.not_mem_nil, or_false] at hs
  rcases hs with rfl | rfl | rfl | rfl
  · exact good_bottom E hh b2 hw.le fun x hx => (hi _ _).mpr ⟨hx, by rwa [abs_neg]⟩
  · exact good_right E hw b1 hh.le fun y hy => (hi _ _).mpr ⟨aw, hy⟩
  · exact good_top E hh b2 hw.le fun x hx => (hi _ _).mpr ⟨hx, ah⟩
  · exact good_left E hw b1 hh.le fun y hy => (hi _ _).mpr ⟨by rwa [abs_neg], hy⟩

/-! ### Ellipses -/

theorem on_ellipse (rx ry t : ℝ) (h1 : 0 < rx) (h2 : 0 < ry) : InEllipse rx ry (0 + rx * Real.cos t) (0 + ry * Real.sin t) := by
  unfold InEllipse
  rw [zero_add, zero_add, mul_div_cancel_left₀ _ h1.ne', mul_div_cancel_left₀ _ h2.ne', Real.cos_sq_add_sin_sq]

theorem edge_ellipse {inside : ℝ → ℝ → Prop} {rx ry t : ℝ} (h1 : 0 < rx) (h2 : 0 < ry) (hb : ∀ x y, inside x y → InEllipse rx ry x y)
    (hi : inside (0 + rx * Real.cos t) (0 + ry * Real.sin t)) : Edge inside (0 + rx * Real.cos t, 0 + ry * Real.sin t) := by
  refine edge_of_support inside _ (Real.cos t / rx) (Real.sin t / ry) 1 one_pos (fun x y h => ?_) ?_ hi
  · have := hb x y h
    unfold InEllipse at this
    rw [div_mul_eq_mul_div, mul_div_assoc, div_mul_eq_mul_div, mul_div_assoc]
    nlinarith [sq_nonneg (Real.cos t - x / rx), sq_nonneg (Real.sin t - y / ry), Real.cos_sq_add_sin_sq t]
  · have e1 : Real.cos t / rx * (0 + rx * Real.cos t) = Real.cos t ^ 2 := by field_simp; ring
    have e2 : Real.sin t / ry * (0 + ry * Real.sin t) = Real.sin t ^ 2 := by field_simp; ring
    simp only
    rw [e1, e2, Real.cos_sq_add_sin_sq]

theorem good_ell_arc (E : ℝ → ℝ → ℝ) {inside : ℝ → ℝ → Prop} {rx ry a b : ℝ} (h1 : 0 < rx) (h2 : 0 < ry) (hab : a ≤ b)
    (hb : ∀ x y, inside x y → InEllipse rx ry x y)
    (hi : ∀ t, a ≤ t → t ≤ b → inside (0 + rx * Real.cos t) (0 + ry * Real.sin t)) : Good E inside (maybeEll 0 0 rx ry a b) :=
  good_maybe E _ _ _ _ _ _ _ hab h1.le fun t t0 t1 => edge_ellipse h1 h2 hb (hi t t0 t1)

theorem ellipse_maybe (rx ry : ℝ) : ellipse rx ry = [maybeEll 0 0 rx ry 0 (2 * Real.pi)] := by
  unfold ellipse maybeEll circle
  split <;> rfl

theorem good_ellipse (E : ℝ → ℝ → ℝ) {inside : ℝ → ℝ → Prop} {rx ry : ℝ} (h1 : 0 < rx) (h2 : 0 < ry)
    (hi : ∀ x y, inside x y ↔ InEllipse rx ry x y) : ∀ s ∈ ellipse rx ry, Good E inside s := by
  intro s hs
  rw [ellipse_maybe, List.mem_singleton] at hs
  subst hs
  exact good_ell_arc E h1 h2 (by positivity) (fun x y => (hi x y).mp) fun t _ _ => (hi _ _).mpr (on_ellipse rx ry t h1 h2)

/-! ### Rectangles cut by ellipses -/

theorem in_ell {w h rx ry t : ℝ} (h1 : 0 < rx) (h2 : 0 < ry) (hc : |Real.cos t| ≤ w / rx) (hs : |Real.sin t| ≤ h / ry) :
    (|0 + rx * Real.cos t| ≤ w ∧ |0 + ry * Real.sin t| ≤ h) ∧ InEllipse rx ry (0 + rx * Real.cos t) (0 + ry * Real.sin t) := by
  refine ⟨⟨?_, ?_⟩, on_ellipse rx ry t h1 h2⟩
  · rw [zero_add, abs_mul, abs_of_pos h1]
    rw [le_div_iff₀ h1] at hc
    linarith
  · rw [zero_add, abs_mul, abs_of_pos h2]
    rw [le_div_iff₀ h2] at hs
    linarith

theorem good_rectEllipse (E : ℝ → ℝ → ℝ) {w h rx ry : ℝ} (hw : 0 < w) (hh : 0 < h) (h1 : 0 < rx) (h2 : 0 < ry) :
    ∀ s ∈ rectEllipse w h rx ry, Good E (Inside (.rectEllipse w h rx ry)) s := by
  have b1 : ∀ x y, Inside (.rectEllipse w h rx ry) x y → |x| ≤ w := fun x y g => g.1.1
  have b2 : ∀ x y, Inside (.rectEllipse w h rx ry) x y → |y| ≤ h := fun x y g => g.1.2
  have b3 : ∀ x y, Inside (.rectEllipse w h rx ry) x y → InEllipse rx ry x y := fun x y g => g.2
  have aw : |w| ≤ w := (abs_of_pos hw).le
  have ah : |h| ≤ h := (abs_of_pos hh).le
  have qw : 0 < w / rx := div_pos hw h1
  have qh : 0 < h / ry := div_pos hh h2
  have pp := Real.pi_pos
  have q0 : 0 ≤ Real.arccos (w / rx) := Real.arccos_nonneg _
  have q1 : Real.arccos (w / rx) ≤ Real.pi / 2 := Real.arccos_le_pi_div_two.mpr qw.le
  have q2 : 0 ≤ Real.arcsin (h / ry) := Real.arcsin_nonneg.mpr qh.le
  have q3 : Real.arcsin (h / ry) ≤ Real.pi / 2 := Real.arcsin_le_pi_div_two _
  -- points of the flat sides
  have fx : ∀ y, |y| ≤ ry * Real.sin (Real.arccos (w / rx)) → w / rx ≤ 1 → InEllipse rx ry w y := by
    intro y hy h3
    unfold InEllipse
    have e1 : (y / ry) ^ 2 ≤ 1 - (w / rx) ^ 2 := by
      rw [← Real.sq_sqrt (show 0 ≤ 1 - (w / rx) ^ 2 by nlinarith), ← Real.sin_arccos, ← sq_abs, abs_div, abs_of_pos h2]
      have : |y| / ry ≤ Real.sin (Real.arccos (w / rx)) := by rw [div_le_iff₀ h2]; linarith
      exact pow_le_pow_left₀ (div_nonneg (abs_nonneg _) h2.le) this 2
    linarith
  have fy : ∀ x, |x| ≤ rx * Real.cos (Real.arcsin (h / ry)) → h / ry ≤ 1 → InEllipse rx ry x h := by
    intro x hx h3
    unfold InEllipse
    have e1 : (x / rx) ^ 2 ≤ 1 - (h / ry) ^ 2 := by
      rw [← Real.sq_sqrt (show 0 ≤ 1 - (h / ry) ^ 2 by nlinarith), ← Real.cos_arcsin, ← sq_abs, abs_div, abs_of_pos h1]
      have : |x| / rx ≤ Real.cos (Real.arcsin (h / ry)) := by rw [div_le_iff₀ h1]; linarith
      exact pow_le_pow_left₀ (div_nonneg (abs_nonneg _) h1.le) this 2
    linarith
  have nx : ∀ x y, InEllipse rx ry x y → InEllipse rx ry (-x) y := fun x y g => by
    unfold InEllipse at g ⊢; rwa [neg_div, neg_sq]
  have ny : ∀ x y, InEllipse rx ry x y → InEllipse rx ry x (-y) := fun x y g => by
    unfold InEllipse at g ⊢; rwa [neg_div, neg_sq]
  unfold rectEllipse
  simp only
  by_cases c1 : (if w / rx > 1 then 1 else w / rx) = 1 ∧ (if h / ry > 1 then 1 else h / ry) = 1
  · rw [if_pos c1]
    have g1 : 1 ≤ w / rx := by
      by_contra hc
      rw [if_neg (by linarith)] at c1
      linarith [c1.1]
    have g2 : 1 ≤ h / ry := by
      by_contra hc
      rw [if_neg (show ¬ h / ry > 1 by linarith)] at c1
      linarith [c1.2]
    refine good_ellipse E h1 h2 (fun x y => ⟨fun g => g.2, fun g => ⟨?_, g⟩⟩)
    unfold InEllipse at g
    have k1 : |x / rx| ≤ 1 := by rw [← sq_le_one_iff_abs_le_one]; nlinarith [sq_nonneg (y / ry)]
    have k2 : |y / ry| ≤ 1 := by rw [← sq_le_one_iff_abs_le_one]; nlinarith [sq_nonneg (x / rx)]
    rw [abs_div, abs_of_pos h1, div_le_one h1] at k1
    rw [abs_div, abs_of_pos h2, div_le_one h2] at k2
    rw [le_div_iff₀ h1, one_mul] at g1
    rw [le_div_iff₀ h2, one_mul] at g2
    exact ⟨k1.trans g1, k2.trans g2⟩
  rw [if_neg c1]
  by_cases c2 : w / rx ≤ 1 ∧ h / ry ≤ 1 ∧ Real.arcsin (h / ry) < Real.arccos (w / rx)
  · rw [if_pos c2]
    refine good_rectangle E hw hh (fun x y => ⟨fun g => g.1, fun g => ⟨g, ?_⟩⟩)
    have e1 : h / ry < Real.sin (Real.arccos (w / rx)) := by
      rw [← Real.sin_arcsin (by linarith) c2.2.1]
      exact Real.sin_lt_sin_of_lt_of_le_pi_div_two (by linarith) q1 c2.2.2
    rw [Real.sin_arccos] at e1
    have e2 : (h / ry) ^ 2 < 1 - (w / rx) ^ 2 := (Real.lt_sqrt qh.le).mp e1
    have k1 : (x / rx) ^ 2 ≤ (w / rx) ^ 2 := by
      rw [← sq_abs (x / rx), abs_div, abs_of_pos h1]
      exact pow_le_pow_left₀ (by positivity) (div_le_div_of_nonneg_right g.1 h1.le) 2
    have k2 : (y / ry) ^ 2 ≤ (h / ry) ^ 2 := by
      rw [← sq_abs (y / ry), abs_div, abs_of_pos h2]
      exact pow_le_pow_left₀ (by positivity) (div_le_div_of_nonneg_right g.2 h2.le) 2
    unfold InEllipse
    linarith
  rw [if_neg c2]
  by_cases d1 : w / rx < 1
  · have e1 : (if w / rx > 1 then 1 else w / rx) = w / rx := if_neg (by linarith)
    have ca : Real.cos (Real.arccos (w / rx)) = w / rx := Real.cos_arccos (by linarith) d1.le
    have sp : 0 ≤ Real.sin (Real.arccos (w / rx)) := Real.sin_nonneg_of_nonneg_of_le_pi q0 (by linarith)
    rw [e1]
    by_cases d2 : h / ry < 1
    · have e2 : (if h / ry > 1 then 1 else h / ry) = h / ry := if_neg (by linarith)
      have sa : Real.sin (Real.arcsin (h / ry)) = h / ry := Real.sin_arcsin (by linarith) d2.le
      have cp : 0 ≤ Real.cos (Real.arcsin (h / ry)) := Real.cos_nonneg_of_neg_pi_div_two_le_of_le (by linarith) q3
      rw [e2, if_pos ⟨d1, d2⟩]
      have hle : Real.arccos (w / rx) ≤ Real.arcsin (h / ry) := by
        by_contra hc
        exact c2 ⟨d1.le, d2.le, not_le.mp hc⟩
      generalize Real.arccos (w / rx) = a1 at *
      generalize Real.arcsin (h / ry) = a2 at *
      have iy : ry * Real.sin a1 ≤ h := by
        have : Real.sin a1 ≤ h / ry := by rw [← sa]; exact Real.sin_le_sin_of_le_of_le_pi_div_two (by linarith) q3 hle
        rw [le_div_iff₀ h2] at this; linarith
      have ix : rx * Real.cos a2 ≤ w := by
        have : Real.cos a2 ≤ w / rx := by rw [← ca]; exact Real.cos_le_cos_of_nonneg_of_le_pi q0 (by linarith) hle
        rw [le_div_iff₀ h1] at this; linarith
      have arc : ∀ t u, a1 ≤ u → u ≤ a2 → |Real.cos t| = |Real.cos u| → |Real.sin t| = |Real.sin u| →
          Inside (.rectEllipse w h rx ry) (0 + rx * Real.cos t) (0 + ry * Real.sin t) := by
        intro t u u1 u2 hcu hsu
        refine in_ell h1 h2 ?_ ?_
        · rw [hcu, abs_of_nonneg (Real.cos_nonneg_of_neg_pi_div_two_le_of_le (by linarith) (by linarith)), ← ca]
          exact Real.cos_le_cos_of_nonneg_of_le_pi q0 (by linarith) u1
        · rw [hsu, abs_of_nonneg (Real.sin_nonneg_of_nonneg_of_le_pi (by linarith) (by linarith)), ← sa]
          exact Real.sin_le_sin_of_le_of_le_pi_div_two (by linarith) q3 u2
      intro s hs
      simp only [List.mem_cons, List.not_mem_nil, or_false] at hs
      rcases hs with rfl | rfl | rfl | rfl | rfl | rfl | rfl | rfl
      · exact good_right E hw b1 (by positivity) fun y hy => ⟨⟨aw, hy.trans iy⟩, fx y hy d1.le⟩
      · exact good_ell_arc E h1 h2 hle b3 fun t t0 t1 => arc t t t0 t1 rfl rfl
      · exact good_top E hh b2 (by positivity) fun x hx => ⟨⟨hx.trans ix, ah⟩, fy x hx d2.le⟩
      · exact good_ell_arc E h1 h2 (by linarith) b3 fun t t0 t1 => arc t (Real.pi - t) (by linarith) (by linarith)
          (by rw [Real.cos_pi_sub, abs_neg]) (by rw [Real.sin_pi_sub])
      · exact good_left E hw b1 (by positivity) fun y hy => ⟨⟨by rwa [abs_neg], hy.trans iy⟩, nx _ _ (fx y hy d1.le)⟩
      · exact good_ell_arc E h1 h2 (by linarith) b3 fun t t0 t1 => arc t (t - Real.pi) (by linarith) (by linarith)
          (by rw [Real.cos_sub_pi, abs_neg]) (by rw [Real.sin_sub_pi, abs_neg])
      · exact good_bottom E hh b2 (by positivity) fun x hx => ⟨⟨hx.trans ix, by rwa [abs_neg]⟩, ny _ _ (fy x hx d2.le)⟩
      · exact good_ell_arc E h1 h2 (by linarith) b3 fun t t0 t1 => arc t (2 * Real.pi - t) (by linarith) (by linarith)
          (by rw [Real.cos_two_pi_sub]) (by rw [Real.sin_two_pi_sub, abs_neg])
    · have d3 : 1 ≤ h / ry := not_lt.mp d2
      have e2 : (if h / ry > 1 then 1 else h / ry) = 1 := by
        split
        · rfl
        · linarith
      rw [e2, if_neg (by norm_num), if_pos d1]
      generalize Real.arccos (w / rx) = a1 at *
      have iy : ry * Real.sin a1 ≤ h := by
        rw [le_div_iff₀ h2, one_mul] at d3
        nlinarith [Real.sin_le_one a1]
      have arc : ∀ t u, a1 ≤ u → u ≤ Real.pi - a1 → |Real.cos t| = |Real.cos u| →
          Inside (.rectEllipse w h rx ry) (0 + rx * Real.cos t) (0 + ry * Real.sin t) := by
        intro t u u1 u2 hcu
        refine in_ell h1 h2 ?_ ((Real.abs_sin_le_one t).trans d3)
        rw [hcu, ← ca, abs_le]
        refine ⟨?_, Real.cos_le_cos_of_nonneg_of_le_pi q0 (by linarith) u1⟩
        rw [← Real.cos_pi_sub]
        exact Real.cos_le_cos_of_nonneg_of_le_pi (by linarith) (by linarith) u2
      intro s hs
      simp only [List.mem_cons, List.not_mem_nil, or_false] at hs
      rcases hs with rfl | rfl | rfl | rfl
      · exact good_right E hw b1 (by positivity) fun y hy => ⟨⟨aw, hy.trans iy⟩, fx y hy d1.le⟩
      · exact good_ell_arc E h1 h2 (by linarith) b3 fun t t0 t1 => arc t t t0 t1 rfl
      · exact good_left E hw b1 (by positivity) fun y hy => ⟨⟨by rwa [abs_neg], hy.trans iy⟩, nx _ _ (fx y hy d1.le)⟩
      · exact good_ell_arc E h1 h2 (by linarith) b3 fun t t0 t1 => arc t (t - Real.pi) (by linarith) (by linarith)
          (by rw [Real.cos_sub_pi, abs_neg])
  · have d3 : 1 ≤ w / rx := not_lt.mp d1
    have e1 : (if w / rx > 1 then 1 else w / rx) = 1 := by
      split
      · rfl
      · linarith
    rw [e1] at c1 ⊢
    have d2 : h / ry < 1 := by
      by_contra hc
      apply c1
      refine ⟨rfl, ?_⟩
      split
      · rfl
      · linarith
    have e2 : (if h / ry > 1 then 1 else h / ry) = h / ry := if_neg (by linarith)
    have sa : Real.sin (Real.arcsin (h / ry)) = h / ry := Real.sin_arcsin (by linarith) d2.le
    have cp : 0 ≤ Real.cos (Real.arcsin (h / ry)) := Real.cos_nonneg_of_neg_pi_div_two_le_of_le (by linarith) q3
    rw [e2, if_neg (by norm_num), if_neg (by norm_num)]
    generalize Real.arcsin (h / ry) = a2 at *
    have ix : rx * Real.cos a2 ≤ w := by
      rw [le_div_iff₀ h1, one_mul] at d3
      nlinarith [Real.cos_le_one a2]
    have arc : ∀ t u, -a2 ≤ u → u ≤ a2 → |Real.sin t| = |Real.sin u| →
        Inside (.rectEllipse w h rx ry) (0 + rx * Real.cos t) (0 + ry * Real.sin t) := by
      intro t u u1 u2 hsu
      refine in_ell h1 h2 ((Real.abs_cos_le_one t).trans d3) ?_
      rw [hsu, ← sa, abs_le]
      refine ⟨?_, Real.sin_le_sin_of_le_of_le_pi_div_two (by linarith) q3 u2⟩
      rw [← Real.sin_neg]
      exact Real.sin_le_sin_of_le_of_le_pi_div_two (by linarith) (by linarith) u1
    intro s hs
    simp only [List.mem_cons, List.not_mem_nil, or_false] at hs
    rcases hs with rfl | rfl | rfl | rfl
    · exact good_ell_arc E h1 h2 (by linarith) b3 fun t t0 t1 => arc t t t0 t1 rfl
    · exact good_top E hh b2 (by positivity) fun x hx => ⟨⟨hx.trans ix, ah⟩, fy x hx d2.le⟩
    · exact good_ell_arc E h1 h2 (by linarith) b3 fun t t0 t1 => arc t (t - Real.pi) (by linarith) (by linarith)
        (by rw [Real.sin_sub_pi, abs_neg])
    · exact good_bottom E hh b2 (by positivity) fun x hx => ⟨⟨hx.trans ix, by rwa [abs_neg]⟩, ny _ _ (fy x hx d2.le)⟩

/-! ### Rectangles with rounded corners -/

theorem edge_race {w h rx ry X Y t : ℝ} (hw : 0 < w) (hh : 0 < h) (h1 : 0 < rx) (h2 : 0 < ry) (hx : rx ≤ w) (hy : ry ≤ h)
    (cX : |X| ≤ w - rx) (cY : |Y| ≤ h - ry) (sX : Real.cos t * X = |Real.cos t| * (w - rx)) (sY : Real.sin t * Y = |Real.sin t| * (h - ry)) :
    Edge (Inside (.racetrack w h rx ry)) (X + rx * Real.cos t, Y + ry * Real.sin t) := by
  rw [abs_le] at cX cY
  refine edge_of_support _ _ (ry * Real.cos t) (rx * Real.sin t) (ry * (|Real.cos t| * (w - rx)) + rx * (|Real.sin t| * (h - ry)) + rx * ry)
    ?_ ?_ ?_ ?_
  · have a1 := mul_nonneg h2.le (mul_nonneg (abs_nonneg (Real.cos t)) (sub_nonneg.mpr hx))
    have a2 := mul_nonneg h1.le (mul_nonneg (abs_nonneg (Real.sin t)) (sub_nonneg.mpr hy))
    nlinarith [mul_pos h1 h2]
  · rintro x y ⟨cx, cy, u, v, ⟨⟨x1, x2⟩, y1, y2⟩, huv, rfl, rfl⟩
    have b1 : Real.cos t * cx ≤ |Real.cos t| * (w - rx) := by
      have : |cx| ≤ w - rx := abs_le.mpr ⟨by linarith, x2⟩
      calc Real.cos t * cx ≤ |Real.cos t * cx| := le_abs_self _
        _ = |Real.cos t| * |cx| := abs_mul _ _
        _ ≤ _ := mul_le_mul_of_nonneg_left this (abs_nonneg _)
    have b2 : Real.sin t * cy ≤ |Real.sin t| * (h - ry) := by
      have : |cy| ≤ h - ry := abs_le.mpr ⟨by linarith, y2⟩
      calc Real.sin t * cy ≤ |Real.sin t * cy| := le_abs_self _
        _ = |Real.sin t| * |cy| := abs_mul _ _
        _ ≤ _ := mul_le_mul_of_nonneg_left this (abs_nonneg _)
    have b3 : Real.cos t * u + Real.sin t * v ≤ 1 := by
      nlinarith [sq_nonneg (Real.cos t - u), sq_nonneg (Real.sin t - v), Real.cos_sq_add_sin_sq t]
    have m1 := mul_le_mul_of_nonneg_left b1 h2.le
    have m2 := mul_le_mul_of_nonneg_left b2 h1.le
    have m3 := mul_le_mul_of_nonneg_left b3 (mul_pos h1 h2).le
    linarith
  · have := Real.cos_sq_add_sin_sq t
    simp only
    linear_combination ry * sX + rx * sY + rx * ry * this
  · exact ⟨X, Y, Real.cos t, Real.sin t, ⟨⟨by linarith, by linarith⟩, by linarith, by linarith⟩, (Real.cos_sq_add_sin_sq t).le, rfl, rfl⟩

theorem race_bounds {w h rx ry : ℝ} (h1 : 0 ≤ rx) (h2 : 0 ≤ ry) (x y : ℝ) (g : Inside (.racetrack w h rx ry) x y) : |x| ≤ w ∧ |y| ≤ h := by
  obtain ⟨cx, cy, u, v, ⟨⟨x1, x2⟩, y1, y2⟩, huv, rfl, rfl⟩ := g
  have hu : |u| ≤ 1 := by rw [← sq_le_one_iff_abs_le_one]; nlinarith [sq_nonneg v]
  have hv : |v| ≤ 1 := by rw [← sq_le_one_iff_abs_le_one]; nlinarith [sq_nonneg u]
  rw [abs_le] at hu hv ⊢
  rw [abs_le]
  exact ⟨⟨by nlinarith, by nlinarith⟩, by nlinarith, by nlinarith⟩

theorem good_racetrack (E : ℝ → ℝ → ℝ) {w h rx ry : ℝ} (hw : 0 < w) (hh : 0 < h) (h1 : 0 ≤ rx) (h2 : 0 ≤ ry) (hx : rx ≤ w) (hy : ry ≤ h) :
    ∀ s ∈ racetrack w h rx ry, Good E (Inside (.racetrack w h rx ry)) s := by
  have b1 : ∀ x y, Inside (.racetrack w h rx ry) x y → |x| ≤ w := fun x y g => (race_bounds h1 h2 x y g).1
  have b2 : ∀ x y, Inside (.racetrack w h rx ry) x y → |y| ≤ h := fun x y g => (race_bounds h1 h2 x y g).2
  have pp := Real.pi_pos
  have wx : 0 ≤ w - rx := by linarith
  have hy' : 0 ≤ h - ry := by linarith
  -- the flat sides
  have r1 : Good E (Inside (.racetrack w h rx ry)) (.line w (-h + ry) w (h - ry)) := by
    rw [show -h + ry = -(h - ry) by ring]
    refine good_right E hw b1 hy' fun y hc => ?_
    rw [abs_le] at hc
    exact ⟨w - rx, y, 1, 0, ⟨⟨by linarith, by linarith⟩, by linarith, by linarith⟩, by norm_num, by ring, by ring⟩
  have r2 : Good E (Inside (.racetrack w h rx ry)) (.line (w - rx) h (-w + rx) h) := by
    rw [show -w + rx = -(w - rx) by ring]
    refine good_top E hh b2 wx fun x hc => ?_
    rw [abs_le] at hc
    exact ⟨x, h - ry, 0, 1, ⟨⟨by linarith, by linarith⟩, by linarith, by linarith⟩, by norm_num, by ring, by ring⟩
  have r3 : Good E (Inside (.racetrack w h rx ry)) (.line (-w) (h - ry) (-w) (-h + ry)) := by
    rw [show -h + ry = -(h - ry) by ring]
    refine good_left E hw b1 hy' fun y hc => ?_
    rw [abs_le] at hc
    exact ⟨-(w - rx), y, -1, 0, ⟨⟨by linarith, by linarith⟩, by linarith, by linarith⟩, by norm_num, by ring, by ring⟩
  have r4 : Good E (Inside (.racetrack w h rx ry)) (.line (-w + rx) (-h) (w - rx) (-h)) := by
    rw [show -w + rx = -(w - rx) by ring]
    refine good_bottom E hh b2 wx fun x hc => ?_
    rw [abs_le] at hc
    exact ⟨x, -(h - ry), 0, -1, ⟨⟨by linarith, by linarith⟩, by linarith, by linarith⟩, by norm_num, by ring, by ring⟩
  unfold racetrack
  by_cases c1 : rx ≤ 0 ∨ ry ≤ 0
  · rw [if_pos c1]
    refine good_rectangle E hw hh fun x y => ⟨race_bounds h1 h2 x y, fun ⟨g1, g2⟩ => ?_⟩
    rw [abs_le] at g1 g2
    rcases c1 with c | c
    · have : rx = 0 := le_antisymm c h1
      subst this
      exact (C46_racetrack_square h2 (by linarith) x y).mpr ⟨⟨g1.1, g1.2⟩, g2.1, g2.2⟩
    · have : ry = 0 := le_antisymm c h2
      subst this
      obtain ⟨cx, v, hcx, ex, hv, -⟩ := race_axis (show -w + rx ≤ w - rx by linarith) g1.1 g1.2
      exact ⟨cx, y, v, 0, ⟨hcx, by linarith [g2.1], by linarith [g2.2]⟩, by simpa using hv, ex, by ring⟩
  rw [if_neg c1]
  push Not at c1
  obtain ⟨p1, p2⟩ := c1
  by_cases c2 : rx = w ∧ ry = h
  · rw [if_pos c2]
    obtain ⟨rfl, rfl⟩ := c2
    refine good_ellipse E p1 p2 fun x y => ⟨?_, fun g => ⟨0, 0, x / rx, y / ry, ⟨⟨by linarith, by linarith⟩, by linarith, by linarith⟩, g,
      by field_simp; ring, by field_simp; ring⟩⟩
    rintro ⟨cx, cy, u, v, ⟨⟨x1, x2⟩, y1, y2⟩, huv, rfl, rfl⟩
    obtain rfl : cx = 0 := by linarith
    obtain rfl : cy = 0 := by linarith
    unfold InEllipse
    rwa [zero_add, zero_add, mul_div_cancel_left₀ _ p1.ne', mul_div_cancel_left₀ _ p2.ne']
  rw [if_neg c2]
  -- the corners
  have cosp : ∀ t, -(Real.pi / 2) ≤ t → t ≤ Real.pi / 2 → Real.cos t * (w - rx) = |Real.cos t| * (w - rx) := fun t t0 t1 => by
    rw [abs_of_nonneg (Real.cos_nonneg_of_neg_pi_div_two_le_of_le t0 t1)]
  have cosn : ∀ t, Real.pi / 2 ≤ t → t ≤ 3 * (Real.pi / 2) → Real.cos t * (-w + rx) = |Real.cos t| * (w - rx) := fun t t0 t1 => by
    rw [abs_of_nonpos (Real.cos_nonpos_of_pi_div_two_le_of_le t0 (by linarith))]; ring
  have cosq : ∀ t, 3 * (Real.pi / 2) ≤ t → t ≤ 2 * Real.pi → Real.cos t * (w - rx) = |Real.cos t| * (w - rx) := fun t t0 t1 => by
    rw [← Real.cos_two_pi_sub, abs_of_nonneg (Real.cos_nonneg_of_neg_pi_div_two_le_of_le (by linarith) (by linarith))]
  have sinp : ∀ t, 0 ≤ t → t ≤ Real.pi → Real.sin t * (h - ry) = |Real.sin t| * (h - ry) := fun t t0 t1 => by
    rw [abs_of_nonneg (Real.sin_nonneg_of_nonneg_of_le_pi t0 t1)]
  have sinn : ∀ t, Real.pi ≤ t → t ≤ 2 * Real.pi → Real.sin t * (-h + ry) = |Real.sin t| * (h - ry) := fun t t0 t1 => by
    have : Real.sin t ≤ 0 := by
      rw [← neg_neg (Real.sin t), ← Real.sin_sub_pi]
      linarith [Real.sin_nonneg_of_nonneg_of_le_pi (x := t - Real.pi) (by linarith) (by linarith)]
    rw [abs_of_nonpos this]; ring
  have aw : |w - rx| ≤ w - rx := (abs_of_nonneg wx).le
  have aw' : |-w + rx| ≤ w - rx := by rw [show -w + rx = -(w - rx) by ring, abs_neg]; exact aw
  have ah : |h - ry| ≤ h - ry := (abs_of_nonneg hy').le
  have ah' : |-h + ry| ≤ h - ry := by rw [show -h + ry = -(h - ry) by ring, abs_neg]; exact ah
  by_cases c3 : rx = w
  · rw [if_pos c3]
    have z : ∀ t, Real.cos t * 0 = |Real.cos t| * (w - rx) := fun t => by rw [c3]; simp
    intro s hs
    simp only [List.mem_cons, List.not_mem_nil, or_false] at hs
    rcases hs with rfl | rfl | rfl | rfl
    · exact r1
    · exact good_maybe E _ _ _ _ _ _ _ pp.le h1 fun t t0 t1 => edge_race hw hh p1 p2 hx hy (by simpa using wx) ah (z t) (sinp t t0 t1)
    · exact r3
    · exact good_maybe E _ _ _ _ _ _ _ (by linarith) h1 fun t t0 t1 => edge_race hw hh p1 p2 hx hy (by simpa using wx) ah' (z t) (sinn t t0 t1)
  rw [if_neg c3]
  by_cases c4 : ry = h
  · rw [if_pos c4]
    have z : ∀ t, Real.sin t * 0 = |Real.sin t| * (h - ry) := fun t => by rw [c4]; simp
    intro s hs
    simp only [List.mem_cons, List.not_mem_nil, or_false] at hs
    rcases hs with rfl | rfl | rfl | rfl
    · exact good_maybe E _ _ _ _ _ _ _ (by linarith) h1 fun t t0 t1 =>
        edge_race hw hh p1 p2 hx hy aw (by simpa using hy') (cosp t (by linarith) t1) (z t)
    · exact r2
    · exact good_maybe E _ _ _ _ _ _ _ (by linarith) h1 fun t t0 t1 =>
        edge_race hw hh p1 p2 hx hy aw' (by simpa using hy') (cosn t t0 (by linarith)) (z t)
    · exact r4
  rw [if_neg c4]
  intro s hs
  simp only [List.mem_cons, List.not_mem_nil, or_false] at hs
  rcases hs with rfl | rfl | rfl | rfl | rfl | rfl | rfl | rfl
  · exact r1
  · exact good_maybe E _ _ _ _ _ _ _ (by linarith) h1 fun t t0 t1 =>
      edge_race hw hh p1 p2 hx hy aw ah (cosp t (by linarith) t1) (sinp t t0 (by linarith))
  · exact r2
  · exact good_maybe E _ _ _ _ _ _ _ (by linarith) h1 fun t t0 t1 =>
      edge_race hw hh p1 p2 hx hy aw' ah (cosn t t0 (by linarith)) (sinp t (by linarith) t1)
  · exact r3
  · exact good_maybe E _ _ _ _ _ _ _ (by linarith) h1 fun t t0 t1 =>
      edge_race hw hh p1 p2 hx hy aw' ah' (cosn t (by linarith) t1) (sinn t t0 (by linarith))
  · exact r4
  · exact good_maybe E _ _ _ _ _ _ _ (by linarith) h1 fun t t0 t1 =>
      edge_race hw hh p1 p2 hx hy aw ah' (cosq t t0 t1) (sinn t (by linarith) t1)

/-! ### Rectangles with cut corners -/

theorem good_octagon (E : ℝ → ℝ → ℝ) {w h d : ℝ} (hw : 0 < w) (hh : 0 < h) (h1 : w ≤ d * Real.sqrt 2) (h2 : h ≤ d * Real.sqrt 2)
    (h3 : d * Real.sqrt 2 ≤ w + h) : ∀ s ∈ octagon w h d, Good E (Inside (.octagon w h d)) s := by
  have b1 : ∀ x y, Inside (.octagon w h d) x y → |x| ≤ w := fun x y g => g.1.1
  have b2 : ∀ x y, Inside (.octagon w h d) x y → |y| ≤ h := fun x y g => g.1.2
  have b3 : ∀ x y, Inside (.octagon w h d) x y → |x| + |y| ≤ d * Real.sqrt 2 := fun x y g => g.2
  have mk : ∀ x y, |x| ≤ w → |y| ≤ h → |x| + |y| ≤ d * Real.sqrt 2 → Inside (.octagon w h d) x y := fun x y a b c => ⟨⟨a, b⟩, c⟩
  unfold octagon
  simp only
  rw [if_neg (by push Not; constructor <;> linarith)]
  generalize d * Real.sqrt 2 = D at *
  have aw : |w| = w := abs_of_pos hw
  have ah : |h| = h := abs_of_pos hh
  -- a cut corner: coordinates with signs `p` and `q`
  have cut : ∀ p q : ℝ, (p = 1 ∨ p = -1) → (q = 1 ∨ q = -1) → ∀ x y, 0 ≤ x → x ≤ w → 0 ≤ y → y ≤ h → x + y = D →
      Edge (Inside (.octagon w h d)) (p * x, q * y) := by
    intro p q hp hq x y x0 x1 y0 y1 e
    have ep : |p| = 1 ∧ p * p = 1 := by rcases hp with rfl | rfl <;> norm_num
    have eq : |q| = 1 ∧ q * q = 1 := by rcases hq with rfl | rfl <;> norm_num
    have ex : |p * x| = x := by rw [abs_mul, ep.1, one_mul, abs_of_nonneg x0]
    have ey : |q * y| = y := by rw [abs_mul, eq.1, one_mul, abs_of_nonneg y0]
    refine edge_of_support _ _ p q D (by linarith) (fun x' y' g => ?_) ?_ (mk _ _ ?_ ?_ ?_)
    · have := b3 x' y' g
      have k1 : p * x' ≤ |x'| := by calc p * x' ≤ |p * x'| := le_abs_self _
                                      _ = |x'| := by rw [abs_mul, ep.1, one_mul]
      have k2 : q * y' ≤ |y'| := by calc q * y' ≤ |q * y'| := le_abs_self _
                                      _ = |y'| := by rw [abs_mul, eq.1, one_mul]
      linarith
    · simp only
      linear_combination x * ep.2 + y * eq.2 + e
    · rwa [ex]
    · rwa [ey]
    · rw [ex, ey, e]
  intro s hs
  simp only [List.mem_cons, List.not_mem_nil, or_false] at hs
  rcases hs with rfl | rfl | rfl | rfl | rfl | rfl | rfl | rfl
  · exact good_right E hw b1 (by linarith) fun y hy => mk _ _ aw.le (by linarith) (by rw [aw]; linarith)
  · refine good_line E _ _ _ _ _ fun t t0 t1 => ?_
    have := cut 1 1 (Or.inl rfl) (Or.inl rfl) (w + t * (D - h - w)) (D - w + t * (h - (D - w))) (by nlinarith) (by nlinarith) (by nlinarith)
      (by nlinarith) (by ring)
    rwa [one_mul, one_mul] at this
  · exact good_top E hh b2 (by linarith) fun x hx => mk _ _ (by linarith) ah.le (by rw [ah]; linarith)
  · refine good_line E _ _ _ _ _ fun t t0 t1 => ?_
    have := cut (-1) 1 (Or.inr rfl) (Or.inl rfl) (D - h + t * (w - (D - h))) (h + t * (D - w - h)) (by nlinarith) (by nlinarith) (by nlinarith)
      (by nlinarith) (by ring)
    rw [one_mul] at this
    rwa [show -(D - h) + t * (-w - -(D - h)) = -1 * (D - h + t * (w - (D - h))) by ring]
  · exact good_left E hw b1 (by linarith) fun y hy => mk _ _ (by rw [abs_neg, aw]) (by linarith) (by rw [abs_neg, aw]; linarith)
  · refine good_line E _ _ _ _ _ fun t t0 t1 => ?_
    have := cut (-1) (-1) (Or.inr rfl) (Or.inr rfl) (w + t * (D - h - w)) (D - w + t * (h - (D - w))) (by nlinarith) (by nlinarith) (by nlinarith)
      (by nlinarith) (by ring)
    rwa [show -w + t * (-(D - h) - -w) = -1 * (w + t * (D - h - w)) by ring,
      show -(D - w) + t * (-h - -(D - w)) = -1 * (D - w + t * (h - (D - w))) by ring]
  · exact good_bottom E hh b2 (by linarith) fun x hx => mk _ _ (by linarith) (by rw [abs_neg, ah]) (by rw [abs_neg, ah]; linarith)
  · refine good_line E _ _ _ _ _ fun t t0 t1 => ?_
    have := cut 1 (-1) (Or.inl rfl) (Or.inr rfl) (D - h + t * (w - (D - h))) (h + t * (D - w - h)) (by nlinarith) (by nlinarith) (by nlinarith)
      (by nlinarith) (by ring)
    rw [one_mul] at this
    rwa [show -h + t * (-(D - w) - -h) = -1 * (h + t * (D - w - h)) by ring]

theorem good_shape (E : ℝ → ℝ → ℝ) (s : Shape) (v : Valid s) : ∀ g ∈ s.path, Good E (Inside s) g := by
  cases s with
  | circle r =>
    have v : 0 < r := v
    have e : circle r = ellipse r r := by rw [ellipse, if_pos rfl]
    show ∀ g ∈ circle r, _
    rw [e]
    refine good_ellipse E v v fun x y => ?_
    show x ^ 2 + y ^ 2 ≤ r ^ 2 ↔ InEllipse r r x y
    unfold InEllipse
    rw [div_pow, div_pow, ← add_div, div_le_one (by positivity)]
  | rectangle w h => exact good_rectangle E v.1 v.2 fun _ _ => Iff.rfl
  | ellipse rx ry => exact good_ellipse E v.1 v.2 fun _ _ => Iff.rfl
  | rectEllipse w h rx ry => exact good_rectEllipse E v.1.1 v.1.2 v.2.1 v.2.2
  | racetrack w h rx ry => exact good_racetrack E v.1.1 v.1.2 v.2.1.1 v.2.2.1 v.2.1.2 v.2.2.2
  | octagon w h d => exact good_octagon E v.1.1 v.1.2 v.2.1.1 v.2.1.2 v.2.2

/-- **C168.** The points put on the outline of a profile are on the boundary of its shape. -/
theorem C168_boundary (E : ℝ → ℝ → ℝ) (s : Shape) (v : Valid s) (n : ℕ) (hn : 2 ≤ n) (ps : List P) (h : uniform E s.path n = some ps) :
    ∀ p ∈ ps, Edge (Inside s) p := by
  intro p hp
  obtain ⟨g, hg, d, d0, d1, rfl⟩ := uniform_mem E s.path n hn (fun g hg => (good_shape E s v g hg).1) ps h p hp
  exact (good_shape E s v g hg).2 d d0 d1

/-! ## The outline is closed -/

/-- Where a segment starts. -/
noncomputable def first : Seg → P
  | .line x0 y0 _ _ => (x0, y0)
  | .arc cx cy r a _ => (cx + r * Real.cos a, cy + r * Real.sin a)
  | .ell cx cy rx ry a _ => (cx + rx * Real.cos a, cy + ry * Real.sin a)

/-- Where a segment ends. -/
noncomputable def last : Seg → P
  | .line _ _ x1 y1 => (x1, y1)
  | .arc cx cy r _ b => (cx + r * Real.cos b, cy + r * Real.sin b)
  | .ell cx cy rx ry _ b => (cx + rx * Real.cos b, cy + ry * Real.sin b)

/-- Each segment starts where the one before ends, and the first where the last one ends. -/
def Joined (path : List Seg) : Prop := ∀ q ∈ path.zip (path.tail ++ path.take 1), last q.1 = first q.2

theorem first_maybe (cx cy rx ry a b : ℝ) : first (maybeEll cx cy rx ry a b) = (cx + rx * Real.cos a, cy + ry * Real.sin a) := by
  unfold maybeEll
  split
  · rename_i h; subst h; rfl
  · rfl

theorem last_maybe (cx cy rx ry a b : ℝ) : last (maybeEll cx cy rx ry a b) = (cx + rx * Real.cos b, cy + ry * Real.sin b) := by
  unfold maybeEll
  split
  · rename_i h; subst h; rfl
  · rfl

theorem first_line (x0 y0 x1 y1 : ℝ) : first (.line x0 y0 x1 y1) = (x0, y0) := rfl

theorem last_line (x0 y0 x1 y1 : ℝ) : last (.line x0 y0 x1 y1) = (x1, y1) := rfl

theorem joined_rectangle (w h : ℝ) : Joined (rectangle w h) := by
  simp [Joined, rectangle, first_line, last_line]

theorem joined_ellipse (rx ry : ℝ) : Joined (ellipse rx ry) := by
  rw [ellipse_maybe]
  simp [Joined, first_maybe, last_maybe]

theorem cos_3 : Real.cos (3 * (Real.pi / 2)) = 0 := by
  rw [show 3 * (Real.pi / 2) = Real.pi / 2 + Real.pi by ring, Real.cos_add_pi, Real.cos_pi_div_two, neg_zero]

theorem sin_3 : Real.sin (3 * (Real.pi / 2)) = -1 := by
  rw [show 3 * (Real.pi / 2) = Real.pi / 2 + Real.pi by ring, Real.sin_add_pi, Real.sin_pi_div_two]

theorem joined_racetrack (w h rx ry : ℝ) : Joined (racetrack w h rx ry) := by
  unfold racetrack
  by_cases c1 : rx ≤ 0 ∨ ry ≤ 0
  · rw [if_pos c1]; exact joined_rectangle w h
  rw [if_neg c1]
  by_cases c2 : rx = w ∧ ry = h
  · rw [if_pos c2]; exact joined_ellipse rx ry
  rw [if_neg c2]
  by_cases c3 : rx = w
  · rw [if_pos c3]
    subst c3
    simp [Joined, first_maybe, last_maybe, first_line, last_line]
  rw [if_neg c3]
  by_cases c4 : ry = h
  · rw [if_pos c4]
    subst c4
    have e1 : Real.cos (-Real.pi / 2) = 0 := by rw [neg_div, Real.cos_neg, Real.cos_pi_div_two]
    have e2 : Real.sin (-Real.pi / 2) = -1 := by rw [neg_div, Real.sin_neg, Real.sin_pi_div_two]
    have e3 : 3 * Real.pi / 2 = 3 * (Real.pi / 2) := by ring
    simp [Joined, first_maybe, last_maybe, first_line, last_line, e1, e2, e3, cos_3, sin_3]
  rw [if_neg c4]
  simp [Joined, first_maybe, last_maybe, first_line, last_line, cos_3, sin_3]

theorem joined_octagon (w h d : ℝ) : Joined (octagon w h d) := by
  unfold octagon
  simp only
  split
  · simp [Joined]
  · simp [Joined, first_line, last_line]

theorem joined_rectEllipse {w h rx ry : ℝ} (hw : 0 < w) (hh : 0 < h) (h1 : 0 < rx) (h2 : 0 < ry) : Joined (rectEllipse w h rx ry) := by
  have qw : 0 < w / rx := div_pos hw h1
  have qh : 0 < h / ry := div_pos hh h2
  unfold rectEllipse
  simp only
  by_cases c1 : (if w / rx > 1 then 1 else w / rx) = 1 ∧ (if h / ry > 1 then 1 else h / ry) = 1
  · rw [if_pos c1]; exact joined_ellipse rx ry
  rw [if_neg c1]
  by_cases c2 : w / rx ≤ 1 ∧ h / ry ≤ 1 ∧ Real.arcsin (h / ry) < Real.arccos (w / rx)
  · rw [if_pos c2]; exact joined_rectangle w h
  rw [if_neg c2]
  have ew : ∀ d : w / rx < 1, rx * Real.cos (Real.arccos (w / rx)) = w := fun d => by
    rw [Real.cos_arccos (by linarith) d.le]; field_simp
  have eh : ∀ d : h / ry < 1, ry * Real.sin (Real.arcsin (h / ry)) = h := fun d => by
    rw [Real.sin_arcsin (by linarith) d.le]; field_simp
  have pa : ∀ t, Real.cos (Real.pi + t) = -Real.cos t ∧ Real.sin (Real.pi + t) = -Real.sin t := fun t => by
    rw [add_comm, Real.cos_add_pi, Real.sin_add_pi]; exact ⟨rfl, rfl⟩
  by_cases d1 : w / rx < 1
  · rw [if_neg (show ¬ w / rx > 1 by linarith)]
    by_cases d2 : h / ry < 1
    · rw [if_neg (show ¬ h / ry > 1 by linarith), if_pos ⟨d1, d2⟩]
      simp [Joined, first_maybe, last_maybe, first_line, last_line, ew d1, eh d2, Real.cos_pi_sub, Real.sin_pi_sub, Real.cos_two_pi_sub,
        Real.sin_two_pi_sub, pa]
    · rw [if_neg (show ¬ (w / rx < 1 ∧ (if h / ry > 1 then 1 else h / ry) < 1) from ?_), if_pos d1]
      · simp [Joined, first_maybe, last_maybe, first_line, last_line, ew d1, Real.cos_pi_sub, Real.sin_pi_sub, Real.cos_two_pi_sub,
          Real.sin_two_pi_sub, pa]
      · rintro ⟨-, g⟩
        split at g
        · linarith
        · exact d2 g
  · have e1 : (if w / rx > 1 then 1 else w / rx) = 1 := by
      split
      · rfl
      · linarith
    rw [e1] at c1 ⊢
    have d2 : h / ry < 1 := by
      by_contra hc
      apply c1
      refine ⟨rfl, ?_⟩
      split
      · rfl
      · linarith
    rw [if_neg (by norm_num), if_neg (by norm_num)]
    simp [Joined, first_maybe, last_maybe, first_line, last_line, eh d2, Real.cos_pi_sub, Real.sin_pi_sub, pa]

/-- **C168.** The outline of every shape is closed, and if the sizes make sense it is not empty. -/
theorem C168_closed (s : Shape) (v : Valid s) : s.path ≠ [] ∧ Joined s.path := by
  cases s with
  | circle r => exact ⟨by simp [Shape.path, circle], by simp [Shape.path, circle, Joined, first, last]⟩
  | rectangle w h => exact ⟨by simp [Shape.path, rectangle], joined_rectangle w h⟩
  | ellipse rx ry => exact ⟨by rw [Shape.path, ellipse_maybe]; simp, joined_ellipse rx ry⟩
  | rectEllipse w h rx ry =>
    refine ⟨?_, joined_rectEllipse v.1.1 v.1.2 v.2.1 v.2.2⟩
    show rectEllipse w h rx ry ≠ []
    unfold rectEllipse
    rw [ellipse_maybe]
    simp only [rectangle]
    split_ifs <;> simp
  | racetrack w h rx ry =>
    refine ⟨?_, joined_racetrack w h rx ry⟩
    show racetrack w h rx ry ≠ []
    unfold racetrack
    rw [ellipse_maybe]
    simp only [rectangle]
    split_ifs <;> simp
  | octagon w h d =>
    refine ⟨?_, joined_octagon w h d⟩
    show octagon w h d ≠ []
    unfold octagon
    simp only
    rw [if_neg (by push Not; constructor <;> linarith [v.2.1.1, v.2.1.2])]
    simp

/-- **C168.** All the points asked for are written, from two points on. -/
theorem C168_written (E : ℝ → ℝ → ℝ) (s : Shape) (v : Valid s) (n : ℕ) (hn : 2 ≤ n) :
    ∃ ps, uniform E s.path n = some ps ∧ ps.length = n ∧ ps[n - 1]? = ps[0]? := by
  obtain ⟨ps, h1, h2, h3, -⟩ := C168_uniform E s.path n hn (C168_closed s v).1 fun g hg => (good_shape E s v g hg).1
  exact ⟨ps, h1, h2, h3⟩

/-! ## Cases -/

example : Valid (.rectEllipse 1 2 3 1) := by norm_num [Valid]
example : Valid (.racetrack 2 1 1 1) := by norm_num [Valid]
example : Valid (.octagon (Real.sqrt 2) (Real.sqrt 2) 1.5) := by
  have := Real.sqrt_pos.mpr (show (0 : ℝ) < 2 by norm_num)
  refine ⟨⟨this, this⟩, ⟨?_, ?_⟩, ?_⟩ <;> linarith
example : Edge (Inside (.rectangle 1 2)) (1, 0.5) := by
  constructor
  · show |(1 : ℝ)| ≤ 1 ∧ |(0.5 : ℝ)| ≤ 2
    norm_num [abs_le]
  · rintro k hk ⟨h, -⟩
    simp only [mul_one] at h
    linarith [le_abs_self k]

/-- **C168 fails** for octagons whose cut corners do not meet the rectangle: the outline goes beyond the width and the height given. -/
theorem C168_octagon_violated : ∃ (w h d : ℝ), 0 < w ∧ 0 < h ∧ 0 < d ∧ ∀ (E : ℝ → ℝ → ℝ) (n : ℕ), 2 ≤ n →
    ∃ ps p, uniform E (Shape.path (.octagon w h d)) n = some ps ∧ p ∈ ps ∧ h < |p.2| := by
  have s2 := Real.sqrt_pos.mpr (show (0 : ℝ) < 2 by norm_num)
  have e2 : Real.sqrt 2 * Real.sqrt 2 = 2 := Real.mul_self_sqrt (by norm_num)
  refine ⟨1, 1, 2 * Real.sqrt 2, one_pos, one_pos, by positivity, fun E n hn => ?_⟩
  have ep : Shape.path (.octagon 1 1 (2 * Real.sqrt 2)) = .line 1 (-3) 1 3 :: (octagon 1 1 (2 * Real.sqrt 2)).tail := by
    show octagon 1 1 (2 * Real.sqrt 2) = _
    unfold octagon
    simp only
    rw [show 2 * Real.sqrt 2 * Real.sqrt 2 = 4 by linarith, if_neg (by norm_num)]
    norm_num
  have hl : ∀ g ∈ Shape.path (.octagon 1 1 (2 * Real.sqrt 2)), 0 ≤ len E g := by
    show ∀ g ∈ octagon 1 1 (2 * Real.sqrt 2), 0 ≤ len E g
    unfold octagon
    simp only
    split
    · simp
    · intro g hg
      simp only [List.mem_cons, List.not_mem_nil, or_false] at hg
      rcases hg with rfl | rfl | rfl | rfl | rfl | rfl | rfl | rfl <;> exact len_line E _ _ _ _
  obtain ⟨ps, h1, h2, -, ds, -, h5⟩ := C168_uniform E _ n hn (by rw [ep]; simp) hl
  obtain ⟨p, g1, pre, s, post, g2, g3, -, g5⟩ := h5 0 (by omega)
  refine ⟨ps, p, h1, List.mem_of_getElem? g1, ?_⟩
  have : p = (1, -3) := by
    have hlen : len E (.line 1 (-3) 1 3) = 6 := by
      simp only [len, hypot]
      rw [show ((1 : ℝ) - 1) ^ 2 + (3 - -3) ^ 2 = 6 ^ 2 by norm_num, Real.sqrt_sq (by norm_num)]
    rw [ep] at g2
    cases pre with
    | nil =>
      simp only [List.nil_append, List.cons.injEq] at g2
      rw [g5, ← g2.1]
      simp [total, point]
    | cons t pre =>
      simp only [List.cons_append, List.cons.injEq] at g2
      rw [total_cons, ← g2.1, hlen] at g3
      have := total_nonneg E pre fun q hq => hl q (by rw [ep, g2.2]; simp [hq])
      simp at g3
      linarith
  rw [this]
  norm_num

end Verif.AperModel.Shapes
