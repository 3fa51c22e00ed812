import Verif.AperModel.Segments
import Verif.AperModel.PosesProps

/-!
C162, C163: where planes meet the survey, and which point of the survey is closest.
-/
namespace Verif.AperModel.Segments
open Poses
open Real

/-! ## Specification -/

/-- How far a point is above the plane through `q` with the normal `n`, times the length of the normal. -/
def height (q n p : P3) : ℝ := n.x * (p.x - q.x) + n.y * (p.y - q.y) + n.z * (p.z - q.z)

/-- How far the fraction `t` of a segment is before its start or after its end. -/
noncomputable def beyond (t : ℝ) : ℝ := max 0 (max (0 - t) (t - 1))

/-! ## C162: planes and straight segments -/

theorem height_linePoint (a b q n : P3) (t : ℝ) :
    height q n (linePoint a b t) = dot n (sub a q) + t * (dot n (sub b q) - dot n (sub a q)) := by
  simp only [height, linePoint, dot, sub]; ring

theorem height_dot (q n a : P3) : dot n (sub a q) = height q n a := by simp only [height, dot, sub]

/-- **C162.** The point which is found on a straight segment is on the plane, up to the precision. -/
theorem C162_line_on_plane (a b q n : P3) (t : ℝ) (h : lineT a b q n = some t) : |height q n (linePoint a b t)| < eps := by
  have p : (0 : ℝ) < eps := by norm_num [eps]
  unfold lineT at h
  rw [height_linePoint]
  by_cases h1 : dot (sub b a) (sub b a) < eps * eps
  · rw [if_pos h1] at h
    by_cases h2 : |dot n (sub a q)| < eps
    · rw [if_pos h2] at h
      cases h; simpa using h2
    · rw [if_neg h2] at h; cases h
  · rw [if_neg h1] at h
    by_cases h2 : |dot n (sub b q) - dot n (sub a q)| < eps
    · rw [if_pos h2] at h
      by_cases h3 : |dot n (sub a q)| < eps
      · rw [if_pos h3] at h; cases h; simpa using h3
      · rw [if_neg h3] at h
        by_cases h4 : |dot n (sub b q)| < eps
        · rw [if_pos h4] at h; cases h; simpa using h4
        · rw [if_neg h4] at h; cases h
    · rw [if_neg h2] at h
      cases h
      have h0 : dot n (sub b q) - dot n (sub a q) ≠ 0 := fun h0 => h2 (by rw [h0, abs_zero]; exact p)
      rw [div_mul_cancel₀ _ h0]
      simpa using p

/-- **C162.** It is exactly on the plane, and the only such point of the line, unless the segment is as good as parallel. -/
theorem C162_line_exact (a b q n : P3) (hl : eps * eps ≤ sqDist b a) (hp : eps ≤ |height q n b - height q n a|) :
    ∃ t, lineT a b q n = some t ∧ ∀ u, height q n (linePoint a b u) = 0 ↔ u = t := by
  have p : (0 : ℝ) < eps := by norm_num [eps]
  have e : dot (sub b a) (sub b a) = sqDist b a := by simp only [dot, sub, sqDist]; ring
  rw [← height_dot, ← height_dot] at hp
  have h0 : dot n (sub b q) - dot n (sub a q) ≠ 0 := fun h0 => by rw [h0, abs_zero] at hp; linarith
  refine ⟨-dot n (sub a q) / (dot n (sub b q) - dot n (sub a q)), ?_, ?_⟩
  · unfold lineT
    rw [e, if_neg (not_lt.mpr hl), if_neg (not_lt.mpr hp)]
  · intro u
    rw [height_linePoint, eq_div_iff h0]
    constructor <;> intro h <;> linarith

theorem cauchy (n d : P3) (hn : dot n n = 1) : (dot n d) ^ 2 ≤ dot d d := by
  have : (dot n d) ^ 2 ≤ dot n n * dot d d := by
    simp only [dot]
    nlinarith [sq_nonneg (n.x * d.y - n.y * d.x), sq_nonneg (n.x * d.z - n.z * d.x), sq_nonneg (n.y * d.z - n.z * d.y)]
  rwa [hn, one_mul] at this

theorem fraction (x y : ℝ) (h0 : y - x ≠ 0) (h : x * y ≤ 0) : 0 ≤ -x / (y - x) ∧ -x / (y - x) ≤ 1 := by
  have e1 : -x / (y - x) = (x * x - x * y) / ((y - x) * (y - x)) := by field_simp; ring
  have e2 : 1 - -x / (y - x) = (y * y - x * y) / ((y - x) * (y - x)) := by field_simp; ring
  have p := mul_self_pos.mpr h0
  constructor
  · rw [e1]; exact div_nonneg (by nlinarith [mul_self_nonneg x]) p.le
  · have : 0 ≤ 1 - -x / (y - x) := by rw [e2]; exact div_nonneg (by nlinarith [mul_self_nonneg y]) p.le
    linarith

/-- **C162.** A segment which begins on one side of the plane and ends on the other, or touches it with an end, is always found to meet
it, within its ends. -/
theorem C162_line_crossing (a b q n : P3) (hn : n.x ^ 2 + n.y ^ 2 + n.z ^ 2 = 1) (h : height q n a * height q n b ≤ 0) :
    ∃ t, lineT a b q n = some t ∧ 0 ≤ t ∧ t ≤ 1 := by
  rw [← height_dot, ← height_dot] at h
  have p : (0 : ℝ) < eps := by norm_num [eps]
  have hle : |dot n (sub a q)| ≤ |dot n (sub b q) - dot n (sub a q)| := by
    apply sq_le_sq.mp
    nlinarith [sq_nonneg (dot n (sub b q))]
  have hd : dot n (sub b a) = dot n (sub b q) - dot n (sub a q) := by simp only [dot, sub]; ring
  unfold lineT
  by_cases h1 : dot (sub b a) (sub b a) < eps * eps
  · rw [if_pos h1]
    have hc := cauchy n (sub b a) (by simp only [dot]; linarith)
    have : |dot n (sub a q)| < eps := by
      rw [hd] at hc
      refine lt_of_le_of_lt hle (abs_lt_of_sq_lt_sq ?_ p.le)
      nlinarith
    rw [if_pos this]
    exact ⟨0, rfl, le_rfl, zero_le_one⟩
  · rw [if_neg h1]
    by_cases h2 : |dot n (sub b q) - dot n (sub a q)| < eps
    · rw [if_pos h2, if_pos (lt_of_le_of_lt hle h2)]
      exact ⟨0, rfl, le_rfl, zero_le_one⟩
    · rw [if_neg h2]
      exact ⟨_, rfl, fraction _ _ (fun h0 => h2 (by rw [h0, abs_zero]; exact p)) h⟩

/-- The hypotheses are met by a segment through the plane. -/
example : ∃ t, lineT ⟨0, 0, -1⟩ ⟨0, 0, 3⟩ ⟨5, 5, 0⟩ ⟨0, 0, 1⟩ = some t ∧ 0 ≤ t ∧ t ≤ 1 :=
  C162_line_crossing _ _ _ _ (by norm_num) (by norm_num [height])

/-! ## C162: planes and arcs -/

/-- The square of the part of the normal which lies in the plane of the arc. -/
noncomputable def steep (start : Pose) (roll : ℝ) (n : P3) : ℝ :=
  (n.x * (start 0 0 * cos roll + start 0 1 * sin roll) + n.y * (start 1 0 * cos roll + start 1 1 * sin roll)
    + n.z * (start 2 0 * cos roll + start 2 1 * sin roll)) ^ 2 + (n.x * start 0 2 + n.y * start 1 2 + n.z * start 2 2) ^ 2

theorem coeffs_steep (start : Pose) (roll : ℝ) (q n : P3) :
    (coeffs start roll q n).1 * (coeffs start roll q n).1 + (coeffs start roll q n).2.1 * (coeffs start roll q n).2.1
      = steep start roll n := by
  simp [coeffs, steep, inverse]
  ring

/-- The height of a point of the arc in the terms of the code. -/
theorem height_arc (start : Pose) (hr : Rigid start) (length k roll : ℝ) (hk : eps ≤ |k|) (q n : P3) (t : ℝ) :
    k * height q n (arcPoint start length k roll t)
      = (coeffs start roll q n).1 * cos (k * (t * length)) + (coeffs start roll q n).2.1 * sin (k * (t * length))
        - ((coeffs start roll q n).1 + k * (coeffs start roll q n).2.2) := by
  have p : (0 : ℝ) < eps := by norm_num [eps]
  have hk0 : k ≠ 0 := fun h => by rw [h, abs_zero] at hk; linarith
  have r00 := hr.rows 0 0
  have r01 := hr.rows 0 1
  have r02 := hr.rows 0 2
  have r11 := hr.rows 1 1
  have r12 := hr.rows 1 2
  have r22 := hr.rows 2 2
  simp at r00 r01 r02 r11 r12 r22
  have hd : (coeffs start roll q n).2.2 = n.x * (q.x - start 0 3) + n.y * (q.y - start 1 3) + n.z * (q.z - start 2 3) := by
    simp [coeffs, inverse, apply, dot]
    linear_combination n.x * (q.x - start 0 3) * r00 + n.y * (q.y - start 1 3) * r11 + n.z * (q.z - start 2 3) * r22
      + (n.x * (q.y - start 1 3) + n.y * (q.x - start 0 3)) * r01 + (n.x * (q.z - start 2 3) + n.z * (q.x - start 0 3)) * r02
      + (n.y * (q.z - start 2 3) + n.z * (q.y - start 1 3)) * r12
  rw [hd]
  unfold arcPoint
  rw [if_neg (not_lt.mpr hk), if_neg (not_lt.mpr hk)]
  simp [coeffs, inverse, apply, height]
  field_simp
  ring

theorem cround_near (x : ℝ) : |(cround x : ℝ) - x| ≤ 1 / 2 := by
  unfold cround
  split
  · have h1 := Int.floor_le (x + 1 / 2)
    have h2 := Int.lt_floor_add_one (x + 1 / 2)
    rw [abs_le]; constructor <;> linarith
  · have h1 := Int.le_ceil (x - 1 / 2)
    have h2 := Int.ceil_lt_add_one (x - 1 / 2)
    rw [abs_le]; constructor <;> linarith

/-- Among the candidates is one which is at least as good as any solution of the family, for a positive period. -/
theorem candidate_pos (t0 p : ℝ) (hp : 0 < p) (m0 m1 m : ℤ) (h0 : |t0 + m0 * p| ≤ p / 2) (h1 : |t0 + m1 * p - 1| ≤ p / 2) :
    ∃ k : ℤ, (k = m0 - 1 ∨ k = m0 ∨ k = m0 + 1 ∨ k = m1 - 1 ∨ k = m1 ∨ k = m1 + 1) ∧
      outside (t0 + k * p) ≤ outside (t0 + m * p) := by
  obtain ⟨a1, a2⟩ := abs_le.mp h0
  obtain ⟨b1, b2⟩ := abs_le.mp h1
  have mono : ∀ i j : ℤ, i ≤ j → (i : ℝ) * p ≤ j * p := fun i j h => mul_le_mul_of_nonneg_right (by exact_mod_cast h) hp.le
  have c0 : ((m0 - 1 : ℤ) : ℝ) = (m0 : ℝ) - 1 := by push_cast; ring
  have c1 : ((m0 + 1 : ℤ) : ℝ) = (m0 : ℝ) + 1 := by push_cast; ring
  have d0 : ((m1 - 1 : ℤ) : ℝ) = (m1 : ℝ) - 1 := by push_cast; ring
  have d1 : ((m1 + 1 : ℤ) : ℝ) = (m1 : ℝ) + 1 := by push_cast; ring
  by_cases hneg : t0 + m * p < 0
  · rcases lt_trichotomy m m0 with hm | hm | hm
    · refine ⟨m0 - 1, Or.inl rfl, ?_⟩
      have hmm := mono m (m0 - 1) (by omega)
      have : t0 + ((m0 - 1 : ℤ) : ℝ) * p < 0 := by rw [c0]; nlinarith
      rw [outside, outside, if_pos this, if_pos hneg]
      linarith
    · exact ⟨m, Or.inr (Or.inl hm), le_rfl⟩
    · have hmm := mono (m0 + 1) m (by omega)
      rw [c1] at hmm
      nlinarith
  · by_cases hbig : t0 + m * p > 1
    · rcases lt_trichotomy m m1 with hm | hm | hm
      · have hmm := mono m (m1 - 1) (by omega)
        rw [d0] at hmm
        nlinarith
      · exact ⟨m, by tauto, le_rfl⟩
      · refine ⟨m1 + 1, by tauto, ?_⟩
        have hmm := mono (m1 + 1) m (by omega)
        have g1 : t0 + ((m1 + 1 : ℤ) : ℝ) * p > 1 := by rw [d1]; nlinarith
        have g2 : ¬ t0 + ((m1 + 1 : ℤ) : ℝ) * p < 0 := by linarith
        rw [outside, outside, if_neg g2, if_pos g1, if_neg hneg, if_pos hbig]
        linarith
    · push Not at hneg hbig
      by_cases hm : m = m0 ∨ m = m0 + 1
      · rcases hm with hm | hm
        · exact ⟨m, by tauto, le_rfl⟩
        · exact ⟨m, by tauto, le_rfl⟩
      · have hgt : m0 + 1 ≤ m := by
          by_contra hlt
          have hmm := mono m (m0 - 1) (by omega)
          rw [c0] at hmm
          nlinarith
        refine ⟨m0 + 1, by tauto, ?_⟩
        have hmm := mono (m0 + 1) m hgt
        have g1 : ¬ t0 + ((m0 + 1 : ℤ) : ℝ) * p < 0 := by rw [c1]; nlinarith
        have g2 : ¬ t0 + ((m0 + 1 : ℤ) : ℝ) * p > 1 := by linarith
        rw [outside, if_neg g1, if_neg g2, outside, if_neg (not_lt.mpr hneg), if_neg (not_lt.mpr hbig)]

/-- The same for any period. -/
theorem candidate (t0 p : ℝ) (hp : p ≠ 0) (m : ℤ) : ∃ c ∈ candidates t0 p, outside c ≤ outside (t0 + m * p) := by
  have r0 := cround_near ((0 - t0) / p)
  have r1 := cround_near ((1 - t0) / p)
  generalize hm0 : cround ((0 - t0) / p) = m0 at r0
  generalize hm1 : cround ((1 - t0) / p) = m1 at r1
  have e0 : |t0 + m0 * p| ≤ |p| / 2 := by
    have : t0 + m0 * p = ((m0 : ℝ) - (0 - t0) / p) * p := by field_simp; ring
    rw [this, abs_mul]
    have := mul_le_mul_of_nonneg_right r0 (abs_nonneg p)
    linarith
  have e1 : |t0 + m1 * p - 1| ≤ |p| / 2 := by
    have : t0 + m1 * p - 1 = ((m1 : ℝ) - (1 - t0) / p) * p := by field_simp; ring
    rw [this, abs_mul]
    have := mul_le_mul_of_nonneg_right r1 (abs_nonneg p)
    linarith
  have mem : ∀ k : ℤ, (k = m0 - 1 ∨ k = m0 ∨ k = m0 + 1 ∨ k = m1 - 1 ∨ k = m1 ∨ k = m1 + 1) → t0 + k * p ∈ candidates t0 p := by
    intro k hk
    unfold candidates
    rw [hm0, hm1]
    rcases hk with h | h | h | h | h | h <;> subst h <;> simp
  rcases lt_or_gt_of_ne hp with hneg | hpos
  · rw [abs_of_neg hneg] at e0 e1
    obtain ⟨k, hk, hle⟩ := candidate_pos t0 (-p) (by linarith) (-m0) (-m1) (-m)
      (by push_cast; rw [neg_mul_neg]; exact e0) (by push_cast; rw [neg_mul_neg]; exact e1)
    refine ⟨t0 + ((-k : ℤ) : ℝ) * p, mem (-k) (by omega), ?_⟩
    push_cast at hle ⊢
    rw [neg_mul_neg] at hle
    rwa [neg_mul, ← mul_neg]
  · rw [abs_of_pos hpos] at e0 e1
    obtain ⟨k, hk, hle⟩ := candidate_pos t0 p hpos m0 m1 m e0 e1
    exact ⟨_, mem k hk, hle⟩

/-- The candidates are solutions of the family. -/
theorem candidate_family (t0 p c : ℝ) (h : c ∈ candidates t0 p) : ∃ m : ℤ, c = t0 + m * p := by
  unfold candidates at h
  generalize cround ((0 - t0) / p) = m0 at h
  generalize cround ((1 - t0) / p) = m1 at h
  simp only [List.mem_cons, List.not_mem_nil, or_false] at h
  rcases h with h | h | h | h | h | h
  · exact ⟨m0 - 1, by rw [h]; push_cast; ring⟩
  · exact ⟨m0, h⟩
  · exact ⟨m0 + 1, by rw [h]; push_cast; ring⟩
  · exact ⟨m1 - 1, by rw [h]; push_cast; ring⟩
  · exact ⟨m1, h⟩
  · exact ⟨m1 + 1, by rw [h]; push_cast; ring⟩

/-- What is kept is one of the list, and none of them is better. -/
theorem keep_best (l : List ℝ) : ∀ b : ℝ, ∃ t, l.foldl keep (some b) = some t ∧ (t = b ∨ t ∈ l) ∧ outside t ≤ outside b ∧
    ∀ c ∈ l, outside t ≤ outside c := by
  induction l with
  | nil => intro b; exact ⟨b, rfl, Or.inl rfl, le_rfl, by simp⟩
  | cons x l ih =>
    intro b
    rw [List.foldl_cons]
    by_cases h : outside x < outside b
    · have e : keep (some b) x = some x := by simp only [keep]; rw [if_pos h]
      rw [e]
      obtain ⟨t, h1, h2, h3, h4⟩ := ih x
      refine ⟨t, h1, ?_, by linarith, ?_⟩
      · rcases h2 with h2 | h2
        · right; rw [h2]; exact List.mem_cons_self
        · right; exact List.mem_cons_of_mem _ h2
      · intro c hc
        rcases List.mem_cons.mp hc with hc | hc
        · rw [hc]; exact h3
        · exact h4 c hc
    · have e : keep (some b) x = some b := by simp only [keep]; rw [if_neg h]
      rw [e]
      obtain ⟨t, h1, h2, h3, h4⟩ := ih b
      refine ⟨t, h1, ?_, h3, ?_⟩
      · rcases h2 with h2 | h2
        · left; exact h2
        · right; exact List.mem_cons_of_mem _ h2
      · intro c hc
        rcases List.mem_cons.mp hc with hc | hc
        · rw [hc]; linarith
        · exact h4 c hc

theorem arc_found (start : Pose) (hr : Rigid start) (length k roll : ℝ) (hl : eps < length) (hk : eps ≤ |k|) (q n : P3)
    (hs : eps ^ 2 ≤ steep start roll n) (u0 : ℝ) (hu0 : height q n (arcPoint start length k roll u0) = 0) :
    ∃ t, arcT start length k roll q n = some t ∧ height q n (arcPoint start length k roll t) = 0 ∧
      ∀ u, height q n (arcPoint start length k roll u) = 0 → outside t ≤ outside u := by
  have p : (0 : ℝ) < eps := by norm_num [eps]
  have hk0 : k ≠ 0 := fun h => by rw [h, abs_zero] at hk; linarith
  have hl0 : length ≠ 0 := by linarith
  have hz : ∀ t, height q n (arcPoint start length k roll t) = 0 ↔
      (coeffs start roll q n).1 * cos (k * (t * length)) + (coeffs start roll q n).2.1 * sin (k * (t * length))
        - ((coeffs start roll q n).1 + k * (coeffs start roll q n).2.2) = 0 := by
    intro t
    rw [← height_arc start hr length k roll hk q n t]
    simp [hk0]
  have hst := coeffs_steep start roll q n
  unfold arcT
  rw [if_neg (not_le.mpr hl), if_neg (not_lt.mpr hk)]
  generalize coeffs start roll q n = K at hz hst ⊢
  obtain ⟨a, b, d⟩ := K
  dsimp only at hz hst ⊢
  have hpos : 0 < a * a + b * b := by rw [hst]; exact lt_of_lt_of_le (by positivity) hs
  obtain ⟨r, hr0, hrr⟩ : ∃ r : ℝ, 0 < r ∧ a * a + b * b = r * r := ⟨_, Real.sqrt_pos.mpr hpos, (Real.mul_self_sqrt hpos.le).symm⟩
  have hsq : Real.sqrt (a * a + b * b) = r := by rw [hrr]; exact Real.sqrt_mul_self hr0.le
  have hre : ¬ r < eps := by
    have : eps ^ 2 ≤ r * r := by rw [← hrr, hst]; exact hs
    intro h
    nlinarith
  rw [hsq, if_neg hre]
  obtain ⟨hc, hsn⟩ := atan2_cos_sin a b r hr0 hrr
  generalize atan2 b a = phi at hc hsn ⊢
  have ha : a = r * cos phi := by rw [hc]; field_simp
  have hb : b = r * sin phi := by rw [hsn]; field_simp
  have hz' : ∀ t, height q n (arcPoint start length k roll t) = 0 ↔ cos (k * (t * length) - phi) = -(-(a + k * d)) / r := by
    intro t
    rw [hz t, Real.cos_sub, eq_div_iff hr0.ne']
    constructor
    · intro h
      linear_combination h - ha * cos (k * (t * length)) - hb * sin (k * (t * length))
    · intro h
      linear_combination h + ha * cos (k * (t * length)) + hb * sin (k * (t * length))
  have hu := (hz' u0).mp hu0
  generalize -(-(a + k * d)) / r = w at hz' hu ⊢
  have w1 : -1 ≤ w := by rw [← hu]; exact Real.neg_one_le_cos _
  have w2 : w ≤ 1 := by rw [← hu]; exact Real.cos_le_one _
  have hnot : ¬ (w < -(1 + eps) ∨ w > 1 + eps) := by rintro (h | h) <;> linarith
  rw [if_neg hnot]
  have hcl : clamp1 w = w := by
    unfold clamp1
    rw [if_neg (by linarith), if_neg (by linarith)]
  rw [hcl]
  have hcos := Real.cos_arccos w1 w2
  generalize Real.arccos w = g at hcos ⊢
  have hpi := Real.pi_pos
  have hkl : k * length ≠ 0 := mul_ne_zero hk0 hl0
  have hper : 2 * π / (k * length) ≠ 0 := div_ne_zero (by positivity) hkl
  have sol : ∀ t, height q n (arcPoint start length k roll t) = 0 ↔
      (∃ m : ℤ, t = (phi + g) / (k * length) + m * (2 * π / (k * length))) ∨
      (∃ m : ℤ, t = (phi - g) / (k * length) + m * (2 * π / (k * length))) := by
    intro t
    rw [hz' t, ← hcos, Real.cos_eq_cos_iff]
    constructor
    · rintro ⟨m, h | h⟩
      · left
        refine ⟨-m, ?_⟩
        field_simp
        push_cast
        linarith
      · right
        refine ⟨m, ?_⟩
        field_simp
        linarith
    · rintro (⟨m, h⟩ | ⟨m, h⟩)
      · refine ⟨-m, Or.inl ?_⟩
        subst h
        field_simp
        push_cast
        ring
      · refine ⟨m, Or.inr ?_⟩
        subst h
        field_simp
        ring
  obtain ⟨x, rest, hlist⟩ : ∃ x rest, candidates ((phi + g) / (k * length)) (2 * π / (k * length)) ++
      candidates ((phi - g) / (k * length)) (2 * π / (k * length)) = x :: rest := by
    exact ⟨_, _, rfl⟩
  have hmem : ∀ c, c ∈ x :: rest ↔ c ∈ candidates ((phi + g) / (k * length)) (2 * π / (k * length)) ∨
      c ∈ candidates ((phi - g) / (k * length)) (2 * π / (k * length)) := by
    intro c; rw [← hlist, List.mem_append]
  rw [hlist, List.foldl_cons]
  obtain ⟨t, h1, h2, h3, h4⟩ := keep_best rest x
  refine ⟨t, h1, ?_, ?_⟩
  · have : t ∈ x :: rest := by
      rcases h2 with h2 | h2
      · rw [h2]; exact List.mem_cons_self
      · exact List.mem_cons_of_mem _ h2
    rw [sol]
    rcases (hmem t).mp this with h | h
    · left; exact candidate_family _ _ _ h
    · right; exact candidate_family _ _ _ h
  · intro u hu
    have best : ∀ c ∈ x :: rest, outside t ≤ outside c := by
      intro c hc
      rcases List.mem_cons.mp hc with hc | hc
      · rw [hc]; exact h3
      · exact h4 c hc
    rcases (sol u).mp hu with ⟨m, h⟩ | ⟨m, h⟩
    · obtain ⟨c, hc, hle⟩ := candidate ((phi + g) / (k * length)) _ hper m
      rw [← h] at hle
      exact (best c ((hmem c).mpr (Or.inl hc))).trans hle
    · obtain ⟨c, hc, hle⟩ := candidate ((phi - g) / (k * length)) _ hper m
      rw [← h] at hle
      exact (best c ((hmem c).mpr (Or.inr hc))).trans hle

theorem outside_eq (t : ℝ) : outside t = beyond t := by
  unfold outside beyond
  split
  · rw [max_eq_left (show t - 1 ≤ 0 - t by linarith), max_eq_right (by linarith)]; ring
  · split
    · rw [max_eq_right (show 0 - t ≤ t - 1 by linarith), max_eq_right (by linarith)]
    · rw [max_eq_left]
      exact max_le (by linarith) (by linarith)

/-- **C162.** If the plane meets the circle of an arc, a parameter is found, its point is on the plane, and no other parameter with a
point on the plane is closer to the arc: in particular it is within the arc if any is. -/
theorem C162_arc (start : Pose) (hr : Rigid start) (length k roll : ℝ) (hl : eps < length) (hk : eps ≤ |k|) (q n : P3)
    (hs : eps ^ 2 ≤ steep start roll n) (u0 : ℝ) (hu0 : height q n (arcPoint start length k roll u0) = 0) :
    ∃ t, arcT start length k roll q n = some t ∧ height q n (arcPoint start length k roll t) = 0 ∧
      ∀ u, height q n (arcPoint start length k roll u) = 0 → beyond t ≤ beyond u := by
  obtain ⟨t, h1, h2, h3⟩ := arc_found start hr length k roll hl hk q n hs u0 hu0
  refine ⟨t, h1, h2, fun u hu => ?_⟩
  rw [← outside_eq, ← outside_eq]
  exact h3 u hu

/-- **C162.** A segment without curvature is the straight line along the axis of its start, and a point which is found on it is on
the plane, up to the precision. -/
theorem C162_straight (start : Pose) (length k roll : ℝ) (hl : eps < length) (hk : |k| < eps) (q n : P3) :
    (∀ t, arcPoint start length k roll t = ⟨start 0 2 * (t * length) + start 0 3, start 1 2 * (t * length) + start 1 3,
      start 2 2 * (t * length) + start 2 3⟩) ∧
    ∀ t, arcT start length k roll q n = some t → |height q n (arcPoint start length k roll t)| < eps := by
  have pt : ∀ t, arcPoint start length k roll t = ⟨start 0 2 * (t * length) + start 0 3, start 1 2 * (t * length) + start 1 3,
      start 2 2 * (t * length) + start 2 3⟩ := by
    intro t
    unfold arcPoint apply
    rw [if_pos hk, if_pos hk]
    simp
  refine ⟨pt, fun t ht => ?_⟩
  unfold arcT at ht
  rw [if_neg (not_le.mpr hl), if_pos hk] at ht
  have := C162_line_on_plane _ _ q n t ht
  have e : linePoint (arcPoint start length k roll 0) (arcPoint start length k roll 1) t = arcPoint start length k roll t := by
    rw [pt, pt, pt]
    unfold linePoint
    simp only [P3.mk.injEq]
    refine ⟨?_, ?_, ?_⟩ <;> ring
  rwa [e] at this

theorem rigid_one : Rigid (1 : Pose) := by
  have e : toMatrix {} = 1 := by
    ext i j
    rw [Matrix.one_apply]
    fin_cases i <;> fin_cases j <;> simp [toMatrix]
  rw [← e]
  exact C160_rigid _

/-- The hypotheses are met by the plane across the middle of a bend. -/
example : ∃ t, arcT 1 1 1 0 (arcPoint 1 1 1 0 (1 / 2)) ⟨0, 0, 1⟩ = some t ∧
    height (arcPoint 1 1 1 0 (1 / 2)) ⟨0, 0, 1⟩ (arcPoint 1 1 1 0 t) = 0 ∧ beyond t ≤ 0 := by
  obtain ⟨t, h1, h2, h3⟩ := C162_arc 1 rigid_one 1 1 0 (by norm_num [eps]) (by norm_num [eps]) (arcPoint 1 1 1 0 (1 / 2)) ⟨0, 0, 1⟩
    (by norm_num [eps, steep, Matrix.one_apply, show (2 : Fin 4) ≠ 0 by decide]) (1 / 2) (by simp [height])
  exact ⟨t, h1, h2, (h3 (1 / 2) (by simp [height])).trans (by norm_num [beyond])⟩

/-! ## C163: the closest point -/

/-- **C163.** On a straight segment of at least a millimetre no parameter, within the segment or beyond its ends, has a point which is
closer to the given one. -/
theorem C163_line (p a b : P3) (h : eps ≤ sqDist b a) (u : ℝ) :
    sqDist p (linePoint a b (closestLine p a b)) ≤ sqDist p (linePoint a b u) := by
  have e : dot (sub b a) (sub b a) = sqDist b a := by simp only [dot, sub, sqDist]; ring
  have pe : (0 : ℝ) < eps := by norm_num [eps]
  unfold closestLine
  rw [e, if_neg (not_lt.mpr h)]
  have hpos : 0 < sqDist b a := by linarith
  have key : ∀ v, sqDist p (linePoint a b v) = dot (sub p a) (sub p a) - 2 * v * dot (sub p a) (sub b a) + v ^ 2 * sqDist b a := by
    intro v; simp only [sqDist, linePoint, dot, sub]; ring
  rw [key, key]
  generalize dot (sub p a) (sub b a) = w
  generalize dot (sub p a) (sub p a) = z
  generalize sqDist b a = l at hpos
  have e2 : z - 2 * u * w + u ^ 2 * l - (z - 2 * (w / l) * w + (w / l) ^ 2 * l) = l * (u - w / l) ^ 2 := by field_simp; ring
  have := mul_nonneg hpos.le (sq_nonneg (u - w / l))
  linarith

/-- The hypothesis is met by a segment of a metre. -/
example : sqDist ⟨1, 0, 5⟩ (linePoint ⟨0, 0, 0⟩ ⟨0, 0, 1⟩ (closestLine ⟨1, 0, 5⟩ ⟨0, 0, 0⟩ ⟨0, 0, 1⟩)) ≤ 1 :=
  (C163_line _ _ _ (by norm_num [eps, sqDist]) 5).trans (by norm_num [sqDist, linePoint])

/-- **C163 (violated).** On a segment shorter than a millimetre the start is always returned, which is taken as a point within the
segment, although the closest point is far away: the square of the length is compared with the limit for lengths. The guard of the
caller, `seg_len < eps`, is for segments below a micrometre. -/
theorem C163_short_violated : eps ^ 2 ≤ sqDist ⟨0, 0, 1 / 2000⟩ ⟨0, 0, 0⟩ ∧
    closestLine ⟨0, 0, 1⟩ ⟨0, 0, 0⟩ ⟨0, 0, 1 / 2000⟩ = 0 ∧
    sqDist ⟨0, 0, 1⟩ (linePoint ⟨0, 0, 0⟩ ⟨0, 0, 1 / 2000⟩ 2000) = 0 ∧
    sqDist ⟨0, 0, 1⟩ (linePoint ⟨0, 0, 0⟩ ⟨0, 0, 1 / 2000⟩ 0) = 1 := by
  refine ⟨by norm_num [eps, sqDist], ?_, by norm_num [sqDist, linePoint], by norm_num [sqDist, linePoint]⟩
  unfold closestLine
  rw [if_pos (by norm_num [dot, sub, eps])]

/-- The inverse of a pose undoes it on points. -/
theorem apply_inverse (m : Pose) (h : Rigid m) (p : P3) : apply m (apply (inverse m) p) = p := by
  have := apply_mul m (inverse m) (by intro j; fin_cases j <;> simp [inverse]) p
  rw [← this, (C160_inverse m h).2]
  apply P3.ext <;> simp [apply]

/-- **C163.** On an arc, or on one which is taken as straight, no parameter has a point which is closer to the given one. -/
theorem C163_arc (p : P3) (start : Pose) (hr : Rigid start) (length k roll : ℝ) (hl : eps ≤ length) (u : ℝ) :
    sqDist p (arcPoint start length k roll (closestArc p start length k roll)) ≤ sqDist p (arcPoint start length k roll u) := by
  have pe : (0 : ℝ) < eps := by norm_num [eps]
  have hl0 : length ≠ 0 := by linarith
  unfold closestArc
  rw [if_neg (not_lt.mpr hl)]
  have hq : ∀ v, sqDist p (apply start v) = sqDist (apply (inverse start) p) v := by
    intro v
    conv_lhs => rw [← apply_inverse start hr p]
    exact C160_distance start hr _ _
  unfold arcPoint
  simp only [hq]
  generalize apply (inverse start) p = w
  have hcs := Real.sin_sq_add_cos_sq roll
  by_cases hk : |k| < eps
  · simp only [if_pos hk]
    rw [div_mul_cancel₀ _ hl0]
    simp only [sqDist]
    nlinarith [sq_nonneg (w.z - u * length)]
  · simp only [if_neg hk]
    have hk0 : k ≠ 0 := fun h => hk (by rw [h, abs_zero]; exact pe)
    have e : ∀ θ, sqDist w ⟨cos roll * ((cos θ - 1) / k), sin roll * ((cos θ - 1) / k), sin θ / k⟩
        = w.x ^ 2 + w.y ^ 2 + w.z ^ 2 + 2 * (cos roll * w.x + sin roll * w.y) / k + 2 / k ^ 2
          - 2 / k ^ 2 * ((1 + k * (cos roll * w.x + sin roll * w.y)) * cos θ + k * w.z * sin θ) := by
      intro θ
      have h1 := Real.sin_sq_add_cos_sq θ
      simp only [sqDist]
      field_simp
      linear_combination (cos θ - 1) ^ 2 * hcs + h1
    rw [e, e, show k * (atan2 (k * w.z) (1 + k * (cos roll * w.x + sin roll * w.y)) / (k * length) * length)
      = atan2 (k * w.z) (1 + k * (cos roll * w.x + sin roll * w.y)) by field_simp]
    generalize 1 + k * (cos roll * w.x + sin roll * w.y) = x
    generalize k * w.z = z
    generalize k * (u * length) = θ
    have main : x * cos θ + z * sin θ ≤ x * cos (atan2 z x) + z * sin (atan2 z x) := by
      rcases eq_or_lt_of_le (show 0 ≤ x * x + z * z by nlinarith [mul_self_nonneg x, mul_self_nonneg z]) with h0 | h0
      · have hx : x = 0 := by nlinarith [mul_self_nonneg x, mul_self_nonneg z]
        have hz : z = 0 := by nlinarith [mul_self_nonneg x, mul_self_nonneg z]
        rw [hx, hz]; simp
      · obtain ⟨r, hr0, hrr⟩ : ∃ r : ℝ, 0 < r ∧ x * x + z * z = r * r :=
          ⟨_, Real.sqrt_pos.mpr h0, (Real.mul_self_sqrt h0.le).symm⟩
        obtain ⟨hc, hs⟩ := atan2_cos_sin x z r hr0 hrr
        have hx : x = r * cos (atan2 z x) := by rw [hc]; field_simp
        have hz : z = r * sin (atan2 z x) := by rw [hs]; field_simp
        have e2 : x * cos θ + z * sin θ = r * cos (θ - atan2 z x) := by
          rw [Real.cos_sub]
          linear_combination cos θ * hx + sin θ * hz
        have e3 : x * cos (atan2 z x) + z * sin (atan2 z x) = r := by
          rw [hc, hs]; field_simp; nlinarith
        rw [e2, e3]
        have := mul_le_mul_of_nonneg_left (Real.cos_le_one (θ - atan2 z x)) hr0.le
        linarith
    have h2 : (0 : ℝ) ≤ 2 / k ^ 2 := by positivity
    have := mul_le_mul_of_nonneg_left main h2
    linarith

end Verif.AperModel.Segments
