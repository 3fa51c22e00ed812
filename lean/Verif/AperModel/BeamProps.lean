import Verif.AperModel.Beam

/-!
C155: the shape of the beam (racetracks); C156: its extent in a direction; C157: the largest beam which fits.
-/
namespace Verif.AperModel.Beam

/-- The points of a racetrack: those of a rectangle, each with an ellipse around it. -/
def Mem (rt : RT) (x y : ℝ) : Prop :=
  ∃ u w p q, |u| ≤ rt.h - rt.a ∧ |w| ≤ rt.v - rt.b ∧ p ^ 2 + q ^ 2 ≤ 1 ∧ x = u + rt.a * p ∧ y = w + rt.b * q

/-- A possible racetrack. -/
structure Valid (rt : RT) : Prop where
  a0 : 0 ≤ rt.a
  b0 : 0 ≤ rt.b
  ah : rt.a ≤ rt.h
  bv : rt.b ≤ rt.v

/-! ## C155 -/

/-- **C155 (equations).** For halo sizes with the radial one between the larger of the other two and their quadratic sum, the corner radius
is between zero and the halo sizes, and the shape has the given width, height and radial extent. -/
theorem C155_shape (hx hy hr : ℝ) (h0 : 0 ≤ hx) (h1 : 0 ≤ hy) (h2 : hx ≤ hr) (h3 : hy ≤ hr) (h4 : hr ^ 2 ≤ hx ^ 2 + hy ^ 2) :
    ∃ sr, cornerRadius hx hy hr = some sr ∧ 0 ≤ sr ∧ sr ≤ hx ∧ sr ≤ hy ∧
      Real.sqrt ((hx - sr) ^ 2 + (hy - sr) ^ 2) + sr = hr := by
  have hp : 0 ≤ 2 * (hr - hx) * (hr - hy) := mul_nonneg (mul_nonneg (by norm_num) (by linarith)) (by linarith)
  have hs := Real.sq_sqrt hp
  have hn := Real.sqrt_nonneg (2 * (hr - hx) * (hr - hy))
  refine ⟨hx + hy - hr - Real.sqrt (2 * (hr - hx) * (hr - hy)), ?_, ?_, ?_, ?_, ?_⟩
  · unfold cornerRadius csqrt
    rw [if_neg (by linarith)]; rfl
  · have : Real.sqrt (2 * (hr - hx) * (hr - hy)) ≤ hx + hy - hr := by
      rw [Real.sqrt_le_left (by nlinarith)]
      nlinarith
    linarith
  · linarith
  · linarith
  · generalize Real.sqrt (2 * (hr - hx) * (hr - hy)) = w at *
    have e : (hx - (hx + hy - hr - w)) ^ 2 + (hy - (hx + hy - hr - w)) ^ 2 = (hr - (hx + hy - hr - w)) ^ 2 := by
      nlinarith
    rw [e, Real.sqrt_sq (by linarith)]
    ring

example : ∃ sr, cornerRadius 6 6 6 = some sr ∧ sr = 6 := by
  refine ⟨6, ?_, rfl⟩
  norm_num [cornerRadius, csqrt]

/-- **C155 fails** when the radial halo is smaller than both others: a shape is made which reaches further in the diagonal than all
of them; and when it lies between the two there is no number. Nothing is reported. -/
theorem C155_shape_violated : (∃ sr, cornerRadius 6 6 4 = some sr ∧ 4 < Real.sqrt ((6 - sr) ^ 2 + (6 - sr) ^ 2) + sr) ∧
    cornerRadius 6 4 5 = none := by
  constructor
  · refine ⟨8 - Real.sqrt 8, ?_, ?_⟩
    · unfold cornerRadius csqrt
      norm_num
    · have h1 : Real.sqrt 8 < 4 := by
        rw [Real.sqrt_lt' (by norm_num)]; norm_num
      have := Real.sqrt_nonneg ((6 - (8 - Real.sqrt 8)) ^ 2 + (6 - (8 - Real.sqrt 8)) ^ 2)
      linarith
  · unfold cornerRadius csqrt
    norm_num

/-- **C155 (scaling).** Scaling the parameters scales the shape. -/
theorem C155_scale (rt : RT) (k : ℝ) (hk : 0 < k) (x y : ℝ) : Mem (scale rt k) (k * x) (k * y) ↔ Mem rt x y := by
  have hk' := hk.ne'
  constructor
  · rintro ⟨u, w, p, q, h1, h2, h3, h4, h5⟩
    simp only [scale] at *
    refine ⟨u / k, w / k, p, q, ?_, ?_, h3, ?_, ?_⟩
    · rw [abs_div, abs_of_pos hk, div_le_iff₀ hk]; linarith
    · rw [abs_div, abs_of_pos hk, div_le_iff₀ hk]; linarith
    · field_simp; linarith
    · field_simp; linarith
  · rintro ⟨u, w, p, q, h1, h2, h3, h4, h5⟩
    refine ⟨k * u, k * w, p, q, ?_, ?_, h3, ?_, ?_⟩
    · simp only [scale]; rw [abs_mul, abs_of_pos hk]; nlinarith
    · simp only [scale]; rw [abs_mul, abs_of_pos hk]; nlinarith
    · simp only [scale]; rw [h4]; ring
    · simp only [scale]; rw [h5]; ring

/-- A point which is a sum of points of the two shapes. -/
def MemSum (p q : RT) (x y : ℝ) : Prop := ∃ x1 y1 x2 y2, Mem p x1 y1 ∧ Mem q x2 y2 ∧ x = x1 + x2 ∧ y = y1 + y2

theorem abs_split {u c d : ℝ} (hc : 0 ≤ c) (hd : 0 ≤ d) (h : |u| ≤ c + d) : ∃ u1 u2, |u1| ≤ c ∧ |u2| ≤ d ∧ u = u1 + u2 := by
  rw [abs_le] at h
  rcases le_total u c with h1 | h1
  · rcases le_total (-c) u with h2 | h2
    · exact ⟨u, 0, abs_le.mpr ⟨h2, h1⟩, by simpa using hd, by ring⟩
    · exact ⟨-c, u + c, abs_le.mpr ⟨le_rfl, by linarith⟩, abs_le.mpr ⟨by linarith, by linarith⟩, by ring⟩
  · exact ⟨c, u - c, abs_le.mpr ⟨by linarith, le_rfl⟩, abs_le.mpr ⟨by linarith, by linarith⟩, by ring⟩

/-- **C155 (sums, partial).** The sum of the parameters gives a shape made of sums of points of the two; and all of them, if the corners of
the two have the same proportions. What is missing are different proportions: see `C155_sum_violated`. -/
theorem C155_sum_partial (p q : RT) (hp : Valid p) (hq : Valid q) (x y : ℝ) :
    (Mem (add p q) x y → MemSum p q x y) ∧
    (0 < p.a → 0 < q.a → p.a * q.b = q.a * p.b → MemSum p q x y → Mem (add p q) x y) := by
  constructor
  · rintro ⟨u, w, c, s, h1, h2, h3, h4, h5⟩
    simp only [add] at *
    obtain ⟨u1, u2, a1, a2, rfl⟩ := abs_split (sub_nonneg.mpr hp.ah) (sub_nonneg.mpr hq.ah) (by linarith : |u| ≤ (p.h - p.a) + (q.h - q.a))
    obtain ⟨w1, w2, b1, b2, rfl⟩ := abs_split (sub_nonneg.mpr hp.bv) (sub_nonneg.mpr hq.bv) (by linarith : |w| ≤ (p.v - p.b) + (q.v - q.b))
    exact ⟨u1 + p.a * c, w1 + p.b * s, u2 + q.a * c, w2 + q.b * s, ⟨u1, w1, c, s, a1, b1, h3, rfl, rfl⟩,
      ⟨u2, w2, c, s, a2, b2, h3, rfl, rfl⟩, by rw [h4]; ring, by rw [h5]; ring⟩
  · rintro ha1 ha2 hprop ⟨x1, y1, x2, y2, ⟨u1, w1, c1, s1, a1, b1, n1, rfl, rfl⟩, ⟨u2, w2, c2, s2, a2, b2, n2, rfl, rfl⟩, rfl, rfl⟩
    have hs : 0 < p.a + q.a := by linarith
    refine ⟨u1 + u2, w1 + w2, (p.a * c1 + q.a * c2) / (p.a + q.a), (p.a * s1 + q.a * s2) / (p.a + q.a), ?_, ?_, ?_, ?_, ?_⟩
    · simp only [add]; have := abs_add_le u1 u2; linarith
    · simp only [add]; have := abs_add_le w1 w2; linarith
    · rw [div_pow, div_pow, ← add_div, div_le_one (by positivity)]
      have k1 : p.a ^ 2 * (c1 ^ 2 + s1 ^ 2) ≤ p.a ^ 2 := by nlinarith [sq_nonneg p.a]
      have k2 : q.a ^ 2 * (c2 ^ 2 + s2 ^ 2) ≤ q.a ^ 2 := by nlinarith [sq_nonneg q.a]
      have k3 : c1 * c2 + s1 * s2 ≤ 1 := by nlinarith [sq_nonneg (c1 - c2), sq_nonneg (s1 - s2)]
      have k4 : p.a * q.a * (c1 * c2 + s1 * s2) ≤ p.a * q.a := by nlinarith [mul_pos ha1 ha2]
      nlinarith
    · simp only [add]; field_simp; ring
    · simp only [add]
      have e1 : (p.b + q.b) * (p.a * s1 + q.a * s2) = (p.b * s1 + q.b * s2) * (p.a + q.a) := by
        have : (p.a * q.b - q.a * p.b) * (s1 - s2) = 0 := by rw [hprop]; ring
        nlinarith
      rw [← mul_div_assoc, e1, mul_div_assoc, div_self hs.ne']
      ring

example : ∃ p q : RT, Valid p ∧ Valid q ∧ 0 < p.a ∧ 0 < q.a ∧ p.a * q.b = q.a * p.b ∧ p ≠ q :=
  ⟨⟨2, 2, 1, 1⟩, ⟨3, 3, 2, 2⟩, ⟨by norm_num, by norm_num, by norm_num, by norm_num⟩, ⟨by norm_num, by norm_num, by norm_num, by norm_num⟩,
    by norm_num, by norm_num, by norm_num, by intro h; have := congrArg RT.h h; norm_num at this⟩

/-- **C155 fails** for the sum of a halo and a beam with corners of different proportions, although it is called a Minkowski sum: the
shape obtained is smaller, so that a beam larger than the one which fits is reported to fit. For ellipses of 3 by 1 and 1 by 3 the point
with both coordinates 79/25 is reached by the sum, and lies outside of the circle of radius 4 used for it. -/
theorem C155_sum_violated : Valid ⟨3, 1, 3, 1⟩ ∧ Valid ⟨1, 3, 1, 3⟩ ∧ MemSum ⟨3, 1, 3, 1⟩ ⟨1, 3, 1, 3⟩ (79 / 25) (79 / 25) ∧
    ¬ Mem (add ⟨3, 1, 3, 1⟩ ⟨1, 3, 1, 3⟩) (79 / 25) (79 / 25) := by
  refine ⟨⟨by norm_num, by norm_num, by norm_num, by norm_num⟩, ⟨by norm_num, by norm_num, by norm_num, by norm_num⟩, ?_, ?_⟩
  · refine ⟨72 / 25, 7 / 25, 7 / 25, 72 / 25, ⟨0, 0, 24 / 25, 7 / 25, ?_⟩, ⟨0, 0, 7 / 25, 24 / 25, ?_⟩, ?_, ?_⟩ <;> norm_num
  · rintro ⟨u, w, p, q, h1, h2, h3, h4, h5⟩
    simp only [add] at *
    norm_num at h1 h2
    rw [h1] at h4
    rw [h2] at h5
    nlinarith

/-! ## C156 -/

theorem mem_first {rt : RT} (hv : Valid rt) (ha : 0 < rt.a) (hb : 0 < rt.b) {x y : ℝ} (hx : 0 ≤ x) (hy : 0 ≤ y) :
    Mem rt x y ↔ x ≤ rt.h ∧ y ≤ rt.v ∧ (rt.h - rt.a < x → rt.v - rt.b < y →
      ((x - (rt.h - rt.a)) / rt.a) ^ 2 + ((y - (rt.v - rt.b)) / rt.b) ^ 2 ≤ 1) := by
  have h1 := hv.ah
  have h2 := hv.bv
  constructor
  · rintro ⟨u, w, p, q, hu, hw, hpq, rfl, rfl⟩
    rw [abs_le] at hu hw
    have p1 : p ≤ 1 := by nlinarith [sq_nonneg q, sq_nonneg (p - 1)]
    have q1 : q ≤ 1 := by nlinarith [sq_nonneg p, sq_nonneg (q - 1)]
    refine ⟨by nlinarith, by nlinarith, fun c1 c2 => ?_⟩
    have e1 : (u + rt.a * p - (rt.h - rt.a)) / rt.a ≤ p := by rw [div_le_iff₀ ha]; nlinarith
    have e2 : (w + rt.b * q - (rt.v - rt.b)) / rt.b ≤ q := by rw [div_le_iff₀ hb]; nlinarith
    have f1 : 0 ≤ (u + rt.a * p - (rt.h - rt.a)) / rt.a := div_nonneg (by linarith) ha.le
    have f2 : 0 ≤ (w + rt.b * q - (rt.v - rt.b)) / rt.b := div_nonneg (by linarith) hb.le
    nlinarith
  · rintro ⟨c1, c2, c3⟩
    by_cases k1 : rt.h - rt.a < x
    · by_cases k2 : rt.v - rt.b < y
      · refine ⟨rt.h - rt.a, rt.v - rt.b, (x - (rt.h - rt.a)) / rt.a, (y - (rt.v - rt.b)) / rt.b, ?_, ?_, c3 k1 k2, ?_, ?_⟩
        · rw [abs_of_nonneg (by linarith)]
        · rw [abs_of_nonneg (by linarith)]
        · field_simp; ring
        · field_simp; ring
      · refine ⟨rt.h - rt.a, y, (x - (rt.h - rt.a)) / rt.a, 0, ?_, ?_, ?_, ?_, by ring⟩
        · rw [abs_of_nonneg (by linarith)]
        · rw [abs_of_nonneg hy]; linarith
        · have e1 : (x - (rt.h - rt.a)) / rt.a ≤ 1 := by rw [div_le_iff₀ ha]; linarith
          have f1 : 0 ≤ (x - (rt.h - rt.a)) / rt.a := div_nonneg (by linarith) ha.le
          nlinarith
        · field_simp; ring
    · by_cases k2 : rt.v - rt.b < y
      · refine ⟨x, rt.v - rt.b, 0, (y - (rt.v - rt.b)) / rt.b, ?_, ?_, ?_, by ring, ?_⟩
        · rw [abs_of_nonneg hx]; linarith
        · rw [abs_of_nonneg (by linarith)]
        · have e1 : (y - (rt.v - rt.b)) / rt.b ≤ 1 := by rw [div_le_iff₀ hb]; linarith
          have f1 : 0 ≤ (y - (rt.v - rt.b)) / rt.b := div_nonneg (by linarith) hb.le
          nlinarith
        · field_simp; ring
      · refine ⟨x, y, 0, 0, ?_, ?_, by norm_num, by ring, by ring⟩
        · rw [abs_of_nonneg hx]; linarith
        · rw [abs_of_nonneg hy]; linarith

/-- A parabola which opens upward and is negative somewhere is not positive exactly up to its larger zero. -/
theorem parabola {qa qb qc t1 t : ℝ} (ha : 0 < qa) (h1 : qa * t1 ^ 2 + qb * t1 + qc < 0) (ht : t1 ≤ t) :
    qa * t ^ 2 + qb * t + qc ≤ 0 ↔ t ≤ (Real.sqrt (qb * qb - 4 * qa * qc) - qb) / (2 * qa) := by
  have sq1 : 4 * qa * (qa * t1 ^ 2 + qb * t1 + qc) = (2 * qa * t1 + qb) ^ 2 - (qb * qb - 4 * qa * qc) := by ring
  have sq2 : 4 * qa * (qa * t ^ 2 + qb * t + qc) = (2 * qa * t + qb) ^ 2 - (qb * qb - 4 * qa * qc) := by ring
  have hd : (2 * qa * t1 + qb) ^ 2 < qb * qb - 4 * qa * qc := by nlinarith
  have hd0 : 0 ≤ qb * qb - 4 * qa * qc := le_trans (sq_nonneg _) hd.le
  have hw := Real.sq_sqrt hd0
  have hw0 := Real.sqrt_nonneg (qb * qb - 4 * qa * qc)
  generalize Real.sqrt (qb * qb - 4 * qa * qc) = w at *
  have low : -w < 2 * qa * t1 + qb := by
    by_contra hc
    nlinarith
  have low' : -w < 2 * qa * t + qb := by nlinarith
  rw [le_div_iff₀ (by linarith)]
  constructor
  · intro h
    have : (2 * qa * t + qb) ^ 2 ≤ w ^ 2 := by nlinarith
    by_contra hc
    nlinarith
  · intro h
    have : (2 * qa * t + qb) ^ 2 ≤ w ^ 2 := by nlinarith
    nlinarith

theorem le_one_of_sq {p q : ℝ} (h : p ^ 2 + q ^ 2 - 1 ≤ 0) : p ≤ 1 ∧ q ≤ 1 := by
  constructor <;> nlinarith [sq_nonneg p, sq_nonneg q, sq_nonneg (p - 1), sq_nonneg (q - 1)]

/-- **C156.** In the direction with the given cosine and sine (of the first quadrant; the shape is symmetric), the racetrack contains
exactly the points up to the distance returned. -/
theorem C156_radius (eps c s : ℝ) (rt : RT) (hv : Valid rt) (ha : 0 < rt.a) (hb : 0 < rt.b) (hh : eps ≤ rt.h) (hvv : eps ≤ rt.v)
    (hc : 0 ≤ c) (hs : 0 ≤ s) (hcs : c ^ 2 + s ^ 2 = 1) (t : ℝ) (ht : 0 ≤ t) :
    Mem rt (t * c) (t * s) ↔ t ≤ radius eps c s rt := by
  have h1 := hv.ah
  have h2 := hv.bv
  rw [mem_first hv ha hb (mul_nonneg ht hc) (mul_nonneg ht hs)]
  unfold radius
  rw [if_neg (by rintro (⟨h, -⟩ | ⟨h, -⟩) <;> linarith)]
  by_cases k1 : s * rt.h ≤ (rt.v - rt.b) * c
  · rw [if_pos k1]
    have hcp : 0 < c := by
      rcases lt_or_eq_of_le hc with h | h
      · exact h
      · exfalso
        rw [← h] at k1 hcs
        have : s = 0 := by nlinarith
        rw [this] at hcs; norm_num at hcs
    rw [le_div_iff₀ hcp]
    constructor
    · exact fun h => h.1
    · intro h
      have hy : t * s ≤ rt.v - rt.b := by
        have e1 : t * s * c ≤ (rt.v - rt.b) * c := by nlinarith
        exact le_of_mul_le_mul_right e1 hcp
      exact ⟨h, by linarith, fun _ hh => absurd hh (not_lt.mpr hy)⟩
  · rw [if_neg k1]
    by_cases k2 : rt.v * c ≤ s * (rt.h - rt.a)
    · rw [if_pos k2]
      have hsp : 0 < s := by
        rcases lt_or_eq_of_le hs with h | h
        · exact h
        · exfalso
          rw [← h] at k1
          apply k1
          have := mul_nonneg (sub_nonneg.mpr h2) hc
          linarith
      rw [le_div_iff₀ hsp]
      constructor
      · exact fun h => h.2.1
      · intro h
        have hx : t * c ≤ rt.h - rt.a := by
          have hvp : 0 < rt.v := by linarith
          have e1 : t * c * rt.v ≤ (rt.h - rt.a) * rt.v := by
            have : t * (rt.v * c) ≤ t * (s * (rt.h - rt.a)) := mul_le_mul_of_nonneg_left k2 ht
            have : t * s * (rt.h - rt.a) ≤ rt.v * (rt.h - rt.a) := mul_le_mul_of_nonneg_right h (by linarith)
            linarith
          exact le_of_mul_le_mul_right e1 hvp
        exact ⟨by linarith, h, fun hh => absurd hh (not_lt.mpr hx)⟩
    · rw [if_neg k2]
      rw [not_le] at k1 k2
      have hcp : 0 < c := by
        rcases lt_or_eq_of_le hc with h | h
        · exact h
        · exfalso
          rw [← h] at k2
          have := mul_nonneg hs (sub_nonneg.mpr h1)
          linarith
      have hsp : 0 < s := by
        rcases lt_or_eq_of_le hs with h | h
        · exact h
        · exfalso
          rw [← h] at k1
          have := mul_nonneg (sub_nonneg.mpr h2) hc
          linarith
      unfold corner
      dsimp only
      -- the place where the ray enters the corner
      have hqa : 0 < c * c / (rt.a * rt.a) + s * s / (rt.b * rt.b) := by positivity
      have poly : ∀ t : ℝ, ((t * c - (rt.h - rt.a)) / rt.a) ^ 2 + ((t * s - (rt.v - rt.b)) / rt.b) ^ 2 - 1 =
          (c * c / (rt.a * rt.a) + s * s / (rt.b * rt.b)) * t ^ 2 +
          (-2 * ((rt.h - rt.a) * c / (rt.a * rt.a) + (rt.v - rt.b) * s / (rt.b * rt.b))) * t +
          ((rt.h - rt.a) * (rt.h - rt.a) / (rt.a * rt.a) + (rt.v - rt.b) * (rt.v - rt.b) / (rt.b * rt.b) - 1) := by
        intro t; field_simp; ring
      obtain ⟨t1, e0, e1, e2, e3, e4⟩ : ∃ t1, 0 ≤ t1 ∧ (rt.h - rt.a ≤ t1 * c ∧ t1 * c < rt.h) ∧ (rt.v - rt.b ≤ t1 * s ∧ t1 * s < rt.v) ∧
          (t1 * c = rt.h - rt.a ∨ t1 * s = rt.v - rt.b) ∧
          ((t1 * c - (rt.h - rt.a)) / rt.a) ^ 2 + ((t1 * s - (rt.v - rt.b)) / rt.b) ^ 2 - 1 < 0 := by
        rcases le_total ((rt.v - rt.b) * c) ((rt.h - rt.a) * s) with hle | hle
        · have ec : (rt.h - rt.a) / c * c = rt.h - rt.a := by field_simp
          have es1 : rt.v - rt.b ≤ (rt.h - rt.a) / c * s := by rw [div_mul_eq_mul_div, le_div_iff₀ hcp]; exact hle
          have es2 : (rt.h - rt.a) / c * s < rt.v := by rw [div_mul_eq_mul_div, div_lt_iff₀ hcp]; linarith
          refine ⟨(rt.h - rt.a) / c, div_nonneg (by linarith) hc, ⟨ec.ge, by rw [ec]; linarith⟩, ⟨es1, es2⟩, Or.inl ec, ?_⟩
          rw [ec, sub_self, zero_div]
          have g1 : ((rt.h - rt.a) / c * s - (rt.v - rt.b)) / rt.b < 1 := by rw [div_lt_iff₀ hb]; linarith
          have g0 : 0 ≤ ((rt.h - rt.a) / c * s - (rt.v - rt.b)) / rt.b := div_nonneg (by linarith) hb.le
          nlinarith
        · have es : (rt.v - rt.b) / s * s = rt.v - rt.b := by field_simp
          have ec1 : rt.h - rt.a ≤ (rt.v - rt.b) / s * c := by rw [div_mul_eq_mul_div, le_div_iff₀ hsp]; exact hle
          have ec2 : (rt.v - rt.b) / s * c < rt.h := by rw [div_mul_eq_mul_div, div_lt_iff₀ hsp]; linarith
          refine ⟨(rt.v - rt.b) / s, div_nonneg (by linarith) hs, ⟨ec1, ec2⟩, ⟨es.ge, by rw [es]; linarith⟩, Or.inr es, ?_⟩
          rw [es, sub_self, zero_div]
          have g1 : ((rt.v - rt.b) / s * c - (rt.h - rt.a)) / rt.a < 1 := by rw [div_lt_iff₀ ha]; linarith
          have g0 : 0 ≤ ((rt.v - rt.b) / s * c - (rt.h - rt.a)) / rt.a := div_nonneg (by linarith) ha.le
          nlinarith
      rw [poly] at e4
      rcases le_total t t1 with hle | hle
      · -- before the corner
        constructor
        · intro _
          exact le_trans hle ((parabola hqa e4 le_rfl).mp e4.le)
        · intro _
          have g1 : t * c ≤ t1 * c := mul_le_mul_of_nonneg_right hle hc
          have g2 : t * s ≤ t1 * s := mul_le_mul_of_nonneg_right hle hs
          refine ⟨by linarith, by linarith, fun l1 l2 => ?_⟩
          rcases e3 with h | h
          · linarith
          · linarith
      · -- in the corner
        have g1 : t1 * c ≤ t * c := mul_le_mul_of_nonneg_right hle hc
        have g2 : t1 * s ≤ t * s := mul_le_mul_of_nonneg_right hle hs
        rw [← parabola hqa e4 hle, ← poly]
        constructor
        · rintro ⟨l1, l2, l3⟩
          rcases lt_or_eq_of_le (le_trans e1.1 g1) with m1 | m1
          · rcases lt_or_eq_of_le (le_trans e2.1 g2) with m2 | m2
            · linarith [l3 m1 m2]
            · rw [← m2, sub_self, zero_div]
              have n1 : (t * c - (rt.h - rt.a)) / rt.a ≤ 1 := by rw [div_le_iff₀ ha]; linarith
              have n0 : 0 ≤ (t * c - (rt.h - rt.a)) / rt.a := div_nonneg (by linarith) ha.le
              nlinarith
          · rw [← m1, sub_self, zero_div]
            have n1 : (t * s - (rt.v - rt.b)) / rt.b ≤ 1 := by rw [div_le_iff₀ hb]; linarith
            have n0 : 0 ≤ (t * s - (rt.v - rt.b)) / rt.b := div_nonneg (by linarith) hb.le
            nlinarith
        · intro l
          obtain ⟨m0, m1⟩ := le_one_of_sq l
          rw [div_le_iff₀ ha] at m0
          rw [div_le_iff₀ hb] at m1
          exact ⟨by linarith, by linarith, fun _ _ => by linarith⟩

/-- The shape is symmetric, which is why absolute values of the cosine and the sine suffice. -/
theorem C156_symmetric (rt : RT) (x y : ℝ) : Mem rt (-x) y ↔ Mem rt x y := by
  have key : ∀ x, Mem rt x y → Mem rt (-x) y := by
    rintro x ⟨u, w, p, q, h1, h2, h3, h4, h5⟩
    exact ⟨-u, w, -p, q, by rwa [abs_neg], h2, by linarith [neg_sq p], by rw [h4]; ring, h5⟩
  exact ⟨fun h => by have := key _ h; rwa [neg_neg] at this, key x⟩

theorem C156_symmetric' (rt : RT) (x y : ℝ) : Mem rt x (-y) ↔ Mem rt x y := by
  have key : ∀ y, Mem rt x y → Mem rt x (-y) := by
    rintro y ⟨u, w, p, q, h1, h2, h3, h4, h5⟩
    exact ⟨u, -w, p, -q, h1, by rwa [abs_neg], by linarith [neg_sq q], h4, by rw [h5]; ring⟩
  exact ⟨fun h => by have := key _ h; rwa [neg_neg] at this, key y⟩

example : radius (1 / 10) 1 0 ⟨3, 2, 1, 1⟩ = 3 := by norm_num [radius]

/-- **C156 (sigmas, partial).** In directions in which the envelope grows linearly with the number of sigmas (those which meet a straight
side), the number found is the one at which the envelope reaches the aperture. What is missing are the corners, where two steps of the
secant method give an approximation only. -/
theorem C156_secant_partial (eps α β n0 n1 : ℝ) (he : 0 < eps) (h : eps ≤ |β * (n1 - n0)|) :
    α + β * secant eps (fun n => α + β * n) n0 n1 = 0 := by
  have hβ : β ≠ 0 := by rintro rfl; simp at h; linarith
  have hn : n1 - n0 ≠ 0 := by intro hh; rw [hh] at h; simp at h; linarith
  have hd : α + β * n1 - (α + β * n0) = β * (n1 - n0) := by ring
  have root : n1 - (α + β * n1) * (n1 - n0) / (α + β * n1 - (α + β * n0)) = -α / β := by
    rw [hd]; field_simp; ring
  have z : α + β * (-α / β) = 0 := by field_simp; ring
  unfold secant secantStep
  dsimp only
  rw [if_neg (by rw [hd]; exact not_lt.mpr h)]
  dsimp only
  rw [root, z]
  by_cases hc : |0 - (α + β * n1)| < eps
  · rw [if_pos hc]; exact z
  · rw [if_neg hc]
    dsimp only
    rw [zero_mul, zero_div, sub_zero]
    exact z

example : (1 : ℝ) / 10 ≤ |2 * (3 - 0)| := by norm_num

/-! ## C157 -/

/-- **C157.** For every aperture for which a smaller beam fits wherever a larger one does, the number of sigmas returned fits (unless it is the
lower limit of the search), and no number larger by more than the tolerance does (unless it is beyond the upper limit). -/
theorem C157_bisect (fits : ℝ → Bool) (tol : ℝ) (k : Nat) (lo hi : ℝ) (hlh : lo ≤ hi) (hk : hi - lo ≤ tol * 2 ^ k)
    (mono : ∀ a b, a ≤ b → fits b = true → fits a = true) :
    lo ≤ bisect fits tol k lo hi ∧ bisect fits tol k lo hi ≤ hi ∧
    (bisect fits tol k lo hi = lo ∨ fits (bisect fits tol k lo hi) = true) ∧
    ∀ n, bisect fits tol k lo hi + tol < n → n < hi → fits n = false := by
  induction k generalizing lo hi with
  | zero =>
    rw [pow_zero, mul_one] at hk
    exact ⟨le_rfl, hlh, Or.inl rfl, fun n h1 h2 => by simp only [bisect] at h1; linarith⟩
  | succ k ih =>
    simp only [bisect]
    by_cases hc : hi - lo > tol
    · rw [if_pos hc]
      rw [pow_succ] at hk
      by_cases hf : fits ((lo + hi) / 2) = true
      · rw [if_pos hf]
        obtain ⟨h1, h2, h3, h4⟩ := ih ((lo + hi) / 2) hi (by linarith) (by linarith)
        refine ⟨by linarith, h2, ?_, h4⟩
        rcases h3 with h | h
        · right; rw [h]; exact hf
        · right; exact h
      · rw [if_neg hf]
        obtain ⟨h1, h2, h3, h4⟩ := ih lo ((lo + hi) / 2) (by linarith) (by linarith)
        refine ⟨h1, by linarith, h3, fun n n1 n2 => ?_⟩
        by_cases hn : n < (lo + hi) / 2
        · exact h4 n n1 hn
        · by_contra hh
          exact hf (mono _ n (not_lt.mp hn) (by simpa using hh))
    · rw [if_neg hc]
      exact ⟨le_rfl, hlh, Or.inl rfl, fun n h1 h2 => by linarith⟩

/-- The number of turns of the loop is bounded: the limits 0 and 10000 and the tolerance 0.001 used need 24, and further ones change nothing. -/
theorem C157_ends (fits : ℝ → Bool) (tol : ℝ) (k : Nat) (lo hi : ℝ) (hk : hi - lo ≤ tol * 2 ^ k) (j : Nat) :
    bisect fits tol (k + j) lo hi = bisect fits tol k lo hi := by
  induction k generalizing lo hi with
  | zero =>
    simp only [pow_zero, mul_one] at hk
    cases j with
    | zero => rfl
    | succ j =>
      show bisect fits tol (0 + (j + 1)) lo hi = lo
      rw [Nat.zero_add]
      simp only [bisect]
      rw [if_neg (by linarith)]
  | succ k ih =>
    rw [show k + 1 + j = (k + j) + 1 by omega]
    simp only [bisect]
    rw [pow_succ] at hk
    rw [ih _ _ (by linarith), ih _ _ (by linarith)]

example : ((10000 : ℝ) - 0) ≤ 1 / 1000 * 2 ^ 24 := by norm_num

/-- **C157**: a beam which does not fit at all gives the same answer as one which just fits without any halo: zero. -/
theorem C157_nothing (tol : ℝ) (k : Nat) (hi : ℝ) : bisect (fun _ => false) tol k 0 hi = 0 := by
  induction k generalizing hi with
  | zero => rfl
  | succ k ih => simp only [bisect]; split <;> simp [ih]

end Verif.AperModel.Beam
