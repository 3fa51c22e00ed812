import Verif.AperModel.Curvilinear
import Verif.AperModel.SegmentsProps

/-!
C164: coordinates along the axis of a bent pipe.
-/
namespace Verif.AperModel.Curvilinear
open Poses Segments
open Real

theorem sgn_sq (h : ℝ) : sgn h * sgn h = 1 := by unfold sgn; split <;> norm_num
theorem sgn_abs (h : ℝ) : sgn h * h = |h| := by
  unfold sgn
  split
  · rename_i h0; rw [abs_of_nonneg h0, one_mul]
  · rename_i h0; rw [abs_of_neg (not_le.mp h0)]; ring
theorem sgn_inv (h : ℝ) (h0 : h ≠ 0) : sgn h * (1 / h) = 1 / |h| := by
  rw [← sgn_abs]
  have := sgn_sq h
  have hs : sgn h ≠ 0 := fun e => by rw [e] at this; norm_num at this
  field_simp
  linarith

/-- **C164.** Every point comes back from the coordinates along the axis, also those at the centre of the curvature and behind it. -/
theorem C164_back (p : P3) (h : ℝ) : toCartesian (toCurvilinear p h) h = p := by
  have pe : (0 : ℝ) < eps := by norm_num [eps]
  unfold toCurvilinear toCartesian
  by_cases hh : |h| < eps
  · rw [if_pos hh, if_pos hh]
  rw [if_neg hh, if_neg hh]
  have h0 : h ≠ 0 := fun e => hh (by rw [e, abs_zero]; exact pe)
  have hs := sgn_sq h
  have e1 : h * (atan2 (sgn h * p.z) (sgn h * (p.x + 1 / h)) * (1 / h)) = atan2 (sgn h * p.z) (sgn h * (p.x + 1 / h)) := by field_simp
  simp only [e1]
  generalize hx : p.x + 1 / h = x
  have hsq : (sgn h * x) * (sgn h * x) + (sgn h * p.z) * (sgn h * p.z) = x ^ 2 + p.z ^ 2 := by
    linear_combination (x ^ 2 + p.z ^ 2) * hs
  have cancel : 1 / h + (sgn h * √(x ^ 2 + p.z ^ 2) - 1 / h) = sgn h * √(x ^ 2 + p.z ^ 2) := by ring
  simp only [cancel]
  rcases eq_or_lt_of_le (show 0 ≤ x ^ 2 + p.z ^ 2 by positivity) with hz | hz
  · have hx0 : x = 0 := by nlinarith [sq_nonneg x, sq_nonneg p.z]
    have hz0 : p.z = 0 := by nlinarith [sq_nonneg x, sq_nonneg p.z]
    rw [← hz]
    apply P3.ext
    · simp only [Real.sqrt_zero, mul_zero, zero_mul]; linarith
    · rfl
    · simp only [Real.sqrt_zero, mul_zero, zero_mul]; linarith
  · obtain ⟨r, hr0, hrr⟩ : ∃ r : ℝ, 0 < r ∧ x ^ 2 + p.z ^ 2 = r * r := ⟨_, Real.sqrt_pos.mpr hz, (Real.mul_self_sqrt hz.le).symm⟩
    have hq : √(x ^ 2 + p.z ^ 2) = r := by rw [hrr]; exact Real.sqrt_mul_self hr0.le
    obtain ⟨hc, hsn⟩ := atan2_cos_sin (sgn h * x) (sgn h * p.z) r hr0 (by rw [hsq, hrr])
    rw [hq, hc, hsn]
    apply P3.ext
    · show sgn h * r * (sgn h * x / r) - 1 / h = p.x
      have : sgn h * r * (sgn h * x / r) = (sgn h * sgn h) * x := by field_simp
      rw [this, hs]; linarith
    · rfl
    · show sgn h * r * (sgn h * p.z / r) = p.z
      have : sgn h * r * (sgn h * p.z / r) = (sgn h * sgn h) * p.z := by field_simp
      rw [this, hs]; linarith

/-- **C164.** Coordinates along the axis are found again, if the point is on the same side of the centre of the curvature as the axis and
the axis turns by less than half a turn to it. -/
theorem C164_forth (p : P3) (h : ℝ) (hx : 0 < 1 + h * p.x) (h1 : -π < h * p.z) (h2 : h * p.z ≤ π) :
    toCurvilinear (toCartesian p h) h = p := by
  have pe : (0 : ℝ) < eps := by norm_num [eps]
  unfold toCurvilinear toCartesian
  by_cases hh : |h| < eps
  · rw [if_pos hh, if_pos hh]
  rw [if_neg hh, if_neg hh]
  have h0 : h ≠ 0 := fun e => hh (by rw [e, abs_zero]; exact pe)
  have ha : 0 < |h| := abs_pos.mpr h0
  have hs := sgn_sq h
  have hsi := sgn_inv h h0
  have hsn0 : sgn h ≠ 0 := fun e => by rw [e] at hs; norm_num at hs
  have hr : 0 < sgn h * (1 / h + p.x) := by
    have : sgn h * (1 / h + p.x) = (1 + h * p.x) / |h| := by
      rw [← sgn_abs]; field_simp; linear_combination hs
    rw [this]; exact div_pos hx ha
  have e1 : (1 / h + p.x) * cos (h * p.z) - 1 / h + 1 / h = (1 / h + p.x) * cos (h * p.z) := by ring
  simp only [e1]
  have e2 : ((1 / h + p.x) * cos (h * p.z)) ^ 2 + ((1 / h + p.x) * sin (h * p.z)) ^ 2
      = (sgn h * (1 / h + p.x)) * (sgn h * (1 / h + p.x)) := by
    have := Real.sin_sq_add_cos_sq (h * p.z)
    linear_combination (1 / h + p.x) ^ 2 * this - (1 / h + p.x) ^ 2 * hs
  have e3 : √(((1 / h + p.x) * cos (h * p.z)) ^ 2 + ((1 / h + p.x) * sin (h * p.z)) ^ 2) = sgn h * (1 / h + p.x) := by
    rw [e2, Real.sqrt_mul_self hr.le]
  have e4 : atan2 (sgn h * ((1 / h + p.x) * sin (h * p.z))) (sgn h * ((1 / h + p.x) * cos (h * p.z))) = h * p.z := by
    rw [← mul_assoc, ← mul_assoc]
    exact atan2_polar _ _ hr h1 h2
  rw [e3, e4]
  apply P3.ext
  · show sgn h * (sgn h * (1 / h + p.x)) - 1 / h = p.x
    linear_combination (1 / h + p.x) * hs
  · rfl
  · show h * p.z * (1 / h) = p.z
    field_simp

/-- The hypotheses are met by a point beside a bend. -/
example : toCurvilinear (toCartesian ⟨1 / 2, 3, 1⟩ 1) 1 = ⟨1 / 2, 3, 1⟩ :=
  C164_forth _ _ (by norm_num) (by norm_num; linarith [Real.pi_pos]) (by norm_num; linarith [Real.pi_gt_three])

/-- How far the point with given coordinates along the axis is above the plane across the axis at `s0`. -/
theorem height_across (h s0 : ℝ) (hh : eps ≤ |h|) (p q : P3) (hq : q.z = s0) :
    height (toCartesian q h) ⟨-sin (h * s0), 0, cos (h * s0)⟩ (toCartesian p h) = (1 / h + p.x) * sin (h * p.z - h * s0) := by
  unfold toCartesian
  rw [if_neg (not_lt.mpr hh), if_neg (not_lt.mpr hh)]
  simp only [height]
  rw [hq, Real.sin_sub]
  ring

/-- **C164.** A plane across the axis cuts the wall between two profiles, one on each side of it, where the wall meets the plane. -/
theorem C164_across (a b q : P3) (h : ℝ) (hh : eps ≤ |h|) (hq : eps ≤ 1 + h * (toCurvilinear q h).x)
    (ha : (toCurvilinear a h).z ≤ (toCurvilinear q h).z) (hb : (toCurvilinear q h).z ≤ (toCurvilinear b h).z)
    (hab : eps * (1 + h * (toCurvilinear q h).x) ≤ (toCurvilinear b h).z - (toCurvilinear a h).z)
    (hlen : eps ≤ (toCurvilinear b h).z - (toCurvilinear a h).z) :
    ∃ p, wallHit a b q ⟨-sin (h * (toCurvilinear q h).z), 0, cos (h * (toCurvilinear q h).z)⟩ h = some p ∧
      height q ⟨-sin (h * (toCurvilinear q h).z), 0, cos (h * (toCurvilinear q h).z)⟩ p = 0 ∧
      ∃ t, 0 ≤ t ∧ t ≤ 1 ∧ p = toCartesian (linePoint (toCurvilinear a h) (toCurvilinear b h) t) h := by
  have pe : (0 : ℝ) < eps := by norm_num [eps]
  have hq' := C164_back q h
  unfold wallHit
  generalize toCurvilinear q h = qc at *
  generalize toCurvilinear a h = ac at *
  generalize toCurvilinear b h = bc at *
  have hs : 0 < 1 + h * qc.x := by linarith
  have hn : vectorToCurvilinear qc ⟨-sin (h * qc.z), 0, cos (h * qc.z)⟩ h = some ⟨0, 0, 1 / (1 + h * qc.x)⟩ := by
    unfold vectorToCurvilinear
    rw [if_neg (not_lt.mpr hh), if_neg (not_lt.mpr (hq.trans (le_abs_self _)))]
    congr 2
    · ring
    · congr 1
      have := Real.sin_sq_add_cos_sq (h * qc.z)
      linarith
  rw [hn]
  have na : dot ⟨0, 0, 1 / (1 + h * qc.x)⟩ (sub ac qc) = (ac.z - qc.z) / (1 + h * qc.x) := by simp only [dot, sub]; ring
  have nb : dot ⟨0, 0, 1 / (1 + h * qc.x)⟩ (sub bc qc) = (bc.z - qc.z) / (1 + h * qc.x) := by simp only [dot, sub]; ring
  have hdiff : (bc.z - qc.z) / (1 + h * qc.x) - (ac.z - qc.z) / (1 + h * qc.x) = (bc.z - ac.z) / (1 + h * qc.x) := by ring
  have hge : eps ≤ (bc.z - ac.z) / (1 + h * qc.x) := by rw [le_div_iff₀ hs]; exact hab
  have hl : lineT ac bc qc ⟨0, 0, 1 / (1 + h * qc.x)⟩ = some (-((ac.z - qc.z) / (1 + h * qc.x)) /
      ((bc.z - qc.z) / (1 + h * qc.x) - (ac.z - qc.z) / (1 + h * qc.x))) := by
    unfold lineT
    have h1 : ¬ dot (sub bc ac) (sub bc ac) < eps * eps := by
      simp only [dot, sub]
      nlinarith [mul_self_nonneg (bc.x - ac.x), mul_self_nonneg (bc.y - ac.y)]
    rw [na, nb, if_neg h1, if_neg (by rw [hdiff]; exact not_lt.mpr (hge.trans (le_abs_self _)))]
  dsimp only
  rw [hl]
  obtain ⟨t0, t1⟩ := fraction ((ac.z - qc.z) / (1 + h * qc.x)) ((bc.z - qc.z) / (1 + h * qc.x)) (by rw [hdiff]; linarith)
    (mul_nonpos_of_nonpos_of_nonneg (div_nonpos_of_nonpos_of_nonneg (by linarith) hs.le) (div_nonneg (by linarith) hs.le))
  have tz : ac.z + -((ac.z - qc.z) / (1 + h * qc.x)) / ((bc.z - qc.z) / (1 + h * qc.x) - (ac.z - qc.z) / (1 + h * qc.x)) * (bc.z - ac.z)
      = qc.z := by
    rw [hdiff]
    have : bc.z - ac.z ≠ 0 := by linarith
    field_simp
    ring
  generalize -((ac.z - qc.z) / (1 + h * qc.x)) / ((bc.z - qc.z) / (1 + h * qc.x) - (ac.z - qc.z) / (1 + h * qc.x)) = t at t0 t1 tz
  have g1 : ¬ (t < -eps ∨ 1 + eps < t) := by rintro (g | g) <;> linarith
  dsimp only
  rw [if_neg g1, if_neg (not_lt.mpr t0), if_neg (not_lt.mpr t1)]
  refine ⟨_, rfl, ?_, t, t0, t1, rfl⟩
  rw [← hq', height_across h qc.z hh _ qc rfl]
  have : (linePoint ac bc t).z = qc.z := tz
  rw [this, sub_self, Real.sin_zero, mul_zero]

/-- The hypotheses are met by a wall along a bend, and the plane across it in between. -/
example : ∃ p, wallHit (toCartesian ⟨1 / 2, 0, 0⟩ 1) (toCartesian ⟨1 / 4, 0, 1⟩ 1) (toCartesian ⟨0, 0, 1 / 2⟩ 1)
      ⟨-sin (1 * (toCurvilinear (toCartesian ⟨0, 0, 1 / 2⟩ 1) 1).z), 0, cos (1 * (toCurvilinear (toCartesian ⟨0, 0, 1 / 2⟩ 1) 1).z)⟩ 1
    = some p := by
  have hp := Real.pi_gt_three
  have e1 : toCurvilinear (toCartesian ⟨1 / 2, 0, 0⟩ 1) 1 = ⟨1 / 2, 0, 0⟩ := C164_forth _ _ (by norm_num) (by norm_num; linarith) (by norm_num; linarith)
  have e2 : toCurvilinear (toCartesian ⟨1 / 4, 0, 1⟩ 1) 1 = ⟨1 / 4, 0, 1⟩ := C164_forth _ _ (by norm_num) (by norm_num; linarith) (by norm_num; linarith)
  have e3 : toCurvilinear (toCartesian ⟨0, 0, 1 / 2⟩ 1) 1 = ⟨0, 0, 1 / 2⟩ := C164_forth _ _ (by norm_num) (by norm_num; linarith) (by norm_num; linarith)
  obtain ⟨p, h, _⟩ := C164_across (toCartesian ⟨1 / 2, 0, 0⟩ 1) (toCartesian ⟨1 / 4, 0, 1⟩ 1) (toCartesian ⟨0, 0, 1 / 2⟩ 1) 1
    (by norm_num [eps]) (by rw [e3]; norm_num [eps]) (by rw [e1, e3]; norm_num) (by rw [e2, e3]; norm_num)
    (by rw [e1, e2, e3]; norm_num [eps]) (by rw [e1, e2]; norm_num [eps])
  exact ⟨p, h⟩

/-- **C164 (violated).** A plane oblique to the axis does not cut the wall where the wall meets it: the wall of a pipe with a radius of
a metre, half a metre outside of the axis, is cut a fifth of a metre (times √2) off the plane. -/
theorem C164_oblique_violated :
    ∃ p, wallHit (toCartesian ⟨1 / 2, 0, -1⟩ 1) (toCartesian ⟨1 / 2, 0, 0⟩ 1) ⟨0, 0, 0⟩ ⟨1, 0, 1⟩ 1 = some p ∧
      height ⟨0, 0, 0⟩ ⟨1, 0, 1⟩ p < -1 / 5 := by
  have hp := Real.pi_gt_three
  have pe : (0 : ℝ) < eps := by norm_num [eps]
  have e1 : toCurvilinear (toCartesian ⟨1 / 2, 0, -1⟩ 1) 1 = ⟨1 / 2, 0, -1⟩ := C164_forth _ _ (by norm_num) (by norm_num; linarith) (by norm_num; linarith)
  have e2 : toCurvilinear (toCartesian ⟨1 / 2, 0, 0⟩ 1) 1 = ⟨1 / 2, 0, 0⟩ := C164_forth _ _ (by norm_num) (by norm_num; linarith) (by norm_num; linarith)
  have e3 : toCurvilinear ⟨0, 0, 0⟩ 1 = ⟨0, 0, 0⟩ := by
    have := C164_forth ⟨0, 0, 0⟩ 1 (by norm_num) (by norm_num; linarith) (by norm_num; linarith)
    have e : toCartesian ⟨0, 0, 0⟩ 1 = ⟨0, 0, 0⟩ := by
      unfold toCartesian
      split
      · rfl
      · norm_num
    rwa [e] at this
  have h1 : ¬ |(1 : ℝ)| < eps := by norm_num [eps]
  have hn : vectorToCurvilinear ⟨0, 0, 0⟩ ⟨1, 0, 1⟩ 1 = some ⟨1, 0, 1⟩ := by
    unfold vectorToCurvilinear
    rw [if_neg h1, if_neg (by norm_num [eps])]
    norm_num
  have hl : lineT ⟨1 / 2, 0, -1⟩ ⟨1 / 2, 0, 0⟩ ⟨0, 0, 0⟩ ⟨1, 0, 1⟩ = some (1 / 2) := by
    unfold lineT
    rw [if_neg (by norm_num [dot, sub, eps]), if_neg (by norm_num [dot, sub, eps])]
    norm_num [dot, sub]
  refine ⟨toCartesian ⟨1 / 2, 0, -1 / 2⟩ 1, ?_, ?_⟩
  · unfold wallHit
    rw [e1, e2, e3, hn]
    dsimp only
    rw [hl]
    dsimp only
    rw [if_neg (by norm_num [eps])]
    norm_num [linePoint]
  · unfold toCartesian
    rw [if_neg h1]
    simp only [height]
    have hs := Real.sin_gt_sub_cube (x := 1 / 2) (by norm_num)
    have hc := Real.cos_le_one (1 / 2)
    have n1 : sin (1 * (-1 / 2)) = -sin (1 / 2) := by rw [← Real.sin_neg]; norm_num
    have n2 : cos (1 * (-1 / 2)) = cos (1 / 2) := by rw [← Real.cos_neg]; norm_num
    rw [n1, n2]
    norm_num at hs ⊢
    linarith

end Verif.AperModel.Curvilinear
