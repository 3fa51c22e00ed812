import Verif.AperModel.ShapesProps
import Mathlib.MeasureTheory.Integral.IntervalIntegral.Basic
import Mathlib.MeasureTheory.Integral.DominatedConvergence
import Mathlib.Analysis.SpecialFunctions.Integrals.Basic

/-!
C168, distances along elliptic arcs: with the elliptic integral of the second kind for `E`, the lengths of the code are the lengths of the
arcs, and the search for the angle at a length finds it.
-/
namespace Verif.AperModel.Shapes
open MeasureTheory

/-- How fast the point `(rx cos t, ry sin t)` moves. -/
noncomputable def speed (rx ry t : ℝ) : ℝ := Real.sqrt ((rx * Real.sin t) ^ 2 + (ry * Real.cos t) ^ 2)

/-- The incomplete elliptic integral of the second kind with modulus `k`. -/
noncomputable def ellE (phi k : ℝ) : ℝ := ∫ t in (0 : ℝ)..phi, Real.sqrt (1 - (k * Real.sin t) ^ 2)

theorem speed_continuous (rx ry : ℝ) : Continuous (speed rx ry) := by
  unfold speed
  fun_prop

theorem speed_nonneg (rx ry t : ℝ) : 0 ≤ speed rx ry t := Real.sqrt_nonneg _

/-- The speed is what it is: the derivative of the point has this length. -/
theorem speed_is (rx ry t : ℝ) : HasDerivAt (fun t => rx * Real.cos t) (-(rx * Real.sin t)) t ∧
    HasDerivAt (fun t => ry * Real.sin t) (ry * Real.cos t) t ∧
    speed rx ry t = Real.sqrt ((-(rx * Real.sin t)) ^ 2 + (ry * Real.cos t) ^ 2) := by
  refine ⟨?_, (Real.hasDerivAt_sin t).const_mul ry, by rw [neg_sq]; rfl⟩
  have := (Real.hasDerivAt_cos t).const_mul rx
  rwa [mul_neg] at this

theorem cumulative_eq {rx ry : ℝ} (h1 : 0 < rx) (h2 : 0 < ry) (hr : rx ≠ ry) (angle : ℝ) :
    cumulative ellE angle rx ry = ∫ t in (0 : ℝ)..angle, speed rx ry t := by
  unfold cumulative
  rw [if_neg (by push Not; exact ⟨h1, h2⟩), if_neg hr]
  by_cases c : rx ≥ ry
  · rw [if_pos c]
    have hk : 0 ≤ 1 - ry * ry / (rx * rx) := by
      rw [sub_nonneg, div_le_one (by positivity)]
      nlinarith
    have hk2 := Real.sq_sqrt hk
    simp only
    generalize Real.sqrt (1 - ry * ry / (rx * rx)) = k at hk2
    have hi : ∀ a b, IntervalIntegrable (fun t => Real.sqrt (1 - (k * Real.sin t) ^ 2)) volume a b := fun a b =>
      Continuous.intervalIntegrable (by fun_prop) a b
    unfold ellE
    rw [intervalIntegral.integral_interval_sub_left (hi _ _) (hi _ _)]
    have := intervalIntegral.integral_comp_sub_left (a := 0) (b := angle) (fun t => Real.sqrt (1 - (k * Real.sin t) ^ 2)) (Real.pi / 2)
    rw [sub_zero] at this
    rw [← this, ← intervalIntegral.integral_const_mul]
    refine intervalIntegral.integral_congr fun t _ => ?_
    simp only [Real.sin_pi_div_two_sub]
    unfold speed
    rw [← Real.sqrt_sq h1.le, ← Real.sqrt_mul (sq_nonneg _), Real.sqrt_sq h1.le]
    congr 1
    have e : rx ^ 2 * k ^ 2 = rx ^ 2 - ry ^ 2 := by rw [hk2]; field_simp
    linear_combination (-Real.cos t ^ 2) * e - rx ^ 2 * Real.cos_sq_add_sin_sq t
  · rw [if_neg c]
    have c' : rx < ry := not_le.mp c
    have hk : 0 ≤ 1 - rx * rx / (ry * ry) := by
      rw [sub_nonneg, div_le_one (by positivity)]
      nlinarith
    have hk2 := Real.sq_sqrt hk
    generalize Real.sqrt (1 - rx * rx / (ry * ry)) = k at hk2
    unfold ellE
    rw [← intervalIntegral.integral_const_mul]
    refine intervalIntegral.integral_congr fun t _ => ?_
    unfold speed
    rw [← Real.sqrt_sq h2.le, ← Real.sqrt_mul (sq_nonneg _), Real.sqrt_sq h2.le]
    congr 1
    have e : ry ^ 2 * k ^ 2 = ry ^ 2 - rx ^ 2 := by rw [hk2]; field_simp
    linear_combination (-Real.sin t ^ 2) * e - ry ^ 2 * Real.cos_sq_add_sin_sq t

/-- **C168.** The length which the code computes for an elliptic arc is the length of the arc. -/
theorem C168_length {rx ry a b : ℝ} (h1 : 0 < rx) (h2 : 0 < ry) (hr : rx ≠ ry) (hab : a ≤ b) :
    between ellE a b rx ry = ∫ t in a..b, speed rx ry t := by
  have hi : ∀ a b, IntervalIntegrable (speed rx ry) volume a b := fun a b => (speed_continuous rx ry).intervalIntegrable a b
  unfold between
  rw [cumulative_eq h1 h2 hr, cumulative_eq h1 h2 hr, intervalIntegral.integral_interval_sub_left (hi _ _) (hi _ _), abs_of_nonneg]
  exact intervalIntegral.integral_nonneg hab fun t _ => speed_nonneg rx ry t

theorem halve_close (E : ℝ → ℝ → ℝ) (a rx ry target : ℝ) : ∀ n (p : ℝ × ℝ), p.1 ≤ p.2 →
    between E a (a + 1 * p.1) rx ry ≤ target → target ≤ between E a (a + 1 * p.2) rx ry →
    let q := halve E a 1 rx ry target n p
    (p.1 ≤ q.1 ∧ q.1 ≤ q.2 ∧ q.2 ≤ p.2) ∧ (between E a (a + 1 * q.1) rx ry ≤ target ∧ target ≤ between E a (a + 1 * q.2) rx ry) ∧
    q.2 - q.1 = (p.2 - p.1) / 2 ^ n := by
  intro n
  induction n with
  | zero => intro p h1 h2 h3; exact ⟨⟨le_refl _, h1, le_refl _⟩, ⟨h2, h3⟩, by simp [halve]⟩
  | succ n ih =>
    intro p h1 h2 h3
    unfold halve
    simp only
    by_cases c : between E a (a + 1 * ((p.1 + p.2) / 2)) rx ry < target
    · rw [if_pos c]
      obtain ⟨⟨g1, g2, g3⟩, g4, g5⟩ := ih ((p.1 + p.2) / 2, p.2) (by simp only; linarith) c.le h3
      simp only at g1 g3 g5
      refine ⟨⟨by linarith, g2, g3⟩, g4, ?_⟩
      rw [g5, pow_succ]
      field_simp
      ring
    · rw [if_neg c]
      obtain ⟨⟨g1, g2, g3⟩, g4, g5⟩ := ih (p.1, (p.1 + p.2) / 2) (by simp only; linarith) h2 (not_lt.mp c)
      simp only at g1 g3 g5
      refine ⟨⟨g1, g2, by linarith⟩, g4, ?_⟩
      rw [g5, pow_succ]
      field_simp
      ring

/-- **C168.** The angle which the code finds at a length along an elliptic arc is the angle at that length, up to the arc divided by 2⁶¹. -/
theorem C168_angle {rx ry a b target : ℝ} (h1 : 0 < rx) (h2 : 0 < ry) (hr : rx ≠ ry) (hab : a ≤ b) (t0 : 0 ≤ target)
    (t1 : target ≤ ∫ t in a..b, speed rx ry t) :
    ∃ t, (a ≤ t ∧ t ≤ b) ∧ (∫ u in a..t, speed rx ry u) = target ∧ |angleAt ellE a b rx ry target - t| ≤ (b - a) / 2 ^ 61 := by
  have hba : 0 ≤ (b - a) / 2 ^ 61 := by have := sub_nonneg.mpr hab; positivity
  have start : target = 0 → ∃ t, (a ≤ t ∧ t ≤ b) ∧ (∫ u in a..t, speed rx ry u) = target ∧ |a - t| ≤ (b - a) / 2 ^ 61 := by
    intro h
    exact ⟨a, ⟨le_refl _, hab⟩, by rw [h, intervalIntegral.integral_same], by simpa using hba⟩
  unfold angleAt
  rw [if_neg (by push Not; exact ⟨h1, h2⟩), C168_length h1 h2 hr hab]
  by_cases c2 : (∫ t in a..b, speed rx ry t) = 0
  · rw [if_pos c2]; exact start (le_antisymm (c2 ▸ t1) t0)
  rw [if_neg c2]
  by_cases c3 : target ≤ 0
  · rw [if_pos c3]; exact start (le_antisymm c3 t0)
  rw [if_neg c3]
  by_cases c4 : target ≥ ∫ t in a..b, speed rx ry t
  · rw [if_pos c4]
    exact ⟨b, ⟨hab, le_refl _⟩, le_antisymm c4 t1, by simpa using hba⟩
  rw [if_neg c4]
  simp only [if_pos (ge_iff_le.mpr hab), if_neg hr]
  have L : ∀ m, 0 ≤ m → between ellE a (a + 1 * m) rx ry = ∫ t in a..(a + m), speed rx ry t := fun m hm => by
    rw [one_mul]; exact C168_length h1 h2 hr (by linarith)
  rw [abs_of_nonneg (sub_nonneg.mpr hab)]
  obtain ⟨⟨g1, g2, g3⟩, ⟨g4, g5⟩, g6⟩ := halve_close ellE a rx ry target 60 (0, b - a) (by simpa using hab)
    (by simp only; rw [L 0 (le_refl _)]; simpa using t0) (by simp only; rw [L _ (sub_nonneg.mpr hab)]; simpa using t1)
  generalize halve ellE a 1 rx ry target 60 (0, b - a) = q at *
  simp only at g1 g3 g6
  rw [L _ g1] at g4
  rw [L _ (g1.trans g2)] at g5
  have hc : Continuous fun m => ∫ t in a..(a + m), speed rx ry t :=
    (intervalIntegral.continuous_primitive (fun a b => (speed_continuous rx ry).intervalIntegrable a b) a).comp (continuous_const.add continuous_id)
  obtain ⟨m, ⟨m1, m2⟩, hm⟩ := intermediate_value_Icc g2 hc.continuousOn ⟨g4, g5⟩
  refine ⟨a + m, ⟨by linarith, by linarith⟩, hm, ?_⟩
  have e : (b - a) / 2 ^ 61 = (q.2 - q.1) / 2 := by rw [g6]; norm_num; ring
  rw [e, abs_le]
  constructor <;> linarith

example : (0 : ℝ) ≤ 1 / 2 ∧ (1 : ℝ) / 2 ≤ ∫ t in (0 : ℝ)..1, speed 1 2 t := by
  refine ⟨by norm_num, ?_⟩
  have : ∀ t ∈ Set.Icc (0 : ℝ) 1, 1 ≤ speed 1 2 t := fun t _ => by
    unfold speed
    rw [Real.one_le_sqrt]
    nlinarith [Real.cos_sq_add_sin_sq t, sq_nonneg (Real.cos t)]
  have := intervalIntegral.integral_mono_on (μ := volume) (f := fun _ => (1 : ℝ)) (g := speed 1 2) (zero_le_one) (by simp)
    ((speed_continuous 1 2).intervalIntegrable 0 1) this
  simp at this
  linarith

end Verif.AperModel.Shapes
