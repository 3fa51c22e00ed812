import Verif.Thin.Props
import Mathlib.Analysis.SpecialFunctions.Arsinh

/-!
# C87, C88: nonlinear lenses and electron lenses
-/

namespace Verif.Thin

open Frames hiding curvature
open Symplectic Filter Topology
open Rf (Ctx clight)

noncomputable section

/-! ### C87: nonlinear lens -/

theorem lensPotential_eq (knll : ℝ) {c : ℝ} (hc : 0 < c) (x y : ℝ) : lensPotential knll c x y = knll * elliptic c x y := by
  have e : ∀ a : ℝ, Real.sqrt ((x / c + a) ^ 2 + (y / c) ^ 2) = Real.sqrt ((x + a * c) ^ 2 + y ^ 2) / c := fun a => by
    rw [show (x / c + a) ^ 2 + (y / c) ^ 2 = ((x + a * c) ^ 2 + y ^ 2) / c ^ 2 by field_simp, Real.sqrt_div (by positivity),
      Real.sqrt_sq hc.le]
  have e1 := e (-1)
  have e2 := e 1
  simp only [one_mul, neg_mul, ← sub_eq_add_neg] at e1 e2
  unfold lensPotential potXY elliptic potUV uOf vOf
  simp only [e1, e2]
  have hu : 0.5 * (Real.sqrt ((x - c) ^ 2 + y ^ 2) / c) + 0.5 * (Real.sqrt ((x + c) ^ 2 + y ^ 2) / c)
      = (Real.sqrt ((x + c) ^ 2 + y ^ 2) + Real.sqrt ((x - c) ^ 2 + y ^ 2)) / (2 * c) := by
    field_simp
    ring
  have hv : 0.5 * (Real.sqrt ((x + c) ^ 2 + y ^ 2) / c) - 0.5 * (Real.sqrt ((x - c) ^ 2 + y ^ 2) / c)
      = (Real.sqrt ((x + c) ^ 2 + y ^ 2) - Real.sqrt ((x - c) ^ 2 + y ^ 2)) / (2 * c) := by
    field_simp
    ring
  rw [hu, hv]
  simp only [Real.arccos]
  ring

/-- **C87.**  The kick of a `NonLinearLens` on a particle off the horizontal plane is the gradient of `knll` times the elliptic potential
with singularities at `x = ± cnll`, `y = 0`; nothing else changes. -/
theorem C87_potential {knll cnll : ℝ} (hc : 0 < cnll) {p : Part} (hy : p.y ≠ 0) :
    ∃ kx ky : ℝ, HasFDerivAt (fun w : ℝ × ℝ => knll * elliptic cnll w.1 w.2)
        (kx • ContinuousLinearMap.fst ℝ ℝ ℝ + ky • ContinuousLinearMap.snd ℝ ℝ ℝ) (p.x, p.y)
      ∧ nonlinearLens knll cnll p = { p with px := p.px + kx, py := p.py + ky } := by
  refine ⟨_, _, ?_, lens_track knll cnll p⟩
  have h := lens_gradient (knll := knll) hc.ne' (w := (p.x, p.y)) hy
  simp only [lensPotential_eq knll hc] at h
  exact h

theorem uv_axis {t : ℝ} (h1 : -1 < t) (h2 : t < 1) : uOf t 0 = 1 ∧ vOf t 0 = t ∧ dux t 0 = 0 ∧ dvx t 0 = 1 ∧ duy t 0 = 0 ∧ dvy t 0 = 0 := by
  have s1 : Real.sqrt ((t - 1) ^ 2 + 0 ^ 2) = 1 - t := by
    rw [show (t - 1) ^ 2 + 0 ^ 2 = (1 - t) ^ 2 by ring, Real.sqrt_sq (by linarith)]
  have s2 : Real.sqrt ((t + 1) ^ 2 + 0 ^ 2) = 1 + t := by
    rw [show (t + 1) ^ 2 + 0 ^ 2 = (1 + t) ^ 2 by ring, Real.sqrt_sq (by linarith)]
  have n1 : 1 - t ≠ 0 := by linarith
  have n2 : 1 + t ≠ 0 := by linarith
  unfold uOf vOf dux dvx duy dvy
  rw [s1, s2]
  refine ⟨by ring, by ring, ?_, ?_, by simp, by simp⟩ <;> field_simp <;> ring

/-- The kick in the horizontal plane. -/
theorem lens_axis (knll : ℝ) {c x : ℝ} (h1 : -1 < x / c) (h2 : x / c < 1) :
    (lensKick knll c x 0).1 = knll / c * dUv 1 (x / c) ∧ (lensKick knll c x 0).2 = 0 := by
  obtain ⟨a1, a2, a3, a4, a5, a6⟩ := uv_axis h1 h2
  unfold lensKick
  simp only [zero_div, a1, a2, a3, a4, a5, a6, mul_zero, zero_add, mul_one, add_zero, and_self]

theorem hasDerivAt_dUv : HasDerivAt (fun v => dUv 1 v) (-2) 0 := by
  have h0 : HasDerivAt (fun v : ℝ => v) 1 0 := hasDerivAt_id' 0
  have d2 : HasDerivAt (fun v : ℝ => Real.sqrt (1 - v ^ 2)) 0 0 := by
    refine (((h0.fun_pow 2).const_sub 1).sqrt (by norm_num)).congr_deriv ?_
    simp
  have d3 : HasDerivAt (fun v : ℝ => Real.arccos v - Real.pi / 2) (-1) 0 := by
    refine ((Real.hasDerivAt_arccos (x := 0) (by norm_num) (by norm_num)).sub_const (Real.pi / 2)).congr_deriv ?_
    simp
  have dD : HasDerivAt (fun v : ℝ => (1 : ℝ) ^ 2 - v ^ 2) 0 0 := ((h0.fun_pow 2).const_sub (1 ^ 2)).congr_deriv (by simp)
  have e : (fun v => dUv 1 v) = fun v => 2 * v * (v * (Real.arccos v - Real.pi / 2) * Real.sqrt (1 - v ^ 2)) / (1 ^ 2 - v ^ 2) ^ 2
      - (v - (Real.arccos v - Real.pi / 2) * Real.sqrt (1 - v ^ 2) + v ^ 2 * (Real.arccos v - Real.pi / 2) / Real.sqrt (1 - v ^ 2))
        / (1 ^ 2 - v ^ 2) := by
    funext v
    unfold dUv
    norm_num
  rw [e]
  refine ((((h0.const_mul 2).fun_mul ((h0.fun_mul d3).fun_mul d2)).fun_div (dD.fun_pow 2) (by norm_num)).fun_sub
    (((h0.fun_sub (d3.fun_mul d2)).fun_add (((h0.fun_pow 2).fun_mul d3).fun_div d2 (by norm_num))).fun_div dD (by norm_num))).congr_deriv ?_
  norm_num

/-- The kick above and below the centre. -/
theorem lens_vertical (knll c y : ℝ) : (lensKick knll c 0 y).2 = knll / c * (y / c / (1 + (y / c) ^ 2)
      + Real.arsinh (y / c) / Real.sqrt (1 + (y / c) ^ 2) - (y / c) ^ 2 * Real.arsinh (y / c) / Real.sqrt (1 + (y / c) ^ 2) ^ 3) := by
  unfold lensKick
  simp only [zero_div]
  congr 1
  generalize y / c = t
  have hp : 0 < 1 + t ^ 2 := by positivity
  have hs := Real.sqrt_pos.2 hp
  have hq := Real.sq_sqrt hp.le
  have e1 : ((0 : ℝ) - 1) ^ 2 + t ^ 2 = 1 + t ^ 2 := by ring
  have e2 : ((0 : ℝ) + 1) ^ 2 + t ^ 2 = 1 + t ^ 2 := by ring
  have hu : uOf 0 t = Real.sqrt (1 + t ^ 2) := by
    unfold uOf
    rw [e1, e2]
    ring
  have hv : vOf 0 t = 0 := by
    unfold vOf
    rw [e1, e2]
    ring
  have huy : duy 0 t = t / Real.sqrt (1 + t ^ 2) := by
    unfold duy
    rw [e1, e2]
    ring
  have hvy : dvy 0 t = 0 := by
    unfold dvy
    rw [e1, e2]
    ring
  rw [hu, hv, huy, hvy, mul_zero, add_zero]
  rcases eq_or_ne t 0 with rfl | ht
  · simp
  · have hw : Real.sqrt (1 + t ^ 2) * Real.sqrt (1 + t ^ 2) = 1 + t ^ 2 := Real.mul_self_sqrt hp.le
    have h1 : Real.sqrt (1 + t ^ 2) ≠ 1 := fun h => by
      rw [h] at hq
      exact ht (by nlinarith)
    have ha : 0 < |t| := abs_pos.2 ht
    have hL : Real.log (Real.sqrt (1 + t ^ 2) + |t|) = Real.arsinh |t| := by
      rw [Real.arsinh, add_comm, sq_abs]
    have sign : Real.arsinh |t| * |t| = Real.arsinh t * t ∧ Real.arsinh |t| / |t| = Real.arsinh t / t := by
      rcases abs_cases t with ⟨h, _⟩ | ⟨h, _⟩
      · rw [h]
        exact ⟨rfl, rfl⟩
      · rw [h, Real.arsinh_neg]
        exact ⟨by ring, by rw [neg_div_neg_eq]⟩
    unfold dUu
    simp only [if_neg h1, hq, hw]
    rw [show (1 : ℝ) + t ^ 2 - 1 = t ^ 2 by ring, Real.sqrt_sq_eq_abs, hL, sign.1]
    have e3 : (1 + t ^ 2) * Real.arsinh |t| / |t| = (1 + t ^ 2) * (Real.arsinh t / t) := by rw [mul_div_assoc, sign.2]
    rw [e3]
    have e4 : Real.sqrt (1 + t ^ 2) * Real.arsinh |t| * |t| = Real.sqrt (1 + t ^ 2) * (Real.arsinh t * t) := by rw [mul_assoc, sign.1]
    rw [e4]
    generalize Real.sqrt (1 + t ^ 2) = w at *
    generalize Real.arsinh t = L
    simp only [← hq]
    have hw0 := hs.ne'
    norm_num
    field_simp
    ring

/-- **C87, small amplitudes.**  The kick of a particle in the centre vanishes, and its linear part is that of a quadrupole with
`k1 = 2 knll / cnll²`: it focuses with `-k1 x` in the horizontal plane and defocuses with `k1 y` in the vertical plane. -/
theorem C87_quadrupole {knll cnll : ℝ} (hc : cnll ≠ 0) (p : Part) :
    let k1 := 2 * knll / cnll ^ 2
    nonlinearLens knll cnll { p with x := 0, y := 0 } = { p with x := 0, y := 0 }
      ∧ HasDerivAt (fun x => (nonlinearLens knll cnll { p with x := x, y := 0 }).px) (-k1) 0
      ∧ HasDerivAt (fun y => (nonlinearLens knll cnll { p with x := 0, y := y }).py) k1 0 := by
  intro k1
  have hx : HasDerivAt (fun x : ℝ => x / cnll) (1 / cnll) 0 := (hasDerivAt_id' 0).div_const cnll
  refine ⟨?_, ?_, ?_⟩
  · obtain ⟨h1, h2⟩ := lens_axis knll (c := cnll) (x := 0) (by simp) (by simp)
    rw [lens_track]
    simp only [h1, h2, zero_div]
    simp [dUv]
  · have near : ∀ᶠ x : ℝ in 𝓝 0, -1 < x / cnll ∧ x / cnll < 1 := by
      have : ContinuousAt (fun x : ℝ => x / cnll) 0 := hx.continuousAt
      exact (this.eventually (Ioo_mem_nhds (a := -1) (b := 1) (by simp) (by simp))).mono fun x h => h
    have d : HasDerivAt (fun x => p.px + knll / cnll * dUv 1 (x / cnll)) (knll / cnll * (-2 * (1 / cnll))) 0 := by
      have h := hasDerivAt_dUv
      rw [show (0 : ℝ) = 0 / cnll by simp] at h
      exact ((h.comp 0 hx).const_mul (knll / cnll)).const_add p.px
    refine (d.congr_of_eventuallyEq ?_).congr_deriv ?_
    · filter_upwards [near] with x h
      rw [lens_track]
      show p.px + (lensKick knll cnll x 0).1 = _
      rw [(lens_axis knll h.1 h.2).1]
    · simp only [k1]
      field_simp
  · have d : HasDerivAt (fun t : ℝ => t / (1 + t ^ 2) + Real.arsinh t / Real.sqrt (1 + t ^ 2)
        - t ^ 2 * Real.arsinh t / Real.sqrt (1 + t ^ 2) ^ 3) 2 0 := by
      have h0 : HasDerivAt (fun v : ℝ => v) 1 0 := hasDerivAt_id' 0
      have ha : HasDerivAt Real.arsinh 1 0 := by simpa using Real.hasDerivAt_arsinh 0
      have hD : HasDerivAt (fun t : ℝ => 1 + t ^ 2) 0 0 := ((h0.fun_pow 2).const_add 1).congr_deriv (by simp)
      have hS : HasDerivAt (fun t : ℝ => Real.sqrt (1 + t ^ 2)) 0 0 := (hD.sqrt (by norm_num)).congr_deriv (by simp)
      refine (((h0.fun_div hD (by norm_num)).fun_add (ha.fun_div hS (by norm_num))).fun_sub
        (((h0.fun_pow 2).fun_mul ha).fun_div (hS.fun_pow 3) (by norm_num))).congr_deriv ?_
      norm_num
    have e : (fun y => (nonlinearLens knll cnll { p with x := 0, y := y }).py) = fun y => p.py + knll / cnll
        * (y / cnll / (1 + (y / cnll) ^ 2) + Real.arsinh (y / cnll) / Real.sqrt (1 + (y / cnll) ^ 2)
          - (y / cnll) ^ 2 * Real.arsinh (y / cnll) / Real.sqrt (1 + (y / cnll) ^ 2) ^ 3) := by
      funext y
      rw [lens_track]
      show p.py + (lensKick knll cnll 0 y).2 = _
      rw [lens_vertical]
    rw [e]
    rw [show (0 : ℝ) = 0 / cnll by simp] at d
    refine (((d.comp 0 hx).const_mul (knll / cnll)).const_add p.py).congr_deriv ?_
    simp only [k1]
    field_simp

/-! ### C88: electron lens -/

theorem enclosed_eq (i : ℝ) {r1 r2 : ℝ} (h1 : 0 ≤ r1) (h : r1 < r2) (r : ℝ) :
    enclosed i r1 r2 r = i * ((max r1 (min r r2)) ^ 2 - r1 ^ 2) / (r2 ^ 2 - r1 ^ 2) := by
  unfold enclosed
  have hn : r2 ^ 2 - r1 ^ 2 ≠ 0 := by nlinarith
  have hp := Real.pi_ne_zero
  rw [intervalIntegral.integral_const_mul, intervalIntegral.integral_const_mul, integral_id]
  field_simp

theorem frr_eq (e : Elens) (ho : e.order = 0) (h1 : 0 ≤ e.innerRadius) (h : e.innerRadius < e.outerRadius) (r : ℝ) :
    e.current * e.frr r = enclosed e.current e.innerRadius e.outerRadius r := by
  have hn : e.outerRadius ^ 2 - e.innerRadius ^ 2 ≠ 0 := by nlinarith
  rw [enclosed_eq _ h1 h]
  unfold Elens.frr
  rw [if_pos ho]
  split_ifs with a b
  · rw [min_eq_left (by linarith), max_eq_left a.le]
    ring
  · rw [min_eq_right (by linarith), max_eq_right h.le]
    field_simp
  · push Not at a b
    rw [min_eq_left b, max_eq_right a]
    simp only [← pow_two]
    field_simp

theorem betaE_pos (e : Elens) (hv : 0 < e.voltage) : 0 < e.betaE := by
  unfold Elens.betaE
  have : 0 < e.voltage + 510998.928 := by positivity
  apply div_pos _ this
  apply Real.sqrt_pos.2
  nlinarith

/-- **C88.**  The kick of an electron lens of uniform density on a particle outside of its inner radius is the Lorentz force of the
current within the radius of the particle, times the time which the particle spends in the lens, over the momentum of the reference
particle, and points to the axis.  A particle within the inner radius gets the residual kick, and the current within its radius is 0.
Missing: particles with another charge, mass or momentum than the reference particle (below). -/
theorem C88_elens_partial (e : Elens) (c : Ctx) (p : Part) (ho : e.order = 0) (h1 : 0 ≤ e.innerRadius) (h : e.innerRadius < e.outerRadius)
    (hv : 0 < e.voltage) (hb : 0 < p.rvv * p.beta0) (hchi : p.chi = 1) (hrpp : p.rpp = 1) :
    let r := Real.sqrt (p.x ^ 2 + p.y ^ 2)
    let betaP := p.rvv * p.beta0
    let i := enclosed e.current e.innerRadius e.outerRadius r
    let kick := p.chi * lensForce epsilon0 clight i e.betaE betaP r * (e.length / (betaP * clight)) / (c.p0c / (c.q0 * clight))
    (e.innerRadius < r → e.track c false p = { p with px := p.px - kick * (p.x / r), py := p.py - kick * (p.y / r) })
      ∧ (r ≤ e.innerRadius → i = 0 ∧ e.track c false p = { p with px := p.px + e.residualX, py := p.py + e.residualY }) := by
  intro r betaP i kick
  refine ⟨fun hr => ?_, fun hr => ⟨?_, ?_⟩⟩
  · have hE := (betaE_pos e hv).ne'
    have hB : p.rvv * p.beta0 ≠ 0 := hb.ne'
    have hr0 : r ≠ 0 := (h1.trans_lt hr).ne'
    have ho0 : e.outerRadius ≠ 0 := (h1.trans_lt h).ne'
    have hp := Real.pi_ne_zero
    have hc : clight ≠ 0 := by norm_num [clight]
    have he : epsilon0 ≠ 0 := by norm_num [epsilon0]
    have hf : i = e.current * e.frr r := (frr_eq e ho h1 h r).symm
    simp only [Elens.track, ← pow_two, Bool.false_eq_true, if_false]
    rw [if_pos (show Real.sqrt (p.x ^ 2 + p.y ^ 2) > e.innerRadius from hr)]
    show ({ p with px := _, py := _ } : Part) = _
    have r0 : Real.sqrt (p.x ^ 2 + p.y ^ 2) = r := rfl
    simp only [r0, kick, hf, lensForce, Elens.thetaMax, hchi, hrpp, betaP]
    generalize p.rvv * p.beta0 = B at *
    generalize e.betaE = E at *
    generalize e.frr r = F
    generalize r = R at hr0
    generalize epsilon0 = E0 at *
    generalize clight = C at *
    congr 1 <;> field_simp <;> ring
  · simp only [i]
    rw [enclosed_eq _ h1 h, min_eq_left (by linarith), max_eq_left hr]
    ring
  · simp only [Elens.track, ← pow_two]
    rw [if_neg (not_lt.2 hr)]

end

end Verif.Thin
