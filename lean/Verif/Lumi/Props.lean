import Verif.Lumi.Model

/-!
# Luminosity: properties (C127)

The specification is the overlap of the two bunches: each has a Gaussian density around its orbit, with the size which the optics give at the distance `s` from the
interaction point, and moves with its velocity; the rate of collisions is the overlap in space and time times the kinematic factor of two velocities.
-/

namespace Verif.Lumi

open MeasureTheory

noncomputable section

/-- Gaussian density. -/
def gauss (m σ x : ℝ) : ℝ := Real.exp (-(x - m) ^ 2 / (2 * σ ^ 2)) / (√(2 * Real.pi) * σ)

/-- Momentum times the velocity of light. -/
def momentum (b : Beam) : ℝ := √(b.energy ^ 2 - b.mass ^ 2)

/-- Velocity in units of the velocity of light. -/
def relBeta (b : Beam) : ℝ := momentum b / b.energy

/-- Horizontal size at a distance from the interaction point: the emittance is the normalized one divided by the momentum in units of the mass, and the second moments
`(beta, -alpha, (1 + alpha^2) / beta)` go through a drift. -/
def sizeX (b : Beam) (s : ℝ) : ℝ := √(b.epsx / (momentum b / b.mass) * (b.betx + 2 * s * -b.alfx + s ^ 2 * ((1 + b.alfx ^ 2) / b.betx)))

/-- Vertical size. -/
def sizeY (b : Beam) (s : ℝ) : ℝ := √(b.epsy / (momentum b / b.mass) * (b.bety + 2 * s * -b.alfy + s ^ 2 * ((1 + b.alfy ^ 2) / b.bety)))

/-- Velocity of the first beam: the momenta are those divided by the total one. -/
def velocity (b : Beam) : Fin 3 → ℝ := fun i => relBeta b * clight * (![b.px, b.py, √(1 - b.px ^ 2 - b.py ^ 2)] : Fin 3 → ℝ) i

/-- Density of a bunch at a place and a time; the first bunch moves in the direction of `s` (`dir = 1`), the second one in the opposite one (`dir = -1`). -/
def rho (dir : ℝ) (b : Beam) (x y s t : ℝ) : ℝ :=
  gauss (b.x + s * b.px) (sizeX b s) x * gauss (b.y + s * b.py) (sizeY b s) y * gauss (dir * (relBeta b * clight * t)) b.sz s

/-- Kinematic factor `sqrt(|v1 - v2|^2 - |v1 x v2|^2 / c^2)`. -/
def kinematic (a b : Fin 3 → ℝ) : ℝ := √(dot3 (fun i => a i - b i) (fun i => a i - b i) - dot3 (cross3 a b) (cross3 a b) / clight ^ 2)

/-- Collisions in one second and one square centimetre, with the overlap taken at distances up to 20 bunch lengths. -/
def overlapRate (f nb : ℝ) (b1 b2 : Beam) : ℝ :=
  f * nb * b1.n * b2.n * kinematic (velocity b1) (fun i => -velocity b2 i)
    * (∫ s in (-20 * max b1.sz b2.sz)..(20 * max b1.sz b2.sz), ∫ t, ∫ x, ∫ y, rho 1 b1 x y s t * rho (-1) b2 x y s t) / 1e4

/-- A beam with positive sizes which moves. -/
structure Physical (b : Beam) : Prop where
  mass : 0 < b.mass
  energy : b.mass < b.energy
  epsx : 0 < b.epsx
  epsy : 0 < b.epsy
  sz : 0 < b.sz
  betx : 0 < b.betx
  bety : 0 < b.bety

theorem integral_shift {a μ : ℝ} (C : ℝ) : ∫ x : ℝ, C * Real.exp (-a * (x - μ) ^ 2) = C * √(Real.pi / a) := by
  rw [integral_const_mul]
  congr 1
  rw [integral_sub_right_eq_self (fun x => Real.exp (-a * x ^ 2)) μ]
  exact integral_gaussian a

/-- The overlap of two Gaussian densities. -/
theorem gauss_overlap {m1 m2 s1 s2 : ℝ} (h1 : 0 < s1) (h2 : 0 < s2) :
    ∫ x, gauss m1 s1 x * gauss m2 s2 x = Real.exp (-(m1 - m2) ^ 2 / (2 * (s1 ^ 2 + s2 ^ 2))) / (√(2 * Real.pi) * √(s1 ^ 2 + s2 ^ 2)) := by
  have hS : 0 < s1 ^ 2 + s2 ^ 2 := by positivity
  set S := s1 ^ 2 + s2 ^ 2 with hSd
  have hpi := Real.pi_pos
  have hs2pi : 0 < √(2 * Real.pi) := Real.sqrt_pos.mpr (by positivity)
  have hsq : √(2 * Real.pi) * √(2 * Real.pi) = 2 * Real.pi := Real.mul_self_sqrt (by positivity)
  have e : ∀ x, gauss m1 s1 x * gauss m2 s2 x
      = (Real.exp (-(m1 - m2) ^ 2 / (2 * S)) / (2 * Real.pi * s1 * s2)) * Real.exp (-(S / (2 * s1 ^ 2 * s2 ^ 2)) * (x - (m1 * s2 ^ 2 + m2 * s1 ^ 2) / S) ^ 2) := by
    intro x
    unfold gauss
    rw [div_mul_div_comm, ← Real.exp_add, div_mul_eq_mul_div, ← Real.exp_add]
    congr 1
    · congr 1
      have hS' : S ≠ 0 := hS.ne'
      rw [hSd] at hS' ⊢
      field_simp
      ring
    · linear_combination s1 * s2 * hsq
  simp_rw [e]
  rw [integral_shift]
  have e2 : √(Real.pi / (S / (2 * s1 ^ 2 * s2 ^ 2))) = √(2 * Real.pi) * (s1 * s2) / √S := by
    rw [show Real.pi / (S / (2 * s1 ^ 2 * s2 ^ 2)) = (2 * Real.pi) * (s1 * s2) ^ 2 / S by field_simp, Real.sqrt_div (by positivity), Real.sqrt_mul (by positivity),
      Real.sqrt_sq (by positivity)]
  rw [e2]
  have hrS : 0 < √S := Real.sqrt_pos.mpr hS
  clear e e2
  generalize √(2 * Real.pi) = q at hs2pi hsq ⊢
  rw [← hsq]
  field_simp

/-- The overlap in time of two bunches which move against each other. -/
theorem time_overlap {β1 β2 σ1 σ2 : ℝ} (hb1 : 0 < β1) (hb2 : 0 < β2) (h1 : 0 < σ1) (h2 : 0 < σ2) {c : ℝ} (hc : 0 < c) (s : ℝ) :
    ∫ t, gauss (β1 * c * t) σ1 s * gauss (-(β2 * c * t)) σ2 s
      = Real.exp (-((β1 + β2) ^ 2 * s ^ 2) / (2 * (β2 ^ 2 * σ1 ^ 2 + β1 ^ 2 * σ2 ^ 2))) / (√(2 * Real.pi) * c * √(β2 ^ 2 * σ1 ^ 2 + β1 ^ 2 * σ2 ^ 2)) := by
  have hs2pi : 0 < √(2 * Real.pi) := Real.sqrt_pos.mpr (by positivity)
  have e : ∀ t, gauss (β1 * c * t) σ1 s * gauss (-(β2 * c * t)) σ2 s
      = (1 / (β1 * c * (β2 * c))) * (gauss (s / (β1 * c)) (σ1 / (β1 * c)) t * gauss (-(s / (β2 * c))) (σ2 / (β2 * c)) t) := by
    intro t
    unfold gauss
    have e1 : -(s - β1 * c * t) ^ 2 / (2 * σ1 ^ 2) = -(t - s / (β1 * c)) ^ 2 / (2 * (σ1 / (β1 * c)) ^ 2) := by field_simp; ring
    have e2 : -(s - -(β2 * c * t)) ^ 2 / (2 * σ2 ^ 2) = -(t - -(s / (β2 * c))) ^ 2 / (2 * (σ2 / (β2 * c)) ^ 2) := by field_simp; ring
    rw [e1, e2]
    field_simp
  simp_rw [e]
  rw [integral_const_mul, gauss_overlap (by positivity) (by positivity)]
  set S := β2 ^ 2 * σ1 ^ 2 + β1 ^ 2 * σ2 ^ 2 with hS
  have hSp : 0 < S := by positivity
  have es : (σ1 / (β1 * c)) ^ 2 + (σ2 / (β2 * c)) ^ 2 = S / (β1 * β2 * c) ^ 2 := by rw [hS]; field_simp
  rw [es, Real.sqrt_div hSp.le, Real.sqrt_sq (by positivity)]
  have ee : -(s / (β1 * c) - -(s / (β2 * c))) ^ 2 / (2 * (S / (β1 * β2 * c) ^ 2)) = -((β1 + β2) ^ 2 * s ^ 2) / (2 * S) := by
    have : S ≠ 0 := hSp.ne'
    field_simp
    ring
  rw [ee]
  have hrS : 0 < √S := Real.sqrt_pos.mpr hSp
  field_simp

theorem clight_pos : 0 < clight := by norm_num [clight]

theorem gamma_gt {b : Beam} (h : Physical b) : 1 < gamma b := by
  unfold gamma; rw [one_lt_div h.mass]; exact h.energy

theorem br_pos {b : Beam} (h : Physical b) : 0 < br b := by
  have hg := gamma_gt h
  apply Real.sqrt_pos.mpr
  have : 1 / gamma b ^ 2 < 1 := by rw [div_lt_one (by positivity)]; nlinarith
  linarith

theorem br_lt {b : Beam} (h : Physical b) : br b < 1 := by
  have hg := gamma_gt h
  unfold br
  rw [Real.sqrt_lt' one_pos]
  have : 0 < 1 / gamma b ^ 2 := by positivity
  linarith

theorem driftBeta_pos {s b a : ℝ} (hb : 0 < b) : 0 < driftBeta s b a := by
  have e : driftBeta s b a = ((b - a * s) ^ 2 + s ^ 2) / b := by unfold driftBeta; field_simp; ring
  rw [e]
  apply div_pos _ hb
  by_cases hs : s = 0
  · subst hs; nlinarith
  · have : 0 < s ^ 2 := by positivity
    nlinarith [sq_nonneg (b - a * s)]

theorem sx_pos {b : Beam} (h : Physical b) (s : ℝ) : 0 < sx b s := by
  have hbg : 0 < betagamma b := mul_pos (br_pos h) (lt_trans one_pos (gamma_gt h))
  have h1 : 0 < sigma (driftBeta s b.betx b.alfx) b.epsx (betagamma b) :=
    Real.sqrt_pos.mpr (div_pos (mul_pos (driftBeta_pos h.betx) h.epsx) hbg)
  exact Real.sqrt_pos.mpr (by positivity)

theorem sy_pos {b : Beam} (h : Physical b) (s : ℝ) : 0 < sy b s := by
  have hbg : 0 < betagamma b := mul_pos (br_pos h) (lt_trans one_pos (gamma_gt h))
  have h1 : 0 < sigma (driftBeta s b.bety b.alfy) b.epsy (betagamma b) :=
    Real.sqrt_pos.mpr (div_pos (mul_pos (driftBeta_pos h.bety) h.epsy) hbg)
  exact Real.sqrt_pos.mpr (by positivity)

theorem kinematic_moeller (b1 b2 : Beam) : kinematic (v1 b1) (v2 b2) = 2 * clight * moeller b1 b2 := by
  unfold kinematic moeller
  have hc := clight_pos
  simp only
  set D := dot3 (fun i => v1 b1 i - v2 b2 i) (fun i => v1 b1 i - v2 b2 i)
  set X := dot3 (cross3 (v1 b1) (v2 b2)) (cross3 (v1 b1) (v2 b2))
  rw [show clight ^ 2 * D - X = clight ^ 2 * (D - X / clight ^ 2) by field_simp, Real.sqrt_mul (by positivity), Real.sqrt_sq hc.le]
  field_simp

theorem momentum_pos {b : Beam} (h : Physical b) : 0 < momentum b := by
  apply Real.sqrt_pos.mpr
  nlinarith [h.mass, h.energy]

theorem br_eq {b : Beam} (h : Physical b) : br b = relBeta b := by
  have hE : 0 < b.energy := lt_trans h.mass h.energy
  have hm := h.mass
  unfold br relBeta momentum gamma
  rw [show 1 - 1 / (b.energy / b.mass) ^ 2 = (b.energy ^ 2 - b.mass ^ 2) / b.energy ^ 2 by field_simp, Real.sqrt_div' _ (by positivity), Real.sqrt_sq hE.le]

theorem betagamma_eq {b : Beam} (h : Physical b) : betagamma b = momentum b / b.mass := by
  have hE : 0 < b.energy := lt_trans h.mass h.energy
  have hm := h.mass
  unfold betagamma
  rw [br_eq h]
  unfold relBeta gamma
  field_simp

theorem sx_eq {b : Beam} (h : Physical b) (s : ℝ) : sx b s = sizeX b s := by
  have hp : 0 < momentum b / b.mass := div_pos (momentum_pos h) h.mass
  unfold sx sigma sizeX
  rw [betagamma_eq h, Real.sq_sqrt (div_nonneg (mul_nonneg (driftBeta_pos h.betx).le h.epsx.le) hp.le)]
  congr 1
  unfold driftBeta
  ring

theorem sy_eq {b : Beam} (h : Physical b) (s : ℝ) : sy b s = sizeY b s := by
  have hp : 0 < momentum b / b.mass := div_pos (momentum_pos h) h.mass
  unfold sy sigma sizeY
  rw [betagamma_eq h, Real.sq_sqrt (div_nonneg (mul_nonneg (driftBeta_pos h.bety).le h.epsy.le) hp.le)]
  congr 1
  unfold driftBeta
  ring

theorem rho_one {b : Beam} (h : Physical b) (x y s t : ℝ) :
    rho 1 b x y s t = gauss (mx b s) (sx b s) x * gauss (my b s) (sy b s) y * gauss (br b * clight * t) b.sz s := by
  unfold rho mx my
  rw [sx_eq h, sy_eq h, br_eq h, one_mul, mul_comm s b.px, mul_comm s b.py]

theorem rho_two {b : Beam} (h : Physical b) (x y s t : ℝ) :
    rho (-1) b x y s t = gauss (mx b s) (sx b s) x * gauss (my b s) (sy b s) y * gauss (-(br b * clight * t)) b.sz s := by
  unfold rho mx my
  rw [sx_eq h, sy_eq h, br_eq h, neg_one_mul, mul_comm s b.px, mul_comm s b.py]

theorem v1_eq {b : Beam} (h : Physical b) : v1 b = velocity b := by
  funext i
  unfold v1 velocity
  rw [br_eq h]
  fin_cases i <;> simp

theorem v2_eq {b : Beam} (h : Physical b) : v2 b = fun i => -velocity b i := by
  funext i
  unfold v2 velocity
  rw [br_eq h]
  fin_cases i <;> simp

/-- The longitudinal factor which the exact overlap has, and the one of the code. -/
def trueWidth (b1 b2 : Beam) : ℝ := √(br b2 ^ 2 * b1.sz ^ 2 + br b1 ^ 2 * b2.sz ^ 2)

def codeWidth (b1 b2 : Beam) : ℝ := √(b1.sz ^ 2 + b2.sz ^ 2)

theorem overlap_s {b1 b2 : Beam} (h1 : Physical b1) (h2 : Physical b2) (s : ℝ) :
    ∫ t, ∫ x, ∫ y, rho 1 b1 x y s t * rho (-1) b2 x y s t
      = kernel b1 b2 s * (codeWidth b1 b2 / trueWidth b1 b2) * (1 / (2 * Real.pi * √(2 * Real.pi) * clight)) := by
  have hs2pi : 0 < √(2 * Real.pi) := Real.sqrt_pos.mpr (by positivity)
  have hsq : √(2 * Real.pi) * √(2 * Real.pi) = 2 * Real.pi := Real.mul_self_sqrt (by positivity)
  have eprod : ∀ t x y, rho 1 b1 x y s t * rho (-1) b2 x y s t
      = (gauss (br b1 * clight * t) b1.sz s * gauss (-(br b2 * clight * t)) b2.sz s) * (gauss (mx b1 s) (sx b1 s) x * gauss (mx b2 s) (sx b2 s) x)
        * (gauss (my b1 s) (sy b1 s) y * gauss (my b2 s) (sy b2 s) y) := fun t x y => by rw [rho_one h1, rho_two h2]; ring
  simp_rw [eprod]
  simp_rw [integral_const_mul, gauss_overlap (sy_pos h1 s) (sy_pos h2 s), integral_mul_const, integral_const_mul, gauss_overlap (sx_pos h1 s) (sx_pos h2 s),
    integral_mul_const, time_overlap (br_pos h1) (br_pos h2) h1.sz h2.sz clight_pos]
  have hc := clight_pos
  have hX : 0 < sx b1 s ^ 2 + sx b2 s ^ 2 := by have := sx_pos h1 s; positivity
  have hY : 0 < sy b1 s ^ 2 + sy b2 s ^ 2 := by have := sy_pos h1 s; positivity
  have hZ : 0 < b1.sz ^ 2 + b2.sz ^ 2 := by have := h1.sz; positivity
  have hT : 0 < br b2 ^ 2 * b1.sz ^ 2 + br b1 ^ 2 * b2.sz ^ 2 := by
    have := h1.sz; have := br_pos h2; positivity
  unfold kernel codeWidth trueWidth
  rw [Real.sqrt_mul (mul_pos hX hY).le, Real.sqrt_mul hX.le]
  have eexp : Real.exp (0.5 * (-(mx b1 s - mx b2 s) ^ 2 / (sx b1 s ^ 2 + sx b2 s ^ 2) - (my b1 s - my b2 s) ^ 2 / (sy b1 s ^ 2 + sy b2 s ^ 2)
      - ((br b1 + br b2) ^ 2 * s ^ 2) / (br b2 ^ 2 * b1.sz ^ 2 + br b1 ^ 2 * b2.sz ^ 2)))
      = Real.exp (-((br b1 + br b2) ^ 2 * s ^ 2) / (2 * (br b2 ^ 2 * b1.sz ^ 2 + br b1 ^ 2 * b2.sz ^ 2)))
        * Real.exp (-(mx b1 s - mx b2 s) ^ 2 / (2 * (sx b1 s ^ 2 + sx b2 s ^ 2))) * Real.exp (-(my b1 s - my b2 s) ^ 2 / (2 * (sy b1 s ^ 2 + sy b2 s ^ 2))) := by
    rw [← Real.exp_add, ← Real.exp_add]
    congr 1
    field_simp
    ring
  rw [eexp]
  have r1 := Real.sqrt_pos.mpr hX
  have r2 := Real.sqrt_pos.mpr hY
  have r3 := Real.sqrt_pos.mpr hZ
  have r4 := Real.sqrt_pos.mpr hT
  clear eexp eprod
  generalize √(2 * Real.pi) = q at hs2pi hsq ⊢
  rw [← hsq]
  field_simp

/-- **C127, the factor.**  The reported luminosity is the rate given by the overlap of the bunches, times the ratio of two longitudinal widths which differ by the
velocities of the beams. -/
theorem C127_factor (f nb : ℝ) {b1 b2 : Beam} (h1 : Physical b1) (h2 : Physical b2) :
    luminosity f nb b1 b2 = overlapRate f nb b1 b2 * (trueWidth b1 b2 / codeWidth b1 b2) := by
  have hc := clight_pos
  have hpi := Real.pi_pos
  have hZ : 0 < b1.sz ^ 2 + b2.sz ^ 2 := by have := h1.sz; positivity
  have hT : 0 < br b2 ^ 2 * b1.sz ^ 2 + br b1 ^ 2 * b2.sz ^ 2 := by
    have := h1.sz; have := br_pos h2; positivity
  have r3 : 0 < codeWidth b1 b2 := Real.sqrt_pos.mpr hZ
  have r4 : 0 < trueWidth b1 b2 := Real.sqrt_pos.mpr hT
  unfold luminosity overlapRate
  simp only
  simp_rw [overlap_s h1 h2]
  rw [intervalIntegral.integral_mul_const, intervalIntegral.integral_mul_const, ← v1_eq h1, ← v2_eq h2, kinematic_moeller]
  have e2 : √(2 * Real.pi) = √2 * √Real.pi := Real.sqrt_mul (by norm_num) _
  have r5 : 0 < √(2 : ℝ) := Real.sqrt_pos.mpr (by norm_num)
  have r6 : 0 < √Real.pi := Real.sqrt_pos.mpr hpi
  rw [e2]
  field_simp

theorem width_bounds {b1 b2 : Beam} (h1 : Physical b1) (h2 : Physical b2) :
    min (br b1) (br b2) ≤ trueWidth b1 b2 / codeWidth b1 b2 ∧ trueWidth b1 b2 / codeWidth b1 b2 ≤ max (br b1) (br b2) := by
  have hZ : 0 < b1.sz ^ 2 + b2.sz ^ 2 := by have := h1.sz; positivity
  have r3 : 0 < codeWidth b1 b2 := Real.sqrt_pos.mpr hZ
  have p1 := br_pos h1
  have p2 := br_pos h2
  have q1 : 0 < b1.sz ^ 2 := by have := h1.sz; positivity
  have q2 : 0 < b2.sz ^ 2 := by have := h2.sz; positivity
  constructor
  · rw [le_div_iff₀ r3]
    set m := min (br b1) (br b2)
    have hm : 0 < m := lt_min p1 p2
    have hm1 : m ^ 2 ≤ br b1 ^ 2 := pow_le_pow_left₀ hm.le (min_le_left _ _) 2
    have hm2 : m ^ 2 ≤ br b2 ^ 2 := pow_le_pow_left₀ hm.le (min_le_right _ _) 2
    unfold codeWidth trueWidth
    rw [← Real.sqrt_sq hm.le, ← Real.sqrt_mul (sq_nonneg m)]
    apply Real.sqrt_le_sqrt
    nlinarith
  · rw [div_le_iff₀ r3]
    set m := max (br b1) (br b2)
    have hm : 0 < m := lt_of_lt_of_le p1 (le_max_left _ _)
    have hm1 : br b1 ^ 2 ≤ m ^ 2 := pow_le_pow_left₀ p1.le (le_max_left _ _) 2
    have hm2 : br b2 ^ 2 ≤ m ^ 2 := pow_le_pow_left₀ p2.le (le_max_right _ _) 2
    unfold codeWidth trueWidth
    rw [← Real.sqrt_sq hm.le, ← Real.sqrt_mul (sq_nonneg m)]
    apply Real.sqrt_le_sqrt
    nlinarith

/-- **C127.**  Between the smaller and the larger relativistic beta of the beams: exact in the limit of high energies. -/
theorem C127_partial {f nb : ℝ} {b1 b2 : Beam} (h1 : Physical b1) (h2 : Physical b2) (hr : 0 ≤ overlapRate f nb b1 b2) :
    min (br b1) (br b2) * overlapRate f nb b1 b2 ≤ luminosity f nb b1 b2 ∧ luminosity f nb b1 b2 ≤ max (br b1) (br b2) * overlapRate f nb b1 b2 := by
  rw [C127_factor f nb h1 h2]
  obtain ⟨w1, w2⟩ := width_bounds h1 h2
  constructor
  · rw [mul_comm]; exact mul_le_mul_of_nonneg_left w1 hr
  · rw [mul_comm _ (overlapRate f nb b1 b2)]; exact mul_le_mul_of_nonneg_left w2 hr

/-- For beams of the same velocity the reported luminosity is too small by the relativistic beta. -/
theorem C127_slow {f nb : ℝ} {b1 b2 : Beam} (h1 : Physical b1) (h2 : Physical b2) (he : br b1 = br b2) : luminosity f nb b1 b2 = br b1 * overlapRate f nb b1 b2 := by
  rw [C127_factor f nb h1 h2]
  obtain ⟨w1, w2⟩ := width_bounds h1 h2
  rw [← he, min_self] at w1
  rw [← he, max_self] at w2
  rw [le_antisymm w2 w1]
  ring

theorem kernel_pos {b1 b2 : Beam} (h1 : Physical b1) (h2 : Physical b2) (s : ℝ) : 0 < kernel b1 b2 s := by
  have hX : 0 < sx b1 s ^ 2 + sx b2 s ^ 2 := by have := sx_pos h1 s; positivity
  have hY : 0 < sy b1 s ^ 2 + sy b2 s ^ 2 := by have := sy_pos h1 s; positivity
  have hZ : 0 < b1.sz ^ 2 + b2.sz ^ 2 := by have := h1.sz; positivity
  exact div_pos (Real.exp_pos _) (Real.sqrt_pos.mpr (by positivity))

theorem kernel_continuous {b1 b2 : Beam} (h1 : Physical b1) (h2 : Physical b2) : Continuous (kernel b1 b2) := by
  have hX : ∀ s, sx b1 s ^ 2 + sx b2 s ^ 2 ≠ 0 := fun s => by have := sx_pos h1 s; positivity
  have hY : ∀ s, sy b1 s ^ 2 + sy b2 s ^ 2 ≠ 0 := fun s => by have := sy_pos h1 s; positivity
  have hZ : 0 < b1.sz ^ 2 + b2.sz ^ 2 := by have := h1.sz; positivity
  have csx : ∀ b : Beam, Continuous (sx b) := fun b => by unfold sx sigma driftBeta; fun_prop
  have csy : ∀ b : Beam, Continuous (sy b) := fun b => by unfold sy sigma driftBeta; fun_prop
  have cmx : ∀ b : Beam, Continuous (mx b) := fun b => by unfold mx; fun_prop
  have cmy : ∀ b : Beam, Continuous (my b) := fun b => by unfold my; fun_prop
  have c1 := csx b1; have c2 := csx b2; have c3 := csy b1; have c4 := csy b2
  have c5 := cmx b1; have c6 := cmx b2; have c7 := cmy b1; have c8 := cmy b2
  unfold kernel
  apply Continuous.div
  · apply Real.continuous_exp.comp
    apply Continuous.mul continuous_const
    apply Continuous.sub
    · apply Continuous.sub
      · exact Continuous.div (by fun_prop) (by fun_prop) hX
      · exact Continuous.div (by fun_prop) (by fun_prop) hY
    · fun_prop
  · fun_prop
  · intro s
    apply ne_of_gt
    apply Real.sqrt_pos.mpr
    have a := sx_pos h1 s
    have b := sy_pos h1 s
    positivity

/-- A beam of unit sizes on the axis, with a kinetic energy of a quarter of the rest energy. -/
def slowBeam : Beam := ⟨1, 0, 0, 0, 0, 5 / 4, 1, 1, 1, 1, 1, 1, 0, 0⟩

theorem slow_physical : Physical slowBeam := by
  constructor <;> norm_num [slowBeam]

theorem slow_br : br slowBeam = 3 / 5 := by
  unfold br gamma slowBeam
  rw [show (1 : ℝ) - 1 / (5 / 4 / 1) ^ 2 = (3 / 5) ^ 2 by norm_num, Real.sqrt_sq (by norm_num)]

/-- **C127, violated: slow beams.**  Two identical beams which meet head-on with a velocity of 0.6 c: the reported luminosity is 0.6 times the rate of collisions. -/
theorem C127_slow_violated : 0 < overlapRate 1 1 slowBeam slowBeam ∧ luminosity 1 1 slowBeam slowBeam = 3 / 5 * overlapRate 1 1 slowBeam slowBeam := by
  have hl : luminosity 1 1 slowBeam slowBeam = 3 / 5 * overlapRate 1 1 slowBeam slowBeam := by
    rw [C127_slow slow_physical slow_physical rfl, slow_br]
  refine ⟨?_, hl⟩
  have hpos : 0 < luminosity 1 1 slowBeam slowBeam := by
    have hint : 0 < ∫ s in (-20 * max slowBeam.sz slowBeam.sz)..(20 * max slowBeam.sz slowBeam.sz), kernel slowBeam slowBeam s := by
      apply intervalIntegral.intervalIntegral_pos_of_pos ((kernel_continuous slow_physical slow_physical).intervalIntegrable _ _) (kernel_pos slow_physical slow_physical)
      norm_num [slowBeam]
    have hm : 0 < moeller slowBeam slowBeam := by
      unfold moeller
      simp only
      apply div_pos (div_pos (Real.sqrt_pos.mpr _) (by have := clight_pos; positivity)) (by norm_num)
      have e : ∀ i, v1 slowBeam i = ![0, 0, 3 / 5 * clight] i := by
        intro i
        unfold v1
        rw [slow_br]
        fin_cases i <;> simp [slowBeam]
      have e' : ∀ i, v2 slowBeam i = ![0, 0, -(3 / 5 * clight)] i := by
        intro i
        unfold v2
        rw [slow_br]
        fin_cases i <;> simp [slowBeam]
      unfold dot3 cross3
      simp only [e, e']
      simp
      have := clight_pos
      positivity
    unfold luminosity
    simp only
    have : slowBeam.n = 1 := rfl
    rw [this]
    have := Real.pi_pos
    positivity
  rw [hl] at hpos
  linarith

end

end Verif.Lumi
