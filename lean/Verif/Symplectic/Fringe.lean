import Verif.Symplectic.Rotations
import Mathlib.Analysis.SpecialFunctions.Trigonometric.ArctanDeriv

/-!
# The fringe field of a dipole is symplectic
-/

namespace Verif.Symplectic

open Frames hiding curvature
open Magnets Edges Filter Topology

noncomputable section

/-- `fi0` of track_dipole_fringe.h:47-49, as a function of the slopes and of `1 / pz`. -/
def angleOf (c2 X Y i : ℝ) : ℝ := Real.arctan (X * (1 / (1 + Y ^ 2))) - c2 * (1 + X ^ 2 * (1 + (1 + Y ^ 2))) * i

/-- `co1`, `fi1`, `fi2`, `fi3`, track_dipole_fringe.h:51-58, with `co2`. -/
def fi1Of (c2 co2 X Y i : ℝ) : ℝ := co2 / (1 + (X * (1 / (1 + Y ^ 2))) ^ 2) * (1 / (1 + Y ^ 2)) - co2 * c2 * 2 * X * (1 + (1 + Y ^ 2)) * i

def fi2Of (c2 co2 X Y i : ℝ) : ℝ :=
  -2 * (co2 / (1 + (X * (1 / (1 + Y ^ 2))) ^ 2) * (1 / (1 + Y ^ 2))) * (X * Y) * (1 / (1 + Y ^ 2)) - co2 * c2 * 2 * X * (X * Y) * i

def fi3Of (c2 co2 X Y i : ℝ) : ℝ := co2 * c2 * (1 + X ^ 2 * (1 + (1 + Y ^ 2))) * i ^ 2

theorem hasDerivAt_angle (c2 : ℝ) {X Y I : ℝ → ℝ} {X' Y' I' t : ℝ} (hX : HasDerivAt X X' t) (hY : HasDerivAt Y Y' t)
    (hI : HasDerivAt I I' t) : HasDerivAt (fun t => angleOf c2 (X t) (Y t) (I t))
      (fi1Of c2 1 (X t) (Y t) (I t) * X' + fi2Of c2 1 (X t) (Y t) (I t) * Y' - c2 * (1 + X t ^ 2 * (1 + (1 + Y t ^ 2))) * I') t := by
  have pos : (1 + Y t ^ 2) ≠ 0 := by positivity
  have e1 := (hasDerivAt_const t (1 : ℝ)).div ((hY.pow 2).const_add 1) pos
  have e2 := (hX.mul e1).arctan
  have e3 := (((hX.pow 2).mul (((hY.pow 2).const_add 1).const_add 1)).const_add 1).const_mul c2
  refine (e2.sub (e3.mul hI)).congr_deriv ?_
  simp only [Pi.mul_apply, Pi.div_apply, Pi.pow_apply, fi1Of, fi2Of]
  have h2 : (1 + (X t * (1 / (1 + Y t ^ 2))) ^ 2) ≠ 0 := by positivity
  generalize hD : 1 + (X t * (1 / (1 + Y t ^ 2))) ^ 2 = D at h2
  field_simp
  ring

/-- The potential `b0 * tan fi0` of the fringe. -/
def fringeZ (b b0 c2 : ℝ) (z : Z) : ℝ := b0 * Real.tan (angleOf c2 (z 1 / pzZ b z) (z 3 / pzZ b z) (1 / pzZ b z))

def co2Z (b b0 c2 : ℝ) (z : Z) : ℝ := b0 / Real.cos (angleOf c2 (z 1 / pzZ b z) (z 3 / pzZ b z) (1 / pzZ b z)) ^ 2

def fi1Z (b b0 c2 : ℝ) (z : Z) : ℝ := fi1Of c2 (co2Z b b0 c2 z) (z 1 / pzZ b z) (z 3 / pzZ b z) (1 / pzZ b z)

def fi2Z (b b0 c2 : ℝ) (z : Z) : ℝ := fi2Of c2 (co2Z b b0 c2 z) (z 1 / pzZ b z) (z 3 / pzZ b z) (1 / pzZ b z)

def fi3Z (b b0 c2 : ℝ) (z : Z) : ℝ := fi3Of c2 (co2Z b b0 c2 z) (z 1 / pzZ b z) (z 3 / pzZ b z) (1 / pzZ b z)

def kxZ (b b0 c2 : ℝ) (z : Z) : ℝ :=
  fi1Z b b0 c2 z * (1 + (z 1 / pzZ b z) ^ 2) * (1 / pzZ b z) + fi2Z b b0 c2 z * (z 1 / pzZ b z * (z 3 / pzZ b z)) * (1 / pzZ b z)
    - fi3Z b b0 c2 z * (z 1 / pzZ b z)

def kyZ (b b0 c2 : ℝ) (z : Z) : ℝ :=
  fi1Z b b0 c2 z * (z 1 / pzZ b z * (z 3 / pzZ b z)) * (1 / pzZ b z) + fi2Z b b0 c2 z * (1 + (z 3 / pzZ b z) ^ 2) * (1 / pzZ b z)
    - fi3Z b b0 c2 z * (z 3 / pzZ b z)

/-- `kz` without the factor `tfac`. -/
def kzZ (b b0 c2 : ℝ) (z : Z) : ℝ :=
  fi1Z b b0 c2 z * (z 1 / pzZ b z) * (1 / pzZ b z) ^ 2 + fi2Z b b0 c2 z * (z 3 / pzZ b z) * (1 / pzZ b z) ^ 2
    - fi3Z b b0 c2 z * (1 / pzZ b z)

/-- The coefficients of the fringe are the derivatives of its potential. -/
theorem hasDerivAt_fringeZ {b b0 c2 : ℝ} {w : Z} (h : 0 < radOf b (w 5) - w 1 ^ 2 - w 3 ^ 2)
    (hc : Real.cos (angleOf c2 (w 1 / pzZ b w) (w 3 / pzZ b w) (1 / pzZ b w)) ≠ 0) (u : Z) :
    HasDerivAt (fun t : ℝ => fringeZ b b0 c2 (w + t • u))
      (kxZ b b0 c2 w * u 1 + kyZ b b0 c2 w * u 3 - (1 + b ^ 2 * w 5) * kzZ b b0 c2 w * u 5) 0 := by
  have l := line w u
  have hz : pzZ b w ≠ 0 := (Real.sqrt_pos.2 h).ne'
  have hp := hasDerivAt_pzZ h u
  have e0 : w + (0 : ℝ) • u = w := by simp
  have hp0 : pzZ b (w + (0 : ℝ) • u) ≠ 0 := by rw [e0]; exact hz
  have hX := (l 1).div hp hp0
  have hY := (l 3).div hp hp0
  have hI := (hasDerivAt_const (0 : ℝ) (1 : ℝ)).div hp hp0
  have hA := hasDerivAt_angle c2 hX hY hI
  have hT := ((Real.hasDerivAt_tan (by simpa using hc)).comp (0 : ℝ) hA).const_mul b0
  refine hT.congr_deriv ?_
  simp only [Pi.div_apply, zero_smul, zero_mul, add_zero, kxZ, kyZ, kzZ, fi1Z, fi2Z, fi3Z]
  have hco : co2Z b b0 c2 w = b0 * (1 / Real.cos (angleOf c2 (w 1 / pzZ b w) (w 3 / pzZ b w) (1 / pzZ b w)) ^ 2) := by
    unfold co2Z; ring
  rw [hco]
  generalize 1 / Real.cos (angleOf c2 (w 1 / pzZ b w) (w 3 / pzZ b w) (1 / pzZ b w)) ^ 2 = T
  generalize pzZ b w = pz at hz
  unfold fi1Of fi2Of fi3Of
  generalize 1 / (1 + (w 3 / pz) ^ 2) = R
  have g2 : ∀ x : ℝ, x / (1 + (w 1 / pz * R) ^ 2) = x * (1 / (1 + (w 1 / pz * R) ^ 2)) := fun x => by ring
  rw [g2 (b0 * T)]
  generalize 1 / (1 + (w 1 / pz * R) ^ 2) = Q
  field_simp
  ring

/-- The potential of the fringe is defined at `z`. -/
structure FringeZ (b c2 : ℝ) (z : Z) : Prop extends FineForward b z where
  cos : Real.cos (angleOf c2 (z 1 / pzZ b z) (z 3 / pzZ b z) (1 / pzZ b z)) ≠ 0

theorem contDiffAt_angle {b c2 : ℝ} {w : Z} {n : WithTop ℕ∞} (h : FineForward b w) :
    ContDiffAt ℝ n (fun w => angleOf c2 (w 1 / pzZ b w) (w 3 / pzZ b w) (1 / pzZ b w)) w := by
  have hp := contDiffAt_pzZ (n := n) h.forward
  have hz : pzZ b w ≠ 0 := (Real.sqrt_pos.2 h.forward).ne'
  have h1 : (1 + (w 3 / pzZ b w) ^ 2) ≠ 0 := by positivity
  unfold angleOf
  have h2 : ContDiffAt ℝ n (fun w : Z => w 1 / pzZ b w * (1 / (1 + (w 3 / pzZ b w) ^ 2))) w := by
    fun_prop (disch := assumption)
  have h3 := Real.contDiff_arctan.contDiffAt.comp w h2
  simp only [Function.comp_def] at h3
  fun_prop (disch := assumption)

theorem contDiffAt_co2Z {b b0 c2 : ℝ} {w : Z} {n : WithTop ℕ∞} (h : FringeZ b c2 w) : ContDiffAt ℝ n (co2Z b b0 c2) w := by
  have h1 := (contDiffAt_angle (n := n) (c2 := c2) h.toFineForward).cos
  unfold co2Z
  exact contDiffAt_const.div (h1.pow 2) (pow_ne_zero _ h.cos)

theorem contDiffAt_fringeZ {b b0 c2 : ℝ} {w : Z} {n : WithTop ℕ∞} (h : FringeZ b c2 w) : ContDiffAt ℝ n (fringeZ b b0 c2) w := by
  have h1 := contDiffAt_angle (n := n) (c2 := c2) h.toFineForward
  have h2 : ContDiffAt ℝ n Real.tan (angleOf c2 (w 1 / pzZ b w) (w 3 / pzZ b w) (1 / pzZ b w)) := Real.contDiffAt_tan.2 h.cos
  unfold fringeZ
  exact contDiffAt_const.mul (ContDiffAt.comp (g := Real.tan) w h2 h1)

theorem contDiffAt_fiZ {b b0 c2 : ℝ} {w : Z} {n : WithTop ℕ∞} (h : FringeZ b c2 w) :
    ContDiffAt ℝ n (fi1Z b b0 c2) w ∧ ContDiffAt ℝ n (fi2Z b b0 c2) w ∧ ContDiffAt ℝ n (fi3Z b b0 c2) w := by
  have hp := contDiffAt_pzZ (n := n) h.forward
  have hz : pzZ b w ≠ 0 := (Real.sqrt_pos.2 h.forward).ne'
  have h1 : (1 + (w 3 / pzZ b w) ^ 2) ≠ 0 := by positivity
  have h2 : 1 + (w 1 / pzZ b w * (1 / (1 + (w 3 / pzZ b w) ^ 2))) ^ 2 ≠ 0 := by positivity
  have h3 := contDiffAt_co2Z (n := n) (b0 := b0) h
  unfold fi1Z fi2Z fi3Z fi1Of fi2Of fi3Of
  refine ⟨?_, ?_, ?_⟩ <;> fun_prop (disch := assumption)

theorem contDiffAt_kZ {b b0 c2 : ℝ} {w : Z} {n : WithTop ℕ∞} (h : FringeZ b c2 w) :
    ContDiffAt ℝ n (kxZ b b0 c2) w ∧ ContDiffAt ℝ n (kyZ b b0 c2) w ∧ ContDiffAt ℝ n (kzZ b b0 c2) w := by
  have hp := contDiffAt_pzZ (n := n) h.forward
  have hz : pzZ b w ≠ 0 := (Real.sqrt_pos.2 h.forward).ne'
  obtain ⟨h1, h2, h3⟩ := contDiffAt_fiZ (n := n) (b0 := b0) h
  unfold kxZ kyZ kzZ
  refine ⟨?_, ?_, ?_⟩ <;> fun_prop (disch := assumption)

theorem fringeZ_near {b c2 : ℝ} {w : Z} (h : FringeZ b c2 w) : ∀ᶠ y in 𝓝 w, FringeZ b c2 y := by
  have c := (contDiffAt_angle (n := 1) (c2 := c2) h.toFineForward).cos.continuousAt
  filter_upwards [fineForward_near h.toFineForward, c.eventually_ne h.cos] with y h1 h2 using ⟨h1, h2⟩

/-- The new vertical position. -/
def yNew (b b0 c2 : ℝ) (z : Z) : ℝ := 2 * z 2 / (1 + Real.sqrt (1 - 2 * kyZ b b0 c2 z * z 2))

/-- The map of a fringe, with the coefficient `c3 / (1 + delta)`. -/
def fringeMap (b b0 c2 c3 : ℝ) (z : Z) : Z :=
  ![z 0 + 0.5 * kxZ b b0 c2 z * yNew b b0 c2 z ^ 2, z 1, yNew b b0 c2 z,
    z 3 - 4 * (c3 * (1 / opdOf b (z 5))) * yNew b b0 c2 z ^ 3 - fringeZ b b0 c2 z * yNew b b0 c2 z,
    z 4 - (1 + b ^ 2 * z 5) * (0.5 * kzZ b b0 c2 z * yNew b b0 c2 z ^ 2
      + c3 * (1 / opdOf b (z 5)) * yNew b b0 c2 z ^ 4 * (1 / opdOf b (z 5)) ^ 2), z 5]

theorem yNew_spec {k y : ℝ} (h : 0 < 1 - 2 * k * y) :
    2 * y / (1 + Real.sqrt (1 - 2 * k * y)) - 0.5 * k * (2 * y / (1 + Real.sqrt (1 - 2 * k * y))) ^ 2 = y := by
  have hr := Real.sqrt_nonneg (1 - 2 * k * y)
  have hs := Real.sq_sqrt h.le
  generalize Real.sqrt (1 - 2 * k * y) = r at hr hs
  have : 1 + r ≠ 0 := by positivity
  field_simp
  linear_combination (-y) * hs

theorem canonical_fringeMap {b b0 c2 c3 : ℝ} {z : Z} (fz : FringeZ b c2 z) (root : 0 < 1 - 2 * kyZ b b0 c2 z * z 2) :
    Canonical (fringeMap b b0 c2 c3) z := by
  have hy : ∀ y, FringeZ b c2 y → 0 < 1 - 2 * kyZ b b0 c2 y * y 2 → ContDiffAt ℝ 1 (yNew b b0 c2) y := by
    intro y fy ry
    have h1 := (contDiffAt_kZ (n := 1) (b0 := b0) fy).2.1
    have h2 := ry.ne'
    have h3 : 1 + Real.sqrt (1 - 2 * kyZ b b0 c2 y * y 2) ≠ 0 := by positivity
    unfold yNew
    fun_prop (disch := assumption)
  have hd : DifferentiableAt ℝ (fringeMap b b0 c2 c3) z := by
    have h0 := hy z fz root
    obtain ⟨h1, h2, h3⟩ := contDiffAt_kZ (n := 1) (b0 := b0) fz
    have h4 := contDiffAt_fringeZ (n := 1) (b0 := b0) fz
    have h5 : radOf b (z 5) ≠ 0 := fz.rad.ne'
    have h6 : opdOf b (z 5) ≠ 0 := (opdOf_pos fz.rad).ne'
    have h7 : opdOf b (z 5) ^ 2 ≠ 0 := pow_ne_zero _ h6
    refine ContDiffAt.differentiableAt (n := 1) ?_ (by norm_num)
    rw [contDiffAt_pi]
    intro i
    fin_cases i <;> simp [fringeMap] <;> fun_prop (disch := assumption)
  let S : Z → ℝ := fun w => w 0 * w 1 + w 2 * w 3 + w 4 * w 5 - 0.5 * fringeZ b b0 c2 w * w 2 ^ 2 - c3 * (1 / opdOf b (w 5)) * w 2 ^ 4
  have sm : ∀ w, FringeZ b c2 w → ContDiffAt ℝ 2 S w := by
    intro w h
    have h4 := contDiffAt_fringeZ (n := 2) (b0 := b0) h
    have h5 : radOf b (w 5) ≠ 0 := h.rad.ne'
    have h6 : opdOf b (w 5) ≠ 0 := (opdOf_pos h.rad).ne'
    fun_prop (disch := assumption)
  let a : Z → Z := fun y => ![fringeMap b b0 c2 c3 y 0, y 1, fringeMap b b0 c2 c3 y 2, y 3, fringeMap b b0 c2 c3 y 4, y 5]
  have fa : ∀ y, FringeZ b c2 y → FringeZ b c2 (a y) := fun y h => ⟨⟨⟨h.rad, h.energy⟩, h.forward⟩, h.cos⟩
  have ev : ∀ᶠ y in 𝓝 z, FringeZ b c2 y ∧ 0 < 1 - 2 * kyZ b b0 c2 y * y 2 := by
    have h1 := (contDiffAt_kZ (n := 1) (b0 := b0) fz).2.1
    have c1 : ContinuousAt (fun y : Z => 1 - 2 * kyZ b b0 c2 y * y 2) z :=
      ContDiffAt.continuousAt (n := 1) (𝕜 := ℝ) (by fun_prop)
    filter_upwards [fringeZ_near fz, c1.eventually (lt_mem_nhds root)] with y h1 h2 using ⟨h1, h2⟩
  refine canonical_gen hd (sm _ (fa z fz)) (ev.mono fun y hy' u => ?_)
  obtain ⟨fy, ry⟩ := hy'
  have fay := fa y fy
  have ho : opdOf b (y 5) ≠ 0 := (opdOf_pos fy.rad).ne'
  change fderiv ℝ S (a y) u = _
  refine fderiv_line ((sm _ fay).differentiableAt (by norm_num)) ?_
  have l := line (a y) u
  have hF : HasDerivAt (fun t : ℝ => fringeZ b b0 c2 (a y + t • u))
      (kxZ b b0 c2 y * u 1 + kyZ b b0 c2 y * u 3 - (1 + b ^ 2 * y 5) * kzZ b b0 c2 y * u 5) 0 :=
    hasDerivAt_fringeZ fay.forward fay.cos u
  have hO := hasDerivAt_opdOf (b := b) (l 5) (by simpa [a, radOf] using fy.rad)
  have hI := ((hasDerivAt_const (0 : ℝ) (1 : ℝ)).div hO (by simpa [a] using ho)).const_mul c3
  have e : fringeZ b b0 c2 (a y) = fringeZ b b0 c2 y := rfl
  refine (((((l 0).mul (l 1)).add ((l 2).mul (l 3))).add ((l 4).mul (l 5))).sub (((hF.const_mul 0.5)).mul ((l 2).pow 2))
    |>.sub (hI.mul ((l 2).pow 4))).congr_deriv ?_
  have ys := yNew_spec ry
  change yNew b b0 c2 y - 0.5 * kyZ b b0 c2 y * yNew b b0 c2 y ^ 2 = y 2 at ys
  simp only [Pi.div_apply, Pi.pow_apply, zero_smul, zero_mul, add_zero, e]
  simp only [a, fringeMap, Matrix.cons_val]
  rw [← ys]
  generalize yNew b b0 c2 y = Y
  generalize opdOf b (y 5) = o at ho
  field_simp
  ring

/-- `c2`, track_dipole_fringe.h:36. -/
def fringeC2 (fint hgap k0 chi : ℝ) : ℝ := k0 * chi * (hgap * fint) * 2

/-- The particle crosses the fringe: it moves forward, the focusing of the fringe is finite, and the equation for the new `y` has a
solution. -/
structure FringeOk (fint hgap k0 : ℝ) (p : Part) : Prop where
  forward : p.Forward
  finite : Real.cos (angleOf (fringeC2 fint hgap k0 p.chi) (p.px / p.pz) (p.py / p.pz) (1 / p.pz)) ≠ 0
  root : 0 < 1 - 2 * kyZ p.beta0 (k0 * p.chi) (fringeC2 fint hgap k0 p.chi) (coords p) * p.y

theorem coords_dipoleFringe {p : Part} (hb : 0 < p.beta0) {z : Z} (h : Fine p.beta0 z) {fint hgap k0 : ℝ} (hk : ¬|k0| < 10e-10) :
    coords (dipoleFringe fint hgap k0 (place p z)) = fringeMap p.beta0 (k0 * p.chi) (fringeC2 fint hgap k0 p.chi)
      ((k0 * p.chi) ^ 2 * if hgap * fint > 10e-10 then 1 / (72 * (hgap * fint)) else 0) z := by
  have hb' := hb.ne'
  have e1 : Real.sqrt ((1 + (opdOf p.beta0 (z 5) - 1)) ^ 2 - z 1 ^ 2 - z 3 ^ 2) = pzZ p.beta0 z := by
    rw [add_sub_cancel, opdOf_sq h.rad]
    rfl
  have e2 : Real.sqrt ((1 + (opdOf p.beta0 (z 5) - 1)) ^ 2) = opdOf p.beta0 (z 5) := by
    rw [add_sub_cancel, Real.sqrt_sq (opdOf_pos h.rad).le]
  unfold dipoleFringe
  rw [if_neg hk]
  simp only [place, e1, e2]
  generalize (if hgap * fint > 10e-10 then 1 / (72 * (hgap * fint)) else (0 : ℝ)) = fs
  ext i
  fin_cases i
  · rfl
  · rfl
  · rfl
  · rfl
  · simp only [coords, fringeMap, kzZ, fi1Z, fi2Z, fi3Z, fi1Of, fi2Of, fi3Of, co2Z, yNew, kyZ, angleOf, fringeC2]
    simp only [Fin.reduceFinMk, Matrix.cons_val]
    generalize Real.cos _ = C
    generalize Real.sqrt _ = R
    generalize pzZ p.beta0 z = pz
    generalize opdOf p.beta0 (z 5) = o
    generalize p.beta0 = b at hb'
    have hbb : 1 + b ^ 2 * z 5 = -(-(1 / b + z 5 * b)) * b := by field_simp
    rw [hbb]
    generalize -(1 / b + z 5 * b) = tf
    have hz : z 4 / b * b = z 4 := by field_simp
    linear_combination hz
  · simp [coords, fringeMap, hb']

theorem lawful_dipoleFringe (fint hgap k0 : ℝ) : Lawful (dipoleFringe fint hgap k0) :=
  Lawful.of_kind (fun _ => by unfold dipoleFringe; simp only; split_ifs <;> exact ⟨rfl, rfl, rfl, rfl, rfl, rfl⟩) fun p q e => by
    unfold dipoleFringe
    by_cases hk : |k0| < 10e-10
    · simp only [if_pos hk]
      exact e.coords.symm
    · simp only [if_neg hk, coords, e.x, e.px, e.y, e.py, e.zeta, e.delta, e.ptau, e.beta0, e.chi]

/-- The fringe field of a dipole. -/
theorem symplectic_dipoleFringe {p : Part} (k : p.Kin) {fint hgap k0 : ℝ} (ok : ¬|k0| < 10e-10 → FringeOk fint hgap k0 p) :
    SymplecticAt (dipoleFringe fint hgap k0) p := by
  by_cases hk : |k0| < 10e-10
  · have e : dipoleFringe fint hgap k0 = fun q => q := by
      funext q
      simp [dipoleFringe, hk]
    rw [e]
    exact SymplecticAt.id k
  · have ok := ok hk
    have fz : FringeZ p.beta0 (fringeC2 fint hgap k0 p.chi) (coords p) :=
      ⟨fineForward_coords k ok.forward, by rw [← pz_coords k]; exact ok.finite⟩
    refine (canonical_fringeMap (c3 := (k0 * p.chi) ^ 2 * if hgap * fint > 10e-10 then 1 / (72 * (hgap * fint)) else 0) fz
      ok.root).congr ?_
    filter_upwards [fine_near (fine_coords k)] with z hz
    exact coords_dipoleFringe k.beta0 hz hk

end

end Verif.Symplectic
