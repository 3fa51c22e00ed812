import Mathlib.Analysis.Real.Sqrt
import Mathlib.Algebra.BigOperators.Group.List.Lemmas
import Mathlib.Tactic.Ring
import Mathlib.Tactic.NormNum
import Mathlib.Tactic.Linarith
import Mathlib.Tactic.FieldSimp
import Mathlib.Tactic.Positivity
import Mathlib.Tactic.LinearCombination

/-!
# Radiative polarization (C131)

Modelled: the part of `_add_spin_polarization` in `/repo/xtrack/twiss/spin.py`, lines 258-315, which computes the polarization and the times from the columns of the
twiss table.

Simplifications: real numbers.  The invariant spin direction, its derivative, the curvatures and the velocity are given columns.
-/

namespace Verif.Polar

open Classical

noncomputable section

/-- Three components. -/
structure V3 where
  x : ℝ
  y : ℝ
  z : ℝ

/-- Scalar product. -/
def V3.dot (a b : V3) : ℝ := a.x * b.x + a.y * b.y + a.z * b.z

/-- One row of the twiss table: `spin_x` to `spin_z`, `spin_dn_ddelta_x` to `_z`, `rad_int_iv_x` to `_z`, `rad_int_kappa_x`, `_y`, `ks`, `bs`, `length`. -/
structure Row where
  n : V3
  d : V3
  v : V3
  kx : ℝ
  ky : ℝ
  ks : ℝ
  bs : ℝ
  length : ℝ

/-- The particle on the closed orbit: `p0c`, charge, `rvv * energy / energy0`, velocity of light, and the factor of the rates `r0 * hbar * gamma0**5 / m0_kg`. -/
structure Ref where
  p0c : ℝ
  q0 : ℝ
  scale : ℝ
  clight : ℝ
  factor : ℝ

/-- `rad_int_kappa`, `/repo/xtrack/twiss/radiation.py`, line 389. -/
def Row.kappa (r : Row) : ℝ := √(r.kx ^ 2 + r.ky ^ 2)

/-- Line 266. -/
def Ref.brhoRef (p : Ref) : ℝ := p.p0c / p.clight / p.q0

/-- Lines 267-268. -/
def Ref.brhoPart (p : Ref) : ℝ := p.brhoRef * p.scale

/-- `Bx`, `By`, `Bz`, lines 270-272. -/
def field (p : Ref) (r : Row) : V3 := ⟨-r.ky * p.brhoPart, r.kx * p.brhoPart, r.ks * p.brhoRef + r.bs⟩

/-- `B_mod`, lines 273-274. -/
def fieldMod (p : Ref) (r : Row) : ℝ :=
  let b := √((field p r).x ^ 2 + (field p r).y ^ 2 + (field p r).z ^ 2)
  if b = 0 then 999 else b

/-- `ib_x`, `ib_y`, `ib_z`, lines 276-278. -/
def ib (p : Ref) (r : Row) : V3 := ⟨(field p r).x / fieldMod p r, (field p r).y / fieldMod p r, (field p r).z / fieldMod p r⟩

/-- `np.sum(... * tw.length)`. -/
def total (f : Row → ℝ) (rows : List Row) : ℝ := (rows.map fun r => f r * r.length).sum

/-- `tw.line_length`. -/
def lineLength (rows : List Row) : ℝ := (rows.map fun r => r.length).sum

/-- `alpha_minus_co`, line 289. -/
def alphaMinusCo (p : Ref) (rows : List Row) : ℝ := 1 / lineLength rows * total (fun r => r.kappa ^ 3 * r.n.dot (ib p r)) rows

/-- `alpha_plus_co`, lines 291-292. -/
def alphaPlusCo (rows : List Row) : ℝ := 1 / lineLength rows * total (fun r => r.kappa ^ 3 * (1 - 2 / 9 * r.n.dot r.v ^ 2)) rows

/-- `alpha_plus`, lines 287, 294. -/
def alphaPlus (rows : List Row) : ℝ := alphaPlusCo rows + 11 / 18 * total (fun r => r.kappa ^ 3 * r.d.dot r.d) rows / lineLength rows

/-- `alpha_minus`, lines 286, 295. -/
def alphaMinus (p : Ref) (rows : List Row) : ℝ := alphaMinusCo p rows - total (fun r => r.kappa ^ 3 * r.d.dot (ib p r)) rows / lineLength rows

/-- `spin_polarization_inf_no_depol`, line 297. -/
def polInf (p : Ref) (rows : List Row) : ℝ := 8 / 5 / √3 * alphaMinusCo p rows / alphaPlusCo rows

/-- `spin_polarization_eq`, line 298. -/
def polEq (p : Ref) (rows : List Row) : ℝ := 8 / 5 / √3 * alphaMinus p rows / alphaPlus rows

/-- `one_over_t_pol_component_s`, lines 300-301. -/
def ratePol (p : Ref) (rows : List Row) : ℝ := 5 * √3 / 8 * p.factor * alphaPlusCo rows

/-- `one_over_t_pol_buildup_s`, lines 302-303. -/
def rateBuildup (p : Ref) (rows : List Row) : ℝ := 5 * √3 / 8 * p.factor * alphaPlus rows

/-- `one_over_t_depol_component_s`, line 305. -/
def rateDepol (p : Ref) (rows : List Row) : ℝ := rateBuildup p rows - ratePol p rows

end

end Verif.Polar
