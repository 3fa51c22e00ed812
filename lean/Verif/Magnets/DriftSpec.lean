import Verif.Frames.Spec
import Mathlib.Analysis.Calculus.Deriv.Basic

/-!
# The equations of motion in a magnet

The independent variable is the path `l` along the reference trajectory; `zeta` is `l` minus the time multiplied with the reference
velocity.
-/

namespace Verif.Magnets

open Frames

noncomputable section

/-- Derivatives of the coordinates with respect to the path along the reference trajectory. -/
structure Rates where
  x : ℝ
  px : ℝ
  y : ℝ
  py : ℝ
  zeta : ℝ

/-- Hamilton's equations of `-(1 + h x) √((1 + δ)² - px² - py²) + χ k0 (x + h x² / 2)`: a uniform vertical field in a frame which
turns with curvature `h`. -/
def bendRates (k0 h : ℝ) (p : Part) : Rates where
  x := (1 + h * p.x) * p.px / p.pz
  px := h * p.pz - p.chi * k0 * (1 + h * p.x)
  y := (1 + h * p.x) * p.py / p.pz
  py := 0
  zeta := 1 - (1 + h * p.x) * (1 + p.delta) / p.pz / p.rvv

/-- Hamilton's equations of `(px² + py²) / (2 (1 + δ)) - h x (1 + δ) + χ k0 (x + h x² / 2) + χ k1 (x² - y²) / 2`: combined dipole and
quadrupole, to second order in the transverse variables. -/
def expandedRates (k0 k1 h : ℝ) (p : Part) : Rates where
  x := p.px / (1 + p.delta)
  px := h * (1 + p.delta) - p.chi * k0 - p.chi * (k0 * h + k1) * p.x
  y := p.py / (1 + p.delta)
  py := p.chi * k1 * p.y
  zeta := 1 - (1 + h * p.x + ((p.px / (1 + p.delta)) ^ 2 + (p.py / (1 + p.delta)) ^ 2) / 2) / p.rvv

/-- Hamilton's equations of `-√((1 + δ)² - (px + ks (y - y0) / 2)² - (py - ks (x - x0) / 2)²)`: a uniform longitudinal field. -/
def solenoidRates (ks x0 y0 : ℝ) (p : Part) : Rates :=
  let u := p.px + ks / 2 * (p.y - y0)
  let v := p.py - ks / 2 * (p.x - x0)
  let pz := Real.sqrt ((1 + p.delta) ^ 2 - u ^ 2 - v ^ 2)
  { x := u / pz, px := ks / 2 * v / pz, y := v / pz, py := -(ks / 2 * u / pz), zeta := 1 - (1 + p.delta) / pz / p.rvv }

/-- At `l` the coordinates of `f` change at the rates `r`, and `s` at rate 1. -/
structure Solves (r : Part → Rates) (f : ℝ → Part) (l : ℝ) : Prop where
  x : HasDerivAt (fun t => (f t).x) (r (f l)).x l
  px : HasDerivAt (fun t => (f t).px) (r (f l)).px l
  y : HasDerivAt (fun t => (f t).y) (r (f l)).y l
  py : HasDerivAt (fun t => (f t).py) (r (f l)).py l
  zeta : HasDerivAt (fun t => (f t).zeta) (r (f l)).zeta l
  s : HasDerivAt (fun t => (f t).s) 1 l

/-- Nothing but positions, momenta, `zeta` and `s` is touched. -/
def OnlyMoves (p q : Part) : Prop := SameKind p q ∧ q.spin = p.spin

/-- What each model of the drift part stands for. -/
def driftRates (model : ℤ) (k0 k1 ks h x0 y0 : ℝ) : Part → Rates :=
  if model = 0 then expandedRates 0 0 0
  else if model = 1 then bendRates 0 0
  else if model = 2 then bendRates 0 h
  else if model = 3 then expandedRates k0 k1 h
  else if model = 4 then bendRates k0 h
  else if model = 5 then bendRates k0 0
  else solenoidRates ks x0 y0

/-- In a frame which turns by `h l` the particle reaches the end plane, and the end plane is not perpendicular to the first. -/
structure Reaches (h l : ℝ) (p : Part) : Prop where
  kin : p.Kin
  forward : p.Forward
  curved : h ≠ 0
  cos : Real.cos (h * l) ≠ 0
  crosses : Crosses (Frame.arc (h * l) h) p

/-- The field is either off or above the threshold below which the code ignores it, and the particle `p`, which is `q` after the
length `l`, is not turned around. -/
def Regular (model : ℤ) (k0 k1 ks h x0 y0 l : ℝ) (p q : Part) : Prop :=
  if model = 0 then p.rpp * (1 + p.delta) = 1
  else if model = 1 then p.Forward
  else if model = 2 then Reaches h l p
  else if model = 3 then 0 < 1 + p.delta ∧ (p.chi * (k0 * h + k1) ≠ 0 ∨ p.chi * k0 = h * (1 + p.delta))
  else if model = 4 then h ≠ 0 ∧ (1e-8 ≤ |k0 * p.chi| ∧ p.Forward ∧ q.Forward ∨ k0 * p.chi = 0 ∧ Reaches h l p)
  else if model = 5 then 1e-8 ≤ |k0 * p.chi| ∧ p.Forward ∧ q.Forward ∨ k0 * p.chi = 0 ∧ p.Forward
  else 1e-9 ≤ |ks / 2| ∧ 1e-9 < |l| ∧ 0 < (1 + p.delta) ^ 2 - (p.px + ks / 2 * (p.y - y0)) ^ 2 - (p.py - ks / 2 * (p.x - x0)) ^ 2
    ∨ ks = 0 ∧ p.Forward

end

end Verif.Magnets
