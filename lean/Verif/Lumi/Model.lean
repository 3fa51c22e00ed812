import Mathlib.Analysis.SpecialFunctions.Gaussian.GaussianIntegral
import Mathlib.MeasureTheory.Integral.IntervalIntegral.Basic
import Mathlib.Analysis.Real.Sqrt
import Mathlib.Tactic.Ring
import Mathlib.Tactic.NormNum
import Mathlib.Tactic.Linarith
import Mathlib.Tactic.FieldSimp
import Mathlib.Tactic.Positivity

/-!
# Luminosity (C127)

Modelled: `luminosity` of `/repo/xtrack/lumi.py`, lines 9-279, without crab crossing (the other branches raise an exception) and without dispersion (`deltap_p0`
different from zero raises).  Simplifications: real numbers; the numerical quadrature is the integral.
-/

namespace Verif.Lumi

noncomputable section

/-- The arguments for one beam. -/
structure Beam where
  n : ℝ
  x : ℝ
  px : ℝ
  y : ℝ
  py : ℝ
  energy : ℝ
  mass : ℝ
  epsx : ℝ
  epsy : ℝ
  sz : ℝ
  betx : ℝ
  bety : ℝ
  alfx : ℝ
  alfy : ℝ

/-- `clight` of scipy. -/
def clight : ℝ := 299792458

/-- `beta`, lines 9-11. -/
def driftBeta (s beta0 alpha : ℝ) : ℝ := beta0 - 2 * alpha * s + (1 + alpha ^ 2) / beta0 * s ^ 2

/-- `sigma`, lines 17-19. -/
def sigma (beta eps bg : ℝ) : ℝ := √(beta * eps / bg)

/-- `gamma1`, lines 82 and 86. -/
def gamma (b : Beam) : ℝ := b.energy / b.mass

/-- `br_1`, lines 83 and 87. -/
def br (b : Beam) : ℝ := √(1 - 1 / gamma b ^ 2)

/-- `betagamma_1`, lines 84 and 88. -/
def betagamma (b : Beam) : ℝ := br b * gamma b

/-- `v_1`, lines 90-96. -/
def v1 (b : Beam) : Fin 3 → ℝ :=
  let v0 := br b * clight
  ![v0 * b.px, v0 * b.py, v0 * √(1 - b.px ^ 2 - b.py ^ 2)]

/-- `v_2`, lines 98-104. -/
def v2 (b : Beam) : Fin 3 → ℝ :=
  let v0 := br b * clight
  ![-v0 * b.px, -v0 * b.py, -v0 * √(1 - b.px ^ 2 - b.py ^ 2)]

def dot3 (a b : Fin 3 → ℝ) : ℝ := a 0 * b 0 + a 1 * b 1 + a 2 * b 2

def cross3 (a b : Fin 3 → ℝ) : Fin 3 → ℝ := ![a 1 * b 2 - a 2 * b 1, a 2 * b 0 - a 0 * b 2, a 0 * b 1 - a 1 * b 0]

/-- `Moeller_efficiency`, lines 110-116. -/
def moeller (b1 b2 : Beam) : ℝ :=
  let d := fun i => v1 b1 i - v2 b2 i
  let c := cross3 (v1 b1) (v2 b2)
  √(clight ^ 2 * dot3 d d - dot3 c c) / clight ^ 2 / 2

/-- `sx1`, `sx2`, lines 118-136, with `deltap_p0 = 0`. -/
def sx (b : Beam) (s : ℝ) : ℝ := √(sigma (driftBeta s b.betx b.alfx) b.epsx (betagamma b) ^ 2 + 0 ^ 2)

/-- `sy1`, `sy2`. -/
def sy (b : Beam) (s : ℝ) : ℝ := √(sigma (driftBeta s b.bety b.alfy) b.epsy (betagamma b) ^ 2 + 0 ^ 2)

/-- `mx1`, `mx2`, lines 249-263. -/
def mx (b : Beam) (s : ℝ) : ℝ := b.x + b.px * s

def my (b : Beam) (s : ℝ) : ℝ := b.y + b.py * s

/-- `kernel_single_integral`, lines 265-269. -/
def kernel (b1 b2 : Beam) (s : ℝ) : ℝ :=
  Real.exp (0.5 * (-(mx b1 s - mx b2 s) ^ 2 / (sx b1 s ^ 2 + sx b2 s ^ 2) - (my b1 s - my b2 s) ^ 2 / (sy b1 s ^ 2 + sy b2 s ^ 2)
      - ((br b1 + br b2) ^ 2 * s ^ 2) / (br b2 ^ 2 * b1.sz ^ 2 + br b1 ^ 2 * b2.sz ^ 2)))
    / √((sx b1 s ^ 2 + sx b2 s ^ 2) * (sy b1 s ^ 2 + sy b2 s ^ 2) * (b1.sz ^ 2 + b2.sz ^ 2))

/-- `luminosity`, lines 138, 271-273. -/
def luminosity (f nb : ℝ) (b1 b2 : Beam) : ℝ :=
  let sigmaZ := max b1.sz b2.sz
  let l0 := f * b1.n * b2.n * nb / √2 / (Real.pi * √Real.pi) * ∫ s in (-20 * sigmaZ)..(20 * sigmaZ), kernel b1 b2 s
  l0 * moeller b1 b2 / 1e4

end

end Verif.Lumi
