import Mathlib.Analysis.SpecialFunctions.Arsinh
import Mathlib.Analysis.SpecialFunctions.Trigonometric.Inverse
import Mathlib.Analysis.SpecialFunctions.Log.Basic
import Mathlib.MeasureTheory.Integral.IntervalIntegral.Basic
import Mathlib.LinearAlgebra.Matrix.Trace
import Mathlib.LinearAlgebra.Matrix.Notation

/-!
# Thin elements: what they are meant to do
-/

namespace Verif.Thin

noncomputable section

/-! ### AC dipole -/

/-- The envelope of the excitation: a trapezoid, which rises from 0 to 1 between the turns `r1` and `r2` and falls from 1 to 0 between
the turns `r3` and `r4`. -/
def trapezoid (r1 r2 r3 r4 t : ℝ) : ℝ := max 0 (min 1 (min ((t - r1) / (r2 - r1)) ((r4 - t) / (r4 - r3))))

/-- The matrix of one turn in one plane, with the optics functions `beta` and `alpha` and the tune `q`. -/
def oneTurn (beta alpha q : ℝ) : Matrix (Fin 2) (Fin 2) ℝ :=
  !![Real.cos (2 * Real.pi * q) + alpha * Real.sin (2 * Real.pi * q), beta * Real.sin (2 * Real.pi * q);
     -((1 + alpha ^ 2) / beta) * Real.sin (2 * Real.pi * q), Real.cos (2 * Real.pi * q) - alpha * Real.sin (2 * Real.pi * q)]

/-- A thin lens. -/
def thinLens (g : ℝ) : Matrix (Fin 2) (Fin 2) ℝ := !![1, 0; g, 1]

/-! ### Wire -/

/-- The field of a straight wire of length `length` from the law of Biot and Savart, at the distance `r` from the wire and the position
`s` along it (0: the middle of the wire). -/
def biotSavart (mu0 current length r s : ℝ) : ℝ :=
  mu0 * current / (4 * Real.pi) * ∫ t in (-(length / 2))..(length / 2), r / Real.sqrt ((s - t) ^ 2 + r ^ 2) ^ 3

/-- The field, integrated along a path of length `interaction` which is parallel to the wire. -/
def wireIntegral (mu0 current length interaction r : ℝ) : ℝ :=
  ∫ s in (-(interaction / 2))..(interaction / 2), biotSavart mu0 current length r s

/-! ### Nonlinear lens -/

/-- The elliptic potential of Danilov and Nagaitsev with the singularities `(± c, 0)`. -/
def elliptic (c x y : ℝ) : ℝ :=
  let d1 := Real.sqrt ((x - c) ^ 2 + y ^ 2)
  let d2 := Real.sqrt ((x + c) ^ 2 + y ^ 2)
  let xi := (d2 + d1) / (2 * c)
  let eta := (d2 - d1) / (2 * c)
  (xi * Real.sqrt (xi ^ 2 - 1) * Real.log (xi + Real.sqrt (xi ^ 2 - 1)) - eta * Real.sqrt (1 - eta ^ 2) * Real.arcsin eta)
    / (xi ^ 2 - eta ^ 2)

/-! ### Electron lens -/

/-- The current within the radius `r` of a beam with uniform density between the radii `r1` and `r2`. -/
def enclosed (current r1 r2 r : ℝ) : ℝ :=
  ∫ s in r1..(max r1 (min r r2)), current / (Real.pi * (r2 ^ 2 - r1 ^ 2)) * (2 * Real.pi * s)

/-- The force, per charge, on a particle with velocity `betaP * clight` at the distance `r` from a beam which carries the current
`i` with the velocity `betaE * clight` in the opposite direction: electric field by Gauss' law and magnetic field by Ampère's law. -/
def lensForce (epsilon0 clight i betaE betaP r : ℝ) : ℝ :=
  let electric := i / (betaE * clight) / (2 * Real.pi * epsilon0 * r)
  let magnetic := i / (epsilon0 * clight ^ 2) / (2 * Real.pi * r)
  electric + betaP * clight * magnetic

end

end Verif.Thin
