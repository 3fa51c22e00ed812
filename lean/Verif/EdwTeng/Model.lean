import Mathlib.Data.Matrix.Block
import Mathlib.LinearAlgebra.Matrix.Trace
import Mathlib.LinearAlgebra.Matrix.Determinant.Basic
import Mathlib.LinearAlgebra.Matrix.NonsingularInverse
import Mathlib.LinearAlgebra.Matrix.Notation
import Mathlib.Data.Real.Sign
import Mathlib.Analysis.Real.Sqrt
import Mathlib.Analysis.SpecialFunctions.Trigonometric.Basic

/-!
# Coupling matrix of Edwards and Teng (C120)

Modelled: all of `/repo/xtrack/twiss/coupling_edw_teng.py` on the transverse `4 x 4` block, with real numbers.  The division by zero which numpy does without
exception is `none`.
-/

namespace Verif.EdwTeng

open Matrix

noncomputable section

abbrev M2 := Matrix (Fin 2) (Fin 2) ℝ
abbrev M4 := Matrix (Fin 2 ⊕ Fin 2) (Fin 2 ⊕ Fin 2) ℝ

/-- `_conj_mat`, lines 51-56. -/
def conjMat (X : M2) : M2 := !![X 1 1, -X 0 1; -X 1 0, X 0 0]

/-- `np.linalg.norm` of a matrix. -/
def norm2 (X : M2) : ℝ := Real.sqrt (X 0 0 ^ 2 + X 0 1 ^ 2 + X 1 0 ^ 2 + X 1 1 ^ 2)

/-- `C + _conj_mat(B)`, line 39. -/
def cPlusBBar (R : M4) : M2 := R.toBlocks₂₁ + conjMat R.toBlocks₁₂

/-- `trace_A_minus_trace_D`, line 41. -/
def traceDiff (R : M4) : ℝ := R.toBlocks₁₁.trace - R.toBlocks₂₂.trace

/-- `denominator`, lines 42-46. -/
def denominator (R : M4) : ℝ :=
  -(1 / 2 * traceDiff R + Real.sign (traceDiff R) * Real.sqrt ((cPlusBBar R).det + 1 / 4 * traceDiff R ^ 2))

/-- `_get_edwards_teng_matrix`, lines 29-48. -/
def edwardsTeng (R : M4) : Option M2 :=
  if norm2 R.toBlocks₁₂ < 1e-10 ∧ norm2 R.toBlocks₂₁ < 1e-10 then some 0
  else if denominator R = 0 then none
  else some ((1 / denominator R) • cPlusBBar R)

/-- `lnf.Rot2D`, linear_normal_form.py. -/
def rot2 (mu : ℝ) : M2 := !![Real.cos mu, Real.sin mu; -Real.sin mu, Real.cos mu]

def J2 : M2 := !![0, 1; -1, 0]

/-- `lnf.S` -/
def S4 : M4 := fromBlocks J2 0 0 J2

/-- The one-turn matrix at an element, lines 66-68. -/
def oneTurn (W : M4) (qx qy : ℝ) : M4 :=
  W * fromBlocks (rot2 (2 * Real.pi * qx)) 0 0 (rot2 (2 * Real.pi * qy)) * (S4ᵀ * Wᵀ * S4)

/-- `_edwards_teng_from_one_turn_at_all_locations`, lines 59-72. -/
def edwardsTengAll (Ws : List M4) (qx qy : ℝ) : List (Option M2) := Ws.map fun W => edwardsTeng (oneTurn W qx qy)

/-! ## Specification -/

/-- Symplectic matrices of two degrees of freedom. -/
def Symp (M : M4) : Prop := Mᵀ * S4 * M = S4

/-- The coordinates of Edwards and Teng: `g` times the block matrix of `1`, the adjoint of `R`, `-R` and `1`. -/
def decoupling (g : ℝ) (R : M2) : M4 := fromBlocks (g • 1) (g • R.adjugate) (-(g • R)) (g • 1)

/-- `R` decouples the turn: the change of coordinates is symplectic and the turn becomes two turns in one plane each. -/
def Decouples (R : M2) (M : M4) : Prop :=
  ∃ (g : ℝ) (E F : M2), 0 < g ∧ Symp (decoupling g R) ∧ M * decoupling g R = decoupling g R * fromBlocks E 0 0 F

end

end Verif.EdwTeng
