import Mathlib.Analysis.SpecialFunctions.Trigonometric.Basic
import Mathlib.Analysis.Real.Sqrt
import Mathlib.Data.Matrix.Mul
import Mathlib.LinearAlgebra.Matrix.Rank
import Mathlib.Algebra.BigOperators.Fin
import Mathlib.Tactic.Ring
import Mathlib.Tactic.NormNum
import Mathlib.Tactic.Linarith
import Mathlib.Tactic.FieldSimp
import Mathlib.Tactic.Positivity

/-!
# Trajectory correction (C128, C129, C130)

Modelled: `_build_response_matrix`, the solution with singular values of `_get_correction`, and the loop of `TrajectoryCorrection.correct`, in
`/repo/xtrack/trajectory_correction.py`, lines 11-90, 93-128, 651-726.

Simplifications: real numbers.  The solver with limits, which is in scipy, is any function which respects the limits given to it; the machine is any function from
kicks to orbits.
-/

namespace Verif.Steer

open Matrix Classical

noncomputable section

/-! ## Response matrix -/

/-- One element of `_build_response_matrix` with `mode='open'`, lines 117-120: differences of the phase below zero are set to zero. -/
def responseOpen (betM betC muM muC : ℝ) : ℝ :=
  let d := if muM - muC < 0 then 0 else muM - muC
  √(betM * betC) * Real.sin (2 * Real.pi * |d|)

/-- One element with `mode='closed'`, lines 121-126. -/
def responseClosed (betM betC muM muC tune : ℝ) : ℝ :=
  √(betM * betC) / 2 / Real.sin (Real.pi * tune) * Real.cos (Real.pi * tune - 2 * Real.pi * |muM - muC|)

/-! ## Correction with singular values -/

variable {m n k : ℕ}

/-- `S_inv`, lines 68-72.  `rcond = none` is the default. -/
def sInv (S : Fin (k + 1) → ℝ) (rcond : Option ℝ) (i : Fin (k + 1)) : ℝ :=
  match rcond with
  | none => if S i > 0 then 1 / S i else 0
  | some r => if S i < r * S 0 then 0 else if S i > 0 then 1 / S i else 0

/-- `correction_masked`, line 73, without limits and with all correctors. -/
def correction (U : Matrix (Fin m) (Fin (k + 1)) ℝ) (S : Fin (k + 1) → ℝ) (Vh : Matrix (Fin (k + 1)) (Fin n) ℝ) (rcond : Option ℝ) (x : Fin m → ℝ) : Fin n → ℝ :=
  Vhᵀ *ᵥ (diagonal (sInv S rcond) *ᵥ (Uᵀ *ᵥ (-x)))

/-- `U[:, :n_singular_values]`, line 18. -/
def firstU {k' : ℕ} (h : k' + 1 ≤ k + 1) (U : Matrix (Fin m) (Fin (k + 1)) ℝ) : Matrix (Fin m) (Fin (k' + 1)) ℝ := U.submatrix id (Fin.castLE h)

/-- `S[:n_singular_values]`, line 19. -/
def firstS {k' : ℕ} (h : k' + 1 ≤ k + 1) (S : Fin (k + 1) → ℝ) : Fin (k' + 1) → ℝ := fun i => S (Fin.castLE h i)

/-- `Vh[:n_singular_values, :]`, line 20. -/
def firstV {k' : ℕ} (h : k' + 1 ≤ k + 1) (Vh : Matrix (Fin (k + 1)) (Fin n) ℝ) : Matrix (Fin (k' + 1)) (Fin n) ℝ := Vh.submatrix (Fin.castLE h) id

/-- The exceptions of the choice of correctors: `residual_x[0]` of an empty array, and `nanargmin` of values which are all `nan`. -/
inductive Err
  | indexError
  | valueError
  deriving DecidableEq

/-- `numpy.linalg.lstsq` returns a residual only if the matrix has full rank and more rows than columns (its documentation: "If the rank of `a` is < N or M <= N, this is
an empty array"). -/
def hasResidual (R : Matrix (Fin m) (Fin n) ℝ) (act : Finset (Fin n)) : Prop :=
  (R.submatrix id fun a : act => a.1).rank = act.card ∧ act.card < m

/-- One pass of the loop with `n_micado`, without limits, lines 35-58.  `pick` is the corrector with the smallest residual. -/
def micadoStep (R : Matrix (Fin m) (Fin n) ℝ) (pick : Finset (Fin n) → Fin n) (used : Finset (Fin n)) : Except Err (Finset (Fin n)) :=
  if ∀ j, j ∉ used → hasResidual R (insert j used) then (if used = Finset.univ then .error .valueError else .ok (insert (pick used) used)) else .error .indexError

/-- The loop over `n_micado`. -/
def micado (R : Matrix (Fin m) (Fin n) ℝ) (pick : Finset (Fin n) → Fin n) : ℕ → Except Err (Finset (Fin n))
  | 0 => .ok ∅
  | nm + 1 =>
    match micado R pick nm with
    | .error e => .error e
    | .ok used => micadoStep R pick used

/-! ## The loop -/

/-- Limits of the correctors of a plane. -/
abbrev Limits (ι : Type) := Option ((ι → ℝ) × (ι → ℝ))

/-- What is fixed during a call of `correct`.  `std` gives the standard deviation of the positions at the monitors of a plane, `solve` the correction within limits. -/
structure Config (ι O : Type) where
  machine : (ι → ℝ) → (ι → ℝ) → O
  useX : Bool
  useY : Bool
  limX : Limits ι
  limY : Limits ι
  solveX : O → Limits ι → ι → ℝ
  solveY : O → Limits ι → ι → ℝ
  stdX : O → ℝ
  stdY : O → ℝ
  /-- `none` is `n_iter='auto'` -/
  nIter : Option ℕ
  verbose : Bool
  stopFactor : ℝ
  tol : ℝ

/-- The variables of the loop. -/
structure St (ι O : Type) where
  kx : ι → ℝ
  ky : ι → ℝ
  rlx : Limits ι
  rly : Limits ι
  orbit : O
  stopX : Bool
  stopY : Bool
  iter : ℕ

variable {ι O : Type}

/-- Before the loop, lines 651-668. -/
def start (c : Config ι O) (kx ky : ι → ℝ) : St ι O := ⟨kx, ky, c.limX, c.limY, c.machine kx ky, !c.useX, !c.useY, 0⟩

/-- `(corrector_limits[0] - kicks, corrector_limits[1] - kicks)`, lines 708-720. -/
def relative (l : Limits ι) (k : ι → ℝ) : Limits ι := l.map fun p => (fun i => p.1 i - k i, fun i => p.2 i - k i)

/-- Criterion for a plane, lines 692-693. -/
def stopCond (c : Config ι O) (std : O → ℝ) (new old : O) : Bool := decide (std new < c.tol ∨ std new > (1 - c.stopFactor) * std old)

/-- The body of the loop up to line 721. -/
def body (c : Config ι O) (s : St ι O) : St ι O :=
  let kx := if c.useX then fun i => s.kx i + c.solveX s.orbit s.rlx i else s.kx
  let ky := if c.useY then fun i => s.ky i + c.solveY s.orbit s.rly i else s.ky
  let orbit := c.machine kx ky
  { kx, ky, orbit
    stopX := if c.nIter = none ∧ c.useX then stopCond c c.stdX orbit s.orbit else s.stopX
    stopY := if c.nIter = none ∧ c.useY then stopCond c c.stdY orbit s.orbit else s.stopY
    rlx := if c.verbose ∧ c.useX ∧ c.limX.isSome then relative c.limX kx else s.rlx
    rly := if c.verbose ∧ c.useY ∧ c.limY.isSome then relative c.limY ky else s.rly
    iter := s.iter + 1 }

/-- The two exits, lines 722-726. -/
def done (c : Config ι O) (s : St ι O) : Prop := (s.stopX ∧ s.stopY) ∨ ∃ n, c.nIter = some n ∧ n ≤ s.iter

/-- `position.std()` of numpy. -/
def std (p : List ℝ) : ℝ :=
  let mean := p.sum / p.length
  √((p.map fun x => (x - mean) ^ 2).sum / p.length)

end

end Verif.Steer
