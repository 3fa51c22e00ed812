import Verif.Frames.Spec
import Mathlib.Analysis.Calculus.FDeriv.Basic
import Mathlib.Analysis.Calculus.FDeriv.Pi
import Mathlib.Data.Fin.VecNotation

/-!
# Symplectic maps

The canonical variables of xtrack are `x, px, y, py, zeta, pzeta`, where `pzeta = ptau / beta0`; `delta`, `rpp` and `rvv` are functions
of `pzeta`.
-/

namespace Verif.Symplectic

open Frames

noncomputable section

/-- Phase space: `x, px, y, py, zeta, pzeta`. -/
abbrev Z := Fin 6 → ℝ

/-- The symplectic form. -/
def omega (v w : Z) : ℝ := v 0 * w 1 - v 1 * w 0 + (v 2 * w 3 - v 3 * w 2) + (v 4 * w 5 - v 5 * w 4)

/-- The map `f` is differentiable at `z` and its Jacobian matrix is symplectic. -/
def Canonical (f : Z → Z) (z : Z) : Prop :=
  ∃ M : Z →L[ℝ] Z, HasFDerivAt f M z ∧ ∀ v w, omega (M v) (M w) = omega v w

/-- The canonical coordinates of a particle. -/
def coords (p : Part) : Z := ![p.x, p.px, p.y, p.py, p.zeta, p.ptau / p.beta0]

/-- `1 + delta` as a function of `pzeta`. -/
def opdOf (beta0 pzeta : ℝ) : ℝ := Real.sqrt (1 + 2 * pzeta + beta0 ^ 2 * pzeta ^ 2)

/-- A particle like `p` (same reference, charge, spin and `s`) with other canonical coordinates; `particles.h` sets `delta`, `rvv` and
`rpp` in this way whenever `ptau` is set. -/
def place (p : Part) (z : Z) : Part :=
  { p with
    x := z 0, px := z 1, y := z 2, py := z 3, zeta := z 4
    ptau := z 5 * p.beta0
    delta := opdOf p.beta0 (z 5) - 1
    rpp := 1 / opdOf p.beta0 (z 5)
    rvv := opdOf p.beta0 (z 5) / (1 + p.beta0 ^ 2 * z 5) }

/-- The motion `F` is symplectic at the particle `p`: the map of the canonical coordinates which it induces on the particles around
`p` is. -/
def SymplecticAt (F : Part → Part) (p : Part) : Prop := Canonical (fun z => coords (F (place p z))) (coords p)

/-- The same for elements in which particles may be lost: particles around `p` are not lost. -/
def SymplecticAtO (F : Part → Option Part) (p : Part) : Prop :=
  ∃ G : Part → Part, (∀ᶠ z in nhds (coords p), F (place p z) = some (G (place p z))) ∧ SymplecticAt G p

end

end Verif.Symplectic
