import Verif.Twiss.Model

/-!
# Specification of optics quantities

Nothing here refers to the way the optics is computed: a line is a list of elements, each of which
acts as an affine map of phase space around the orbit, and the quantities are the textbook ones.
(The types `Vec`, `Mat` of the model file are plain abbreviations.)
-/

namespace Verif.Twiss

open Matrix

/-- The map `f` is affine with linear part `A`. -/
def Affine (f : Vec → Vec) (A : Mat) : Prop := ∀ z w, f z - f w = A *ᵥ (z - w)

/-- The symplectic form of phase space. -/
def form (z w : Vec) : ℝ :=
  z 0 * w 1 - z 1 * w 0 + (z 2 * w 3 - z 3 * w 2) + (z 4 * w 5 - z 5 * w 4)

/-- Symplectic matrices. -/
def Symplectic (A : Mat) : Prop := ∀ z w, form (A *ᵥ z) (A *ᵥ w) = form z w

/-- Transfer matrix from the entry of element `i` to the entry of element `j` of a line whose elements
have the linear parts `As`. -/
def transfer (As : List Mat) (i j : ℕ) : Mat := ((As.take j).drop i).foldl (fun P A => A * P) 1

/-- A line of affine symplectic elements. -/
structure LinearLine (maps : List (Vec → Vec)) (As : List Mat) : Prop where
  affine : List.Forall₂ Affine maps As
  symplectic : ∀ A ∈ As, Symplectic A

/-- Admissible optics at the start: an invertible matrix, the two columns of each mode being
conjugate to each other up to a factor. -/
structure Regular (W : Mat) : Prop where
  inv : IsUnit W.det
  x : form (fun i => W i 0) (fun i => W i 1) ≠ 0
  y : form (fun i => W i 2) (fun i => W i 3) ≠ 0
  zeta : form (fun i => W i 4) (fun i => W i 5) ≠ 0

/-- Rotation by the angles `φ` of the three planes `(x, px)`, `(y, py)`, `(zeta, pzeta)`
(clockwise, as a particle moves in normalized phase space). -/
noncomputable def rotate (φ : Fin 3 → ℝ) (n : Vec) : Vec :=
  ![Real.cos (φ 0) * n 0 + Real.sin (φ 0) * n 1, -Real.sin (φ 0) * n 0 + Real.cos (φ 0) * n 1,
    Real.cos (φ 1) * n 2 + Real.sin (φ 1) * n 3, -Real.sin (φ 1) * n 2 + Real.cos (φ 1) * n 3,
    Real.cos (φ 2) * n 4 + Real.sin (φ 2) * n 5, -Real.sin (φ 2) * n 4 + Real.cos (φ 2) * n 5]

/-- A line without coupling between the planes and without RF: the horizontal and vertical motion
depend on the other coordinates only through the momentum, the momentum is conserved. -/
structure Uncoupled (A : Mat) : Prop where
  x : A 0 2 = 0 ∧ A 0 3 = 0 ∧ A 0 4 = 0
  px : A 1 2 = 0 ∧ A 1 3 = 0 ∧ A 1 4 = 0
  y : A 2 0 = 0 ∧ A 2 1 = 0 ∧ A 2 4 = 0
  py : A 3 0 = 0 ∧ A 3 1 = 0 ∧ A 3 4 = 0
  zeta : A 4 4 = 1
  pzeta : A 5 0 = 0 ∧ A 5 1 = 0 ∧ A 5 2 = 0 ∧ A 5 3 = 0 ∧ A 5 4 = 0 ∧ A 5 5 = 1

/-- Two angles are equal up to full turns. -/
def SameAngle (a b : ℝ) : Prop := ∃ n : ℤ, a = b + 2 * Real.pi * n

/-- Slippage per unit of relative momentum deviation: a particle which comes back after a turn with
`zeta` changed by `η` and everything else unchanged, and whose momentum deviation is one. -/
def IsSlip (R : Mat) (η : ℝ) : Prop :=
  ∃ z : Vec, z 5 = 1 ∧ R *ᵥ z = z + ![0, 0, 0, 0, η, 0]

end Verif.Twiss
