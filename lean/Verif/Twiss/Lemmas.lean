import Verif.Twiss.Model
import Mathlib.Tactic.Ring
import Mathlib.Tactic.LinearCombination
import Mathlib.Tactic.FinCases
import Mathlib.Tactic.FieldSimp
import Mathlib.LinearAlgebra.Matrix.Notation
import Mathlib.Data.Fin.VecNotation

/-! # Algebra of W matrices and their modes -/

namespace Verif.Twiss

open Matrix

theorem mode_ext {A B : Mat} (h : ∀ k, mode A k = mode B k) : A = B := by
  ext i j
  have h0 := congrFun (h 0) i
  have h1 := congrFun (h 1) i
  have h2 := congrFun (h 2) i
  simp only [mode, reCol, imCol, Complex.mk.injEq] at h0 h1 h2
  fin_cases j
  · exact h0.1
  · exact h0.2
  · exact h1.1
  · exact h1.2
  · exact h2.1
  · exact h2.2

@[simp] theorem mode_ofModes (v : Fin 3 → CVec) (k : Fin 3) : mode (ofModes v) k = v k := by
  funext i
  fin_cases k <;> rfl

@[simp] theorem ofModes_mode (W : Mat) : ofModes (mode W) = W := by
  apply mode_ext
  intro k
  rw [mode_ofModes]

/-- A real matrix acts on the modes of `W`. -/
def act (M : Mat) (v : CVec) : CVec := fun i => ∑ j, (M i j : ℂ) * v j

theorem mode_mul (M W : Mat) (k : Fin 3) : mode (M * W) k = act M (mode W k) := by
  funext i
  simp only [mode, act, Matrix.mul_apply]
  apply Complex.ext
  · simp [Complex.re_sum]
  · simp [Complex.im_sum]

theorem mode_blockRot (W : Mat) (φ : Fin 3 → ℝ) (k : Fin 3) :
    mode (W * blockRot φ) k = fun i => mode W k i * Complex.exp (Complex.I * (φ k : ℂ)) := by
  funext i
  have e : Complex.exp (Complex.I * (φ k : ℂ)) = ⟨Real.cos (φ k), Real.sin (φ k)⟩ := by
    rw [mul_comm, Complex.exp_mul_I, ← Complex.ofReal_cos, ← Complex.ofReal_sin]
    apply Complex.ext <;> simp [-Complex.ofReal_cos, -Complex.ofReal_sin]
  rw [e]
  fin_cases k <;>
    (apply Complex.ext <;>
      (simp [mode, reCol, imCol, Matrix.mul_apply, Fin.sum_univ_six, blockRot]; try ring))

theorem blockRot_add (φ ψ : Fin 3 → ℝ) :
    blockRot (fun k => φ k + ψ k) = blockRot φ * blockRot ψ := by
  apply mode_ext
  intro k
  rw [mode_blockRot]
  have h1 := mode_blockRot 1 (fun k => φ k + ψ k) k
  have h2 := mode_blockRot 1 φ k
  rw [one_mul] at h1 h2
  rw [h1, h2]
  funext i
  push_cast
  rw [mul_add, Complex.exp_add, mul_assoc]

theorem blockRot_zero : blockRot (fun _ => 0) = 1 := by
  ext i j
  fin_cases i <;> fin_cases j <;> simp [blockRot]

theorem blockRot_neg_mul (φ : Fin 3 → ℝ) : blockRot (fun k => -φ k) * blockRot φ = 1 := by
  rw [← blockRot_add, ← blockRot_zero]
  congr 1
  funext k
  ring

theorem blockRot_mul_neg (φ : Fin 3 → ℝ) : blockRot φ * blockRot (fun k => -φ k) = 1 := by
  rw [← blockRot_add, ← blockRot_zero]
  congr 1
  funext k
  ring

theorem blockRot_inv (φ : Fin 3 → ℝ) : (blockRot φ)⁻¹ = blockRot (fun k => -φ k) :=
  Matrix.inv_eq_left_inv (blockRot_neg_mul φ)

/-- The gauge of lattice_functions_from_W.py only factors a rotation out of `W`. -/
theorem gauge_mul (W : Mat) : gauge W * blockRot (phase W) = W := by
  apply mode_ext
  intro k
  rw [mode_blockRot]
  funext i
  rw [gauge, mode_ofModes]
  rw [mul_assoc, ← Complex.exp_add]
  simp

/-- The renormalisation, as a product with a diagonal matrix. -/
noncomputable def nuMat (n : Fin 3 → ℝ) : Mat :=
  Matrix.diagonal ![n 0, n 0, n 1, n 1, n 2, n 2]

theorem mode_nuMat (W : Mat) (n : Fin 3 → ℝ) (k : Fin 3) :
    mode (W * nuMat n) k = fun i => mode W k i * (n k : ℂ) := by
  funext i
  fin_cases k <;>
    (apply Complex.ext <;> simp [mode, reCol, imCol, nuMat, Matrix.mul_diagonal])

theorem renormalize_mul (W : Mat) (h : ∀ k, nu W k ≠ 0) :
    renormalize W * nuMat (nu W) = W := by
  apply mode_ext
  intro k
  rw [mode_nuMat]
  funext i
  rw [renormalize, mode_ofModes]
  have : (nu W k : ℂ) ≠ 0 := by exact_mod_cast h k
  field_simp

theorem nuMat_inv (n : Fin 3 → ℝ) (h : ∀ k, n k ≠ 0) :
    nuMat n * nuMat (fun k => (n k)⁻¹) = 1 := by
  rw [nuMat, nuMat, Matrix.diagonal_mul_diagonal, ← Matrix.diagonal_one]
  congr 1
  funext i
  fin_cases i <;> simp [h]

theorem nuMat_comm (n φ : Fin 3 → ℝ) : nuMat n * blockRot φ = blockRot φ * nuMat n := by
  apply mode_ext
  intro k
  rw [mode_blockRot, mode_nuMat]
  have h1 := mode_nuMat 1 n k
  have h2 := mode_blockRot 1 φ k
  rw [one_mul] at h1 h2
  rw [h1, h2]
  funext i
  ring

/-- The raw matrix of a row, from the stored matrix and phases. -/
theorem latticeRow_mul (W : Mat) (h : ∀ k, nu W k ≠ 0) :
    (latticeRow W).W * blockRot (latticeRow W).phi * nuMat (nu W) = W := by
  show gauge (renormalize W) * blockRot (phase (renormalize W)) * _ = _
  rw [gauge_mul, renormalize_mul W h]

/-- The transfer matrix reconstructed from two rows. -/
theorem getR_latticeRow (A B : Mat) (hB : ∀ k, nu B k ≠ 0) (hn : nu A = nu B) (hA : IsUnit A.det) :
    getR (latticeRow A) (latticeRow B) = B * A⁻¹ := by
  have hA' : ∀ k, nu A k ≠ 0 := fun k => by rw [hn]; exact hB k
  have ea := latticeRow_mul A hA'
  have eb := latticeRow_mul B hB
  have u : (latticeRow A).W * (blockRot (latticeRow A).phi * nuMat (nu A) * A⁻¹) = 1 := by
    rw [← Matrix.mul_assoc, ← Matrix.mul_assoc, ea, Matrix.mul_nonsing_inv _ hA]
  have inv : ((latticeRow A).W)⁻¹ = blockRot (latticeRow A).phi * nuMat (nu A) * A⁻¹ :=
    Matrix.inv_eq_right_inv u
  rw [getR, inv]
  have hs : (fun k => (latticeRow B).phi k - (latticeRow A).phi k)
      = fun k => (latticeRow B).phi k + (fun k => -(latticeRow A).phi k) k := by
    funext k; ring
  rw [hs, blockRot_add]
  calc (latticeRow B).W * (blockRot (latticeRow B).phi * blockRot fun k => -(latticeRow A).phi k)
        * (blockRot (latticeRow A).phi * nuMat (nu A) * A⁻¹)
      = (latticeRow B).W * blockRot (latticeRow B).phi
          * ((blockRot fun k => -(latticeRow A).phi k) * blockRot (latticeRow A).phi)
          * nuMat (nu A) * A⁻¹ := by simp only [Matrix.mul_assoc]
    _ = B * A⁻¹ := by
        rw [blockRot_neg_mul, Matrix.mul_one, hn, eb]

theorem S_transpose : Sᵀ = -S := by
  ext i j
  fin_cases i <;> fin_cases j <;> simp [S]

theorem S_mul_S : S * S = -1 := by
  ext i j
  fin_cases i <;> fin_cases j <;> simp [S, Matrix.mul_apply, Fin.sum_univ_six]

/-! Norm of the modes under symplectic maps -/

theorem pairNorm_act (M : Mat) (hM : Mᵀ * S * M = S) (v : CVec) :
    pairNorm (act M v) = pairNorm v := by
  have hre : (fun i => (act M v i).re) = M *ᵥ fun i => (v i).re := by
    funext i
    simp [act, Matrix.mulVec, dotProduct, Complex.re_sum]
  have him : (fun i => (act M v i).im) = M *ᵥ fun i => (v i).im := by
    funext i
    simp [act, Matrix.mulVec, dotProduct, Complex.im_sum]
  rw [pairNorm, pairNorm, hre, him, Matrix.mulVec_mulVec, Matrix.dotProduct_mulVec,
    ← Matrix.mulVec_transpose, Matrix.mulVec_mulVec]
  have : (S * M)ᵀ * M = (M ᵀ * S * M)ᵀ := by
    rw [Matrix.transpose_mul, Matrix.transpose_mul, Matrix.transpose_mul, Matrix.transpose_transpose,
      Matrix.mul_assoc]
  rw [this, hM, Matrix.dotProduct_mulVec, ← Matrix.mulVec_transpose]

theorem nu_mul (M W : Mat) (hM : Mᵀ * S * M = S) : nu (M * W) = nu W := by
  funext k
  rw [nu, nu, mode_mul, pairNorm_act M hM]

theorem nu_neg (W : Mat) : nu (-W) = nu W := by
  funext k
  have : pairNorm (mode (-W) k) = pairNorm (mode W k) := by
    simp [pairNorm, mode, dotProduct, Matrix.mulVec]
  rw [nu, nu, this]

end Verif.Twiss
