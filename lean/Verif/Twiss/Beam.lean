import Verif.Twiss.Functions

/-! # Normalized coordinates, beam covariance, the branch `use_full_inverse` -/

namespace Verif.Twiss

open Matrix

theorem blockRot_mulVec (φ : Fin 3 → ℝ) (n : Vec) : blockRot φ *ᵥ n = rotate φ n := by
  funext i
  fin_cases i <;> simp [blockRot, rotate, Matrix.mulVec, dotProduct, Fin.sum_univ_six]

/-- Emittances are positive. -/
def Positive (beta0 gamma0 : ℝ) (nemitt : Fin 3 → Option ℝ) : Prop :=
  0 < beta0 ∧ 0 < gamma0 ∧ ∀ k e, nemitt k = some e → 0 < e

theorem gemitt_pos {beta0 gamma0 : ℝ} {nemitt : Fin 3 → Option ℝ} (h : Positive beta0 gamma0 nemitt)
    (i : Fin 6) : 0 < gemitt beta0 gamma0 nemitt i := by
  obtain ⟨h1, h2, h3⟩ := h
  unfold gemitt
  split
  · exact one_pos
  · rename_i e he
    exact div_pos (div_pos (h3 _ e he) h1) h2

/-- **C96.** Normalized coordinates determine the particle: scaled with the emittances and multiplied by
the W matrix of the row they give back the coordinates relative to the closed orbit. -/
theorem C96_inverse {W : Mat} (hW : IsUnit W.det) (co z : Vec) {beta0 gamma0 : ℝ}
    {nemitt : Fin 3 → Option ℝ} (h : Positive beta0 gamma0 nemitt) :
    W *ᵥ (fun i => √ (gemitt beta0 gamma0 nemitt i) * phys2norm W co beta0 gamma0 nemitt z i) + co
      = z := by
  have e : (fun i => √ (gemitt beta0 gamma0 nemitt i) * phys2norm W co beta0 gamma0 nemitt z i)
      = W⁻¹ *ᵥ (z - co) := by
    funext i
    have := (Real.sqrt_pos.mpr (gemitt_pos h i)).ne'
    rw [phys2norm]
    field_simp
  rw [e, Matrix.mulVec_mulVec, Matrix.mul_nonsing_inv _ hW, Matrix.one_mulVec]
  simp

theorem isUnit_row {maps : List (Vec → Vec)} {As : List Mat} (l : LinearLine maps As)
    (co : Vec) {W : Mat} (r : Regular W) {scale : ℝ} (hs : scale ≠ 0) (i : ℕ) :
    IsUnit (tableRow co W scale maps i).W.det := by
  have n0 : ∀ k, nu (wsRow co W scale maps i) k ≠ 0 := fun k => by
    rw [nu_wsRow l co W hs]; exact regular_nu r k
  apply (aligned_row _ n0).isUnit
  apply (tableRow_aligned l co W hs i).isUnit
  rw [Matrix.det_mul]
  exact (transfer_symplectic l.symplectic 0 i).isUnit.mul r.inv

theorem rotate_scale (φ : Fin 3 → ℝ) (n : Vec) (g : Fin 3 → ℝ) (i : Fin 6) :
    rotate φ (fun i => n i / g (![0, 0, 1, 1, 2, 2] i)) i
      = rotate φ n i / g (![0, 0, 1, 1, 2, 2] i) := by
  fin_cases i <;> simp [rotate] <;> ring

/-- **C96.** Along a line the normalized coordinates of every particle only rotate, by the phase
advances of the table. -/
theorem C96_rotation {maps : List (Vec → Vec)} {As : List Mat} (l : LinearLine maps As)
    (co z : Vec) {W : Mat} (r : Regular W) {scale : ℝ} (hs : scale ≠ 0) {i j : ℕ} (hij : i ≤ j)
    (beta0 gamma0 : ℝ) (nemitt : Fin 3 → Option ℝ) :
    phys2norm (tableRow co W scale maps j).W (recorded maps j co) beta0 gamma0 nemitt
        (recorded maps j z)
      = rotate (fun k => (tableRow co W scale maps j).phi k - (tableRow co W scale maps i).phi k)
          (phys2norm (tableRow co W scale maps i).W (recorded maps i co) beta0 gamma0 nemitt
            (recorded maps i z)) := by
  have hR := C89_R_matrix l co r hs hij
  have uj := isUnit_row l co r hs j
  have key : (tableRow co W scale maps j).W⁻¹ *ᵥ (recorded maps j z - recorded maps j co)
      = rotate (fun k => (tableRow co W scale maps j).phi k - (tableRow co W scale maps i).phi k)
        ((tableRow co W scale maps i).W⁻¹ *ᵥ (recorded maps i z - recorded maps i co)) := by
    rw [recorded_sub l.affine, recorded_sub l.affine, ← transfer_mul As (Nat.zero_le i) hij, ← hR,
      ← blockRot_mulVec, getR]
    simp only [Matrix.mulVec_mulVec]
    congr 1
    calc (tableRow co W scale maps j).W⁻¹ * ((tableRow co W scale maps j).W
          * blockRot (fun k => (tableRow co W scale maps j).phi k - (tableRow co W scale maps i).phi k)
          * (tableRow co W scale maps i).W⁻¹ * transfer As 0 i)
        = ((tableRow co W scale maps j).W⁻¹ * (tableRow co W scale maps j).W)
          * (blockRot (fun k => (tableRow co W scale maps j).phi k
            - (tableRow co W scale maps i).phi k)
          * ((tableRow co W scale maps i).W⁻¹ * transfer As 0 i)) := by
          simp only [Matrix.mul_assoc]
      _ = _ := by rw [Matrix.nonsing_inv_mul _ uj, Matrix.one_mul]
  funext a
  have e1 : phys2norm (tableRow co W scale maps i).W (recorded maps i co) beta0 gamma0 nemitt
      (recorded maps i z) = fun b => ((tableRow co W scale maps i).W⁻¹
        *ᵥ (recorded maps i z - recorded maps i co)) b
        / (fun k => √ (match nemitt k with | none => 1 | some e => e / beta0 / gamma0))
          (![0, 0, 1, 1, 2, 2] b) := rfl
  rw [e1]
  refine Eq.trans ?_ (rotate_scale _ _
    (fun k => √ (match nemitt k with | none => 1 | some e => e / beta0 / gamma0)) a).symm
  rw [← key]
  rfl

/-- **C96.** The actions of every particle are the same in all rows. -/
theorem C96_action {maps : List (Vec → Vec)} {As : List Mat} (l : LinearLine maps As)
    (co z : Vec) {W : Mat} (r : Regular W) {scale : ℝ} (hs : scale ≠ 0) {i j : ℕ} (hij : i ≤ j)
    (beta0 gamma0 : ℝ) (nemitt : Fin 3 → Option ℝ) (k : Fin 3) :
    let N := fun m => phys2norm (tableRow co W scale maps m).W (recorded maps m co) beta0 gamma0 nemitt
        (recorded maps m z)
    N j (reCol k) ^ 2 + N j (imCol k) ^ 2 = N i (reCol k) ^ 2 + N i (imCol k) ^ 2 := by
  intro N
  have h : N j = _ := C96_rotation l co z r hs hij beta0 gamma0 nemitt
  rw [h]
  show _ = (N i (reCol k)) ^ 2 + (N i (imCol k)) ^ 2
  have hN : phys2norm (tableRow co W scale maps i).W (recorded maps i co) beta0 gamma0 nemitt
      (recorded maps i z) = N i := rfl
  rw [hN]
  generalize N i = n
  fin_cases k <;> simp [rotate, reCol, imCol]
  · have := Real.sin_sq_add_cos_sq ((tableRow co W scale maps j).phi 0 - (tableRow co W scale maps i).phi 0)
    linear_combination (n 0 ^ 2 + n 1 ^ 2) * this
  · have := Real.sin_sq_add_cos_sq ((tableRow co W scale maps j).phi 1 - (tableRow co W scale maps i).phi 1)
    linear_combination (n 2 ^ 2 + n 3 ^ 2) * this
  · have := Real.sin_sq_add_cos_sq ((tableRow co W scale maps j).phi 2 - (tableRow co W scale maps i).phi 2)
    linear_combination (n 4 ^ 2 + n 5 ^ 2) * this

theorem covariance_eq (e : Fin 3 → ℝ) (W : Mat) : covariance e W = W * nuMat e * Wᵀ := by
  ext i j
  simp [covariance, mode, reCol, imCol, nuMat, Matrix.mul_apply, Fin.sum_univ_six]
  ring

theorem blockRot_transpose (φ : Fin 3 → ℝ) : (blockRot φ)ᵀ = blockRot fun k => -φ k := by
  ext i j
  fin_cases i <;> fin_cases j <;> simp [blockRot]

/-- **C96.** The beam matrix of the table is transported by the transfer matrices, `Σ' = R Σ Rᵀ`, for
all emittances: the matched beam of one row is the matched beam of every other row. -/
theorem C96_covariance {maps : List (Vec → Vec)} {As : List Mat} (l : LinearLine maps As)
    (co : Vec) {W : Mat} (r : Regular W) {scale : ℝ} (hs : scale ≠ 0) {i j : ℕ} (hij : i ≤ j)
    (e : Fin 3 → ℝ) :
    covariance e (tableRow co W scale maps j).W
      = transfer As i j * covariance e (tableRow co W scale maps i).W * (transfer As i j)ᵀ := by
  rw [← C89_R_matrix l co r hs hij, covariance_eq, covariance_eq, getR]
  have ui := isUnit_row l co r hs i
  generalize (tableRow co W scale maps i).W = A at *
  generalize (tableRow co W scale maps j).W = B at *
  generalize (fun k => (tableRow co W scale maps j).phi k - (tableRow co W scale maps i).phi k) = φ
  have h1 : A⁻¹ * A = 1 := Matrix.nonsing_inv_mul _ ui
  have h2 : Aᵀ * (A⁻¹)ᵀ = 1 := by rw [← Matrix.transpose_mul, h1, Matrix.transpose_one]
  symm
  calc B * blockRot φ * A⁻¹ * (A * nuMat e * Aᵀ) * (B * blockRot φ * A⁻¹)ᵀ
      = B * blockRot φ * (A⁻¹ * A) * nuMat e * (Aᵀ * (A⁻¹)ᵀ) * (blockRot φ)ᵀ * Bᵀ := by
        simp only [Matrix.transpose_mul, Matrix.mul_assoc]
    _ = B * (nuMat e * (blockRot φ * (blockRot φ)ᵀ)) * Bᵀ := by
        rw [h1, h2, Matrix.mul_one, Matrix.mul_one, Matrix.mul_assoc B, ← nuMat_comm]
        simp only [Matrix.mul_assoc]
    _ = B * nuMat e * Bᵀ := by rw [blockRot_transpose, blockRot_mul_neg, Matrix.mul_one]

/-- The hypotheses of the theorems on beams are met by a drift, a quadrupole and unit optics. -/
example (b : Vec) : LinearLine [fun z => exDrift *ᵥ z + b, fun z => exQuad *ᵥ z]
    [exDrift, exQuad] ∧ Regular 1 ∧ Positive (1 / 2) 2 ![some 3, none, some 1] :=
  ⟨exLine b, regular_of_symplectic Symplectic.one, by
    refine ⟨by norm_num, by norm_num, ?_⟩
    intro k e he
    fin_cases k <;> simp at he <;> rw [← he] <;> norm_num⟩

/-! `use_full_inverse` -/

theorem EE_eq {W : Mat} (h : Symplectic W) (k : Fin 3) : EE W k = W * blockId k * Wᵀ := by
  have hs := (symplectic_iff W).mp h
  have inv : W⁻¹ = -S * Wᵀ * S := by
    apply Matrix.inv_eq_left_inv
    rw [Matrix.mul_assoc, Matrix.mul_assoc, ← Matrix.mul_assoc Wᵀ, hs, Matrix.neg_mul, S_mul_S,
      neg_neg]
  have c : S * blockId k * S = -blockId k := by
    ext i j
    rw [blockId, Matrix.mul_apply]
    simp only [Matrix.mul_diagonal, Fin.sum_univ_six]
    fin_cases k <;> fin_cases i <;> fin_cases j <;>
      simp [S, reCol, imCol]
  rw [EE, inv]
  calc -W * (S * blockId k) * (-S * Wᵀ * S) * S
      = W * (S * blockId k * S) * Wᵀ * (S * S) := by
        simp only [Matrix.mul_assoc, Matrix.neg_mul, Matrix.mul_neg, neg_neg]
    _ = W * blockId k * Wᵀ := by
        rw [c, S_mul_S]
        simp only [Matrix.mul_neg, Matrix.neg_mul, neg_neg, Matrix.mul_one]

/-- **C91.** Both branches of the calculation (`use_full_inverse` or not) give the same functions when
the W matrix is symplectic. -/
theorem C91_full_inverse {W : Mat} (h : Symplectic W) (hx : betx W ≠ 0) (hy : bety W ≠ 0) :
    fullInverse W = direct W := by
  have e : ∀ k i j, EE W k i j = W i (reCol k) * W j (reCol k) + W i (imCol k) * W j (imCol k) := by
    intro k i j
    rw [EE_eq h]
    fin_cases k <;>
      simp [blockId, Matrix.mul_apply, Fin.sum_univ_six, reCol, imCol]
  have px : 0 < betx W := lt_of_le_of_ne (by unfold betx; positivity) (Ne.symm hx)
  have py : 0 < bety W := lt_of_le_of_ne (by unfold bety; positivity) (Ne.symm hy)
  have ex : EE W 0 0 0 = betx W := by rw [e]; simp [betx, reCol, imCol]; ring
  have ey : EE W 1 2 2 = bety W := by rw [e]; simp [bety, reCol, imCol]; ring
  have p1 : 0 ≤ EE W 0 2 2 := by
    rw [e]
    nlinarith [sq_nonneg (W 2 (reCol 0)), sq_nonneg (W 2 (imCol 0))]
  have p2 : 0 ≤ EE W 1 0 0 := by
    rw [e]
    nlinarith [sq_nonneg (W 0 (reCol 1)), sq_nonneg (W 0 (imCol 1))]
  unfold fullInverse direct
  simp only [ex, ey, sign_pos px, sign_pos py, SignType.coe_one, mul_one, abs_of_nonneg p1,
    abs_of_nonneg p2]
  funext i
  fin_cases i <;>
    simp [e, alfx, gamx, alfy, gamy, bety1, betx2, alfy1, alfx2, gamy1, gamx2, reCol, imCol] <;> ring

example : fullInverse exDrift = direct exDrift := by
  apply C91_full_inverse exDrift_symplectic
  · simp [betx, exDrift]; norm_num
  · simp [bety, exDrift]; norm_num

end Verif.Twiss
