import Verif.EdwTeng.Model
import Mathlib.Tactic.LinearCombination
import Mathlib.Tactic.NoncommRing
import Mathlib.Tactic.Module
import Mathlib.Tactic.FinCases
import Mathlib.Tactic.Positivity

namespace Verif.EdwTeng

open Matrix

theorem conj_adj (X : M2) : conjMat X = X.adjugate := by rw [adjugate_fin_two, conjMat]

theorem mul_conj (X : M2) : X * conjMat X = X.det • (1 : M2) := by rw [conj_adj, mul_adjugate]
theorem conj_mul (X : M2) : conjMat X * X = X.det • (1 : M2) := by rw [conj_adj, adjugate_mul]
theorem conj_conj (X : M2) : conjMat (conjMat X) = X := by
  ext i j; fin_cases i <;> fin_cases j <;> simp [conjMat]
theorem conj_add (X Y : M2) : conjMat (X + Y) = conjMat X + conjMat Y := by
  ext i j; fin_cases i <;> fin_cases j <;> simp [conjMat] <;> ring
theorem conj_smul (a : ℝ) (X : M2) : conjMat (a • X) = a • conjMat X := by
  ext i j; fin_cases i <;> fin_cases j <;> simp [conjMat]
theorem add_conj (X : M2) : X + conjMat X = X.trace • (1 : M2) := by
  ext i j; fin_cases i <;> fin_cases j <;> simp [conjMat, trace_fin_two] <;> ring
theorem conj_J (X : M2) : conjMat X = -(J2 * Xᵀ * J2) := by
  rw [eta_fin_two X]
  ext i j; fin_cases i <;> fin_cases j <;> simp [conjMat, J2, Matrix.mul_apply, Fin.sum_univ_two, Matrix.vecMul, Matrix.vecHead, Matrix.vecTail]
theorem J_J : J2 * J2 = -1 := by
  ext i j; fin_cases i <;> fin_cases j <;> simp [J2, Matrix.mul_apply, Fin.sum_univ_two]
theorem det_conj (X : M2) : (conjMat X).det = X.det := by
  simp only [conjMat, det_fin_two]
  simp
  ring
theorem det_add_conj (X Y : M2) : (X + conjMat Y).det = X.det + Y.det + (X * Y).trace := by
  simp only [conjMat, det_fin_two, trace_fin_two, Matrix.mul_apply, Fin.sum_univ_two, Matrix.add_apply]
  simp
  ring

/-- The equations between the blocks of a symplectic matrix. -/
structure Blocks (A B C D : M2) : Prop where
  l11 : conjMat A * A + conjMat C * C = 1
  l12 : conjMat A * B + conjMat C * D = 0
  l21 : conjMat B * A + conjMat D * C = 0
  l22 : conjMat B * B + conjMat D * D = 1
  r11 : A * conjMat A + B * conjMat B = 1
  r12 : A * conjMat C + B * conjMat D = 0
  r21 : C * conjMat A + D * conjMat B = 0
  r22 : C * conjMat C + D * conjMat D = 1

theorem blocks_of_symp {M : M4} (h : Symp M) : Blocks M.toBlocks₁₁ M.toBlocks₁₂ M.toBlocks₂₁ M.toBlocks₂₂ := by
  generalize hA : M.toBlocks₁₁ = A
  generalize hB : M.toBlocks₁₂ = B
  generalize hC : M.toBlocks₂₁ = C
  generalize hD : M.toBlocks₂₂ = D
  have hM : M = fromBlocks A B C D := by rw [← hA, ← hB, ← hC, ← hD, fromBlocks_toBlocks]
  have hN : fromBlocks (conjMat A) (conjMat C) (conjMat B) (conjMat D) * M = 1 := by
    have e : fromBlocks (conjMat A) (conjMat C) (conjMat B) (conjMat D) = -(S4 * Mᵀ * S4) := by
      rw [hM, S4, fromBlocks_transpose, fromBlocks_multiply, fromBlocks_multiply, conj_J, conj_J, conj_J, conj_J, fromBlocks_neg]
      simp
    rw [e]
    have : -(S4 * Mᵀ * S4) * M = -(S4 * (Mᵀ * S4 * M)) := by
      rw [neg_mul]; congr 1; simp only [Matrix.mul_assoc]
    unfold Symp at h
    rw [this, h, S4, fromBlocks_multiply, fromBlocks_neg, J_J]
    simp
  have hR := mul_eq_one_comm.mp hN
  rw [hM, fromBlocks_multiply, ← fromBlocks_one, fromBlocks_inj] at hN hR
  exact ⟨hN.1, hN.2.1, hN.2.2.1, hN.2.2.2, hR.1, hR.2.1, hR.2.2.1, hR.2.2.2⟩

theorem Blocks.swap {A B C D : M2} (h : Blocks A B C D) : Blocks D C B A :=
  ⟨by rw [add_comm]; exact h.l22, by rw [add_comm]; exact h.l21, by rw [add_comm]; exact h.l12, by rw [add_comm]; exact h.l11,
    by rw [add_comm]; exact h.r22, by rw [add_comm]; exact h.r21, by rw [add_comm]; exact h.r12, by rw [add_comm]; exact h.r11⟩

theorem smul_one_inj {a b : ℝ} (h : a • (1 : M2) = b • 1) : a = b := by
  have := congrFun (congrFun h 0) 0
  simpa using this

theorem Blocks.dets {A B C D : M2} (h : Blocks A B C D) : B.det = C.det ∧ A.det = 1 - B.det ∧ D.det = 1 - B.det := by
  have h1 := h.l11
  have h2 := h.r11
  have h3 := h.l22
  rw [conj_mul, conj_mul, ← add_smul] at h1 h3
  rw [mul_conj, mul_conj, ← add_smul] at h2
  have e1 := smul_one_inj (h1.trans (one_smul ℝ (1 : M2)).symm)
  have e2 := smul_one_inj (h2.trans (one_smul ℝ (1 : M2)).symm)
  have e3 := smul_one_inj (h3.trans (one_smul ℝ (1 : M2)).symm)
  exact ⟨by linarith, by linarith, by linarith⟩

theorem commutator {A B C D : M2} (h : Blocks A B C D) : (C + conjMat B) * A - D * (C + conjMat B) = (A.trace - D.trace) • C := by
  have e1 : conjMat B * A = -(conjMat D * C) := eq_neg_of_add_eq_zero_left h.l21
  have e2 : D * conjMat B = -(C * conjMat A) := eq_neg_of_add_eq_zero_right h.r21
  have a1 : C * (A + conjMat A) = A.trace • C := by rw [add_conj, Matrix.mul_smul, mul_one]
  have a2 : (D + conjMat D) * C = D.trace • C := by rw [add_conj, Matrix.smul_mul, one_mul]
  rw [sub_smul, ← a1, ← a2, add_mul, mul_add, e1, e2, mul_add, add_mul]
  abel

theorem sandwich {A B C D : M2} (h : Blocks A B C D) :
    (C + conjMat B) * B * (C + conjMat B) = (C + conjMat B).det • C := by
  have hd := h.dets.1
  ext i j
  have hd' : B 0 0 * B 1 1 - B 0 1 * B 1 0 = C 0 0 * C 1 1 - C 0 1 * C 1 0 := by simpa [det_fin_two] using hd
  fin_cases i <;> fin_cases j <;>
    simp only [conjMat, det_fin_two, Matrix.mul_apply, Fin.sum_univ_two, Matrix.add_apply, Matrix.smul_apply, smul_eq_mul, Fin.zero_eta, Fin.mk_one,
      Fin.isValue, Matrix.of_apply, Matrix.cons_val', Matrix.cons_val_zero, Matrix.cons_val_one, Matrix.cons_val_fin_one]
  · linear_combination (C 0 0 + B 1 1) * hd'
  · linear_combination (C 0 1 - B 0 1) * hd'
  · linear_combination (C 1 0 - B 1 0) * hd'
  · linear_combination (C 1 1 + B 0 0) * hd'

/-- The condition for the first two columns. -/
theorem riccati {A B C D : M2} (h : Blocks A B C D) {k : ℝ} (hk : k ^ 2 * (C + conjMat B).det - k * (A.trace - D.trace) - 1 = 0) :
    C - D * (k • (C + conjMat B)) = -(k • (C + conjMat B)) * (A - B * (k • (C + conjMat B))) := by
  have h1 := commutator h
  have h2 := sandwich h
  generalize C + conjMat B = H at *
  have e : C - D * (k • H) + (k • H) * (A - B * (k • H)) = (1 : ℝ) • C + k • (H * A - D * H) - k ^ 2 • (H * B * H) := by
    simp only [mul_sub, Matrix.mul_smul, Matrix.smul_mul, smul_smul, smul_sub, one_smul, Matrix.mul_assoc, pow_two]
    abel
  rw [h1, h2, smul_smul, smul_smul, ← add_smul, ← sub_smul] at e
  have h0 : (1 : ℝ) + k * (A.trace - D.trace) - k ^ 2 * H.det = 0 := by linarith
  rw [h0, zero_smul] at e
  rw [neg_mul]
  exact eq_neg_of_add_eq_zero_left e

theorem root {T dH d : ℝ} (hT : T ≠ 0) (hr : 0 < dH + 1 / 4 * T ^ 2) (hd : d = -(1 / 2 * T + Real.sign T * Real.sqrt (dH + 1 / 4 * T ^ 2))) :
    d ≠ 0 ∧ d ^ 2 + T * d - dH = 0 ∧ 0 < 1 + dH / d ^ 2 := by
  have hs := Real.sqrt_pos.mpr hr
  have hq := Real.sq_sqrt hr.le
  generalize Real.sqrt (dH + 1 / 4 * T ^ 2) = q at *
  have key : ∀ e : ℝ, e * e = 1 → 0 < e * T → d = -(1 / 2 * T + e * q) → d ≠ 0 ∧ d ^ 2 + T * d - dH = 0 ∧ 0 < 1 + dH / d ^ 2 := by
    intro e he hp hd
    have hed : e * d = -(1 / 2 * (e * T) + q) := by rw [hd]; linear_combination -q * he
    have hne : d ≠ 0 := by rintro rfl; nlinarith
    have hz : d ^ 2 + T * d - dH = 0 := by rw [hd]; linear_combination q ^ 2 * he + hq
    refine ⟨hne, hz, ?_⟩
    have hd2 : 0 < d ^ 2 := by positivity
    have : 1 + dH / d ^ 2 = (d ^ 2 + dH) / d ^ 2 := by field_simp
    rw [this]
    apply div_pos _ hd2
    have h3 : d ^ 2 + dH = (e * d) * (2 * (e * d) + e * T) := by
      linear_combination -hz - (2 * d ^ 2 + d * T) * he
    rw [h3, hed]
    have : 2 * -(1 / 2 * (e * T) + q) + e * T = -(2 * q) := by ring
    rw [this]
    nlinarith [mul_pos hs hp]
  rcases lt_or_gt_of_ne hT with h | h
  · exact key (-1) (by norm_num) (by linarith) (by rw [hd, Real.sign_of_neg h])
  · exact key 1 (by norm_num) (by linarith) (by rw [hd, Real.sign_of_pos h])

theorem J_conj (R : M2) : J2 * conjMat R = Rᵀ * J2 := by
  rw [conj_J, mul_neg, ← Matrix.mul_assoc, ← Matrix.mul_assoc, J_J]
  simp

theorem symp_decoupling {g : ℝ} {R : M2} (hg : g ^ 2 * (1 + R.det) = 1) : Symp (decoupling g R) := by
  unfold Symp decoupling S4
  rw [← conj_adj, fromBlocks_transpose, fromBlocks_multiply, fromBlocks_multiply, fromBlocks_inj]
  have hJ : Rᵀ * J2 * R = R.det • J2 := by
    rw [← J_conj, Matrix.mul_assoc, conj_mul, Matrix.mul_smul, mul_one]
  have hJ' : (conjMat R)ᵀ * J2 * conjMat R = R.det • J2 := by
    rw [← J_conj, conj_conj, Matrix.mul_assoc, mul_conj, Matrix.mul_smul, mul_one]
  have ht : (conjMat R)ᵀ * J2 = J2 * R := by rw [← J_conj, conj_conj]
  refine ⟨?_, ?_, ?_, ?_⟩
  · simp only [transpose_smul, transpose_one, transpose_neg, Matrix.smul_mul, Matrix.mul_smul, one_mul, mul_one, Matrix.mul_zero, add_zero, zero_add,
      neg_mul, mul_neg, neg_neg, neg_zero, hJ, smul_smul]
    rw [← add_smul]
    have : g * g + g * (g * R.det) = 1 := by linear_combination hg
    rw [this, one_smul]
  · simp only [transpose_smul, transpose_one, transpose_neg, Matrix.smul_mul, Matrix.mul_smul, one_mul, mul_one, Matrix.mul_zero, add_zero, zero_add,
      neg_mul, mul_neg, neg_neg, smul_smul, J_conj]
    simp [smul_smul, J_conj]
  · simp only [transpose_smul, transpose_one, transpose_neg, Matrix.smul_mul, Matrix.mul_smul, one_mul, mul_one, Matrix.mul_zero, add_zero, zero_add,
      neg_mul, mul_neg, neg_neg, smul_smul, ht]
    simp
  · simp only [transpose_smul, transpose_one, transpose_neg, Matrix.smul_mul, Matrix.mul_smul, one_mul, mul_one, Matrix.mul_zero, add_zero, zero_add,
      neg_mul, mul_neg, neg_neg, hJ', smul_smul]
    rw [← add_smul]
    have : g * (g * R.det) + g * g = 1 := by linear_combination hg
    rw [this, one_smul]

/-- **C120, general turn.**  For every symplectic turn with different traces of the two planes and stable modes with different tunes, the matrix of the code decouples the turn. -/
theorem C120_turn {M : M4} (hM : Symp M) (hT : M.toBlocks₁₁.trace ≠ M.toBlocks₂₂.trace)
    (hr : 0 < (cPlusBBar M).det + 1 / 4 * traceDiff M ^ 2) (hc : ¬(norm2 M.toBlocks₁₂ < 1e-10 ∧ norm2 M.toBlocks₂₁ < 1e-10)) :
    ∃ R, edwardsTeng M = some R ∧ Decouples R M := by
  have hb := blocks_of_symp hM
  have hT' : traceDiff M ≠ 0 := sub_ne_zero.mpr hT
  obtain ⟨hd, hz, hp⟩ := root hT' hr rfl
  have hdd : denominator M ≠ 0 := hd
  refine ⟨(1 / denominator M) • cPlusBBar M, ?_, ?_⟩
  · unfold edwardsTeng
    rw [if_neg hc, if_neg hdd]
  · have hM' : M = fromBlocks M.toBlocks₁₁ M.toBlocks₁₂ M.toBlocks₂₁ M.toBlocks₂₂ := (fromBlocks_toBlocks M).symm
    unfold cPlusBBar traceDiff at *
    generalize hden : denominator M = d at *
    unfold denominator cPlusBBar traceDiff at hden
    rw [hden] at hz hp hd
    generalize M.toBlocks₁₁ = A at *
    generalize M.toBlocks₁₂ = B at *
    generalize M.toBlocks₂₁ = C at *
    generalize M.toBlocks₂₂ = D at *
    set R := (1 / d) • (C + conjMat B) with hR
    have hdet : R.det = (C + conjMat B).det / d ^ 2 := by
      rw [hR, det_smul]
      simp only [Fintype.card_fin]
      field_simp
    have hg : 0 < 1 + R.det := by rw [hdet]; exact hp
    have hsq : 0 < Real.sqrt (1 + R.det) := Real.sqrt_pos.mpr hg
    refine ⟨1 / Real.sqrt (1 + R.det), A - B * R, D + C * conjMat R, by positivity, symp_decoupling ?_, ?_⟩
    · rw [div_pow, one_pow, Real.sq_sqrt hg.le]
      field_simp
    · generalize 1 / Real.sqrt (1 + R.det) = g
      have hk : (1 / d) ^ 2 * (C + conjMat B).det - 1 / d * (A.trace - D.trace) - 1 = 0 := by
        field_simp
        linear_combination -hz
      have r1 := riccati hb hk
      rw [← hR] at r1
      have hdc : (B + conjMat C).det = (C + conjMat B).det := by
        have : B + conjMat C = conjMat (C + conjMat B) := by rw [conj_add, conj_conj, add_comm]
        rw [this, det_conj]
      have r2 := riccati hb.swap (k := -(1 / d)) (by rw [hdc]; linear_combination hk)
      have hR' : (-(1 / d)) • (B + conjMat C) = -conjMat R := by
        rw [hR, conj_smul, conj_add, conj_conj, add_comm, neg_smul]
      rw [hR', neg_neg, mul_neg, mul_neg, sub_neg_eq_add, sub_neg_eq_add] at r2
      rw [hM']
      unfold decoupling
      rw [← conj_adj, fromBlocks_multiply, fromBlocks_multiply, fromBlocks_inj]
      refine ⟨?_, ?_, ?_, ?_⟩
      · simp only [Matrix.mul_smul, Matrix.smul_mul, mul_one, one_mul, mul_neg, neg_mul, smul_sub, Matrix.mul_zero, add_zero]
        abel
      · simp only [Matrix.mul_smul, Matrix.smul_mul, mul_one, one_mul, mul_neg, neg_mul, Matrix.mul_zero, zero_add]
        rw [← smul_add, add_comm, r2]
      · simp only [Matrix.mul_smul, Matrix.smul_mul, mul_one, one_mul, mul_neg, neg_mul, Matrix.mul_zero, add_zero]
        rw [neg_mul] at r1
        rw [← smul_neg, ← smul_neg, ← smul_add, ← sub_eq_add_neg, r1]
      · simp only [Matrix.mul_smul, Matrix.smul_mul, mul_one, one_mul, mul_neg, neg_mul, Matrix.mul_zero, zero_add, smul_add]
        abel

end Verif.EdwTeng
