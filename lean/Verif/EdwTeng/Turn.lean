import Verif.EdwTeng.Props
import Mathlib.Tactic.FieldSimp

/-!
# The coupling matrix from the normal form (C120)

The turn at each element is put together again from the normal form and the tunes, lines 59-72 of `/repo/xtrack/twiss/coupling_edw_teng.py`.
-/

namespace Verif.EdwTeng

open Matrix

theorem S4_S4 : S4 * S4 = -1 := by
  rw [S4, fromBlocks_multiply, J_J, ← fromBlocks_one, fromBlocks_neg]
  simp

theorem S4_transpose : S4ᵀ = -S4 := by
  rw [S4, fromBlocks_transpose, fromBlocks_neg]
  have : J2ᵀ = -J2 := by ext i j; fin_cases i <;> fin_cases j <;> simp [J2]
  simp [this]

/-- The inverse of the code. -/
theorem inv_mul {W : M4} (h : Symp W) : (S4ᵀ * Wᵀ * S4) * W = 1 := by
  have : (S4ᵀ * Wᵀ * S4) * W = S4ᵀ * (Wᵀ * S4 * W) := by simp only [Matrix.mul_assoc]
  unfold Symp at h
  rw [this, h, S4_transpose, neg_mul, S4_S4, neg_neg]

theorem mul_inv {W : M4} (h : Symp W) : W * (S4ᵀ * Wᵀ * S4) = 1 := mul_eq_one_comm.mp (inv_mul h)

theorem symp_mul {M N : M4} (hM : Symp M) (hN : Symp N) : Symp (M * N) := by
  unfold Symp at *
  have : (M * N)ᵀ * S4 * (M * N) = Nᵀ * (Mᵀ * S4 * M) * N := by rw [transpose_mul]; simp only [Matrix.mul_assoc]
  rw [this, hM, hN]

theorem symp_inv {W : M4} (h : Symp W) : Symp (S4ᵀ * Wᵀ * S4) := by
  have hW := h
  unfold Symp at h ⊢
  generalize hV : S4ᵀ * Wᵀ * S4 = V
  have e1 : W * V = 1 := hV ▸ mul_inv hW
  have e2 : Vᵀ * Wᵀ = 1 := by rw [← transpose_mul, e1, transpose_one]
  calc Vᵀ * S4 * V = Vᵀ * (Wᵀ * S4 * W) * V := by rw [h]
    _ = (Vᵀ * Wᵀ) * S4 * (W * V) := by simp only [Matrix.mul_assoc]
    _ = S4 := by rw [e1, e2, one_mul, mul_one]

theorem rot2_J (a : ℝ) : (rot2 a)ᵀ * J2 * rot2 a = J2 := by
  have h := Real.sin_sq_add_cos_sq a
  ext i j
  fin_cases i <;> fin_cases j <;> simp [rot2, J2, Matrix.mul_apply, Fin.sum_univ_two, Matrix.vecMul, Matrix.vecHead, Matrix.vecTail] <;> linarith

theorem symp_rot (a b : ℝ) : Symp (fromBlocks (rot2 a) 0 0 (rot2 b)) := by
  unfold Symp S4
  rw [fromBlocks_transpose, fromBlocks_multiply, fromBlocks_multiply]
  simp [rot2_J]

theorem symp_oneTurn {W : M4} (h : Symp W) (qx qy : ℝ) : Symp (oneTurn W qx qy) :=
  symp_mul (symp_mul h (symp_rot _ _)) (symp_inv h)

theorem trace_blocks (A B C D : M2) : (fromBlocks A B C D).trace = A.trace + D.trace := by
  simp [trace, Fintype.sum_sum_type]

theorem trace_sq (X : M2) : (X * X).trace = X.trace ^ 2 - 2 * X.det := by
  simp only [trace_fin_two, Matrix.mul_apply, Fin.sum_univ_two, det_fin_two]
  ring

theorem trace_rot (a : ℝ) : (rot2 a).trace = 2 * Real.cos a := by
  rw [trace_fin_two]; simp [rot2]; ring

theorem det_rot (a : ℝ) : (rot2 a).det = 1 := by
  rw [det_fin_two]; simp [rot2]; linear_combination Real.sin_sq_add_cos_sq a

/-- The traces of similar matrices. -/
theorem similar {V N M : M4} (hV : Symp V) (h : M * V = V * N) : M.trace = N.trace ∧ (M * M).trace = (N * N).trace := by
  have hM : M = V * N * (S4ᵀ * Vᵀ * S4) := by
    rw [← h, Matrix.mul_assoc, mul_inv hV, mul_one]
  constructor
  · rw [hM, trace_mul_comm, ← Matrix.mul_assoc, inv_mul hV, one_mul]
  · have : M * M = V * (N * N) * (S4ᵀ * Vᵀ * S4) := by
      calc M * M = M * (V * N * (S4ᵀ * Vᵀ * S4)) := by rw [← hM]
        _ = (M * V) * N * (S4ᵀ * Vᵀ * S4) := by simp only [Matrix.mul_assoc]
        _ = V * (N * N) * (S4ᵀ * Vᵀ * S4) := by rw [h]; simp only [Matrix.mul_assoc]
    rw [this, trace_mul_comm, ← Matrix.mul_assoc, inv_mul hV, one_mul]

theorem oneTurn_mul {W : M4} (h : Symp W) (qx qy : ℝ) :
    oneTurn W qx qy * W = W * fromBlocks (rot2 (2 * Real.pi * qx)) 0 0 (rot2 (2 * Real.pi * qy)) := by
  unfold oneTurn
  rw [Matrix.mul_assoc, inv_mul h, mul_one]

theorem oneTurn_traces {W : M4} (h : Symp W) (qx qy : ℝ) :
    (oneTurn W qx qy).trace = 2 * Real.cos (2 * Real.pi * qx) + 2 * Real.cos (2 * Real.pi * qy)
    ∧ (oneTurn W qx qy * oneTurn W qx qy).trace = 4 * Real.cos (2 * Real.pi * qx) ^ 2 + 4 * Real.cos (2 * Real.pi * qy) ^ 2 - 4 := by
  obtain ⟨h1, h2⟩ := similar h (oneTurn_mul h qx qy)
  rw [h1, h2, fromBlocks_multiply, trace_blocks, trace_blocks]
  simp only [Matrix.mul_zero, Matrix.zero_mul, add_zero, zero_add, trace_sq, trace_rot, det_rot, true_and]
  ring

theorem trace_M_sq {M : M4} (h : Symp M) :
    (M * M).trace = M.toBlocks₁₁.trace ^ 2 + M.toBlocks₂₂.trace ^ 2 - 4 + 2 * (cPlusBBar M).det := by
  have hb := blocks_of_symp h
  obtain ⟨d1, d2, d3⟩ := hb.dets
  have hM : M = fromBlocks M.toBlocks₁₁ M.toBlocks₁₂ M.toBlocks₂₁ M.toBlocks₂₂ := (fromBlocks_toBlocks M).symm
  unfold cPlusBBar
  rw [det_add_conj]
  generalize M.toBlocks₁₁ = A at *
  generalize M.toBlocks₁₂ = B at *
  generalize M.toBlocks₂₁ = C at *
  generalize M.toBlocks₂₂ = D at *
  rw [hM, fromBlocks_multiply, trace_blocks, trace_add, trace_add, trace_sq, trace_sq, trace_mul_comm B C]
  linear_combination -2 * d2 - 2 * d3 + 2 * d1

/-- The number under the square root is the square of the difference of the cosines of the tunes. -/
theorem radicand {W : M4} (h : Symp W) (qx qy : ℝ) :
    (cPlusBBar (oneTurn W qx qy)).det + 1 / 4 * traceDiff (oneTurn W qx qy) ^ 2
      = (Real.cos (2 * Real.pi * qx) - Real.cos (2 * Real.pi * qy)) ^ 2 := by
  obtain ⟨h1, h2⟩ := oneTurn_traces h qx qy
  rw [trace_M_sq (symp_oneTurn h qx qy)] at h2
  generalize oneTurn W qx qy = M at *
  have hM : M.trace = M.toBlocks₁₁.trace + M.toBlocks₂₂.trace := by
    conv_lhs => rw [← fromBlocks_toBlocks M]
    exact trace_blocks _ _ _ _
  rw [hM] at h1
  unfold traceDiff
  linear_combination 1 / 2 * h2 - (M.toBlocks₁₁.trace + M.toBlocks₂₂.trace + 2 * Real.cos (2 * Real.pi * qx) + 2 * Real.cos (2 * Real.pi * qy)) / 4 * h1

/-- **C120.**  At every element of a stable ring whose tunes have different cosines, the matrix which twiss reports decouples the turn which the normal form
and the tunes describe.  Partial: the traces of the planes must differ, and coupling below the threshold of the code must be zero. -/
theorem C120_partial {W : M4} (hW : Symp W) (qx qy : ℝ) (hq : Real.cos (2 * Real.pi * qx) ≠ Real.cos (2 * Real.pi * qy))
    (hT : (oneTurn W qx qy).toBlocks₁₁.trace ≠ (oneTurn W qx qy).toBlocks₂₂.trace)
    (hc : ¬(norm2 (oneTurn W qx qy).toBlocks₁₂ < 1e-10 ∧ norm2 (oneTurn W qx qy).toBlocks₂₁ < 1e-10)
      ∨ (oneTurn W qx qy).toBlocks₁₂ = 0 ∧ (oneTurn W qx qy).toBlocks₂₁ = 0) :
    ∃ R, edwardsTengAll [W] qx qy = [some R] ∧ Decouples R (oneTurn W qx qy) := by
  unfold edwardsTengAll
  rcases hc with hc | ⟨hB, hC⟩
  · obtain ⟨R, h1, h2⟩ := C120_turn (symp_oneTurn hW qx qy) hT (by rw [radicand hW]; have := sub_ne_zero.mpr hq; positivity) hc
    exact ⟨R, by simp [h1], h2⟩
  · refine ⟨0, ?_, 1, (oneTurn W qx qy).toBlocks₁₁, (oneTurn W qx qy).toBlocks₂₂, one_pos, symp_decoupling (by simp), ?_⟩
    · have : norm2 0 < 1e-10 := by unfold norm2; norm_num
      simp only [List.map_cons, List.map_nil]
      rw [edwardsTeng, if_pos ⟨by rw [hB]; exact this, by rw [hC]; exact this⟩]
    · have : decoupling 1 0 = 1 := by
        unfold decoupling
        simp
      rw [this, mul_one, one_mul]
      conv_lhs => rw [← fromBlocks_toBlocks (oneTurn W qx qy), hB, hC]

/-- **C120, tunes.**  The two turns found by any decoupling are those of the reported tunes. -/
theorem C120_tunes {W : M4} (hW : Symp W) (qx qy : ℝ) {g : ℝ} {R E F : M2} (hV : Symp (decoupling g R))
    (h : oneTurn W qx qy * decoupling g R = decoupling g R * fromBlocks E 0 0 F) :
    E.det = 1 ∧ F.det = 1
    ∧ (E.trace = 2 * Real.cos (2 * Real.pi * qx) ∧ F.trace = 2 * Real.cos (2 * Real.pi * qy)
      ∨ E.trace = 2 * Real.cos (2 * Real.pi * qy) ∧ F.trace = 2 * Real.cos (2 * Real.pi * qx)) := by
  have hN : Symp (fromBlocks E 0 0 F) := by
    have : fromBlocks E 0 0 F = S4ᵀ * (decoupling g R)ᵀ * S4 * (oneTurn W qx qy * decoupling g R) := by
      rw [h, ← Matrix.mul_assoc, inv_mul hV, one_mul]
    rw [this]
    exact symp_mul (symp_inv hV) (symp_mul (symp_oneTurn hW qx qy) hV)
  obtain ⟨-, d1, d2⟩ := (blocks_of_symp hN).dets
  simp only [toBlocks_fromBlocks₁₁, toBlocks_fromBlocks₁₂, toBlocks_fromBlocks₂₂] at d1 d2
  have d0 : (0 : M2).det = 0 := by simp
  rw [d0, sub_zero] at d1 d2
  obtain ⟨h1, h2⟩ := similar hV h
  obtain ⟨t1, t2⟩ := oneTurn_traces hW qx qy
  rw [t1] at h1
  rw [t2] at h2
  rw [fromBlocks_multiply, trace_blocks] at h2
  rw [trace_blocks] at h1
  simp only [Matrix.mul_zero, add_zero, zero_add, Matrix.zero_mul, trace_sq, d1, d2] at h2
  refine ⟨d1, d2, ?_⟩
  generalize Real.cos (2 * Real.pi * qx) = a at *
  generalize Real.cos (2 * Real.pi * qy) = b at *
  have hp : (E.trace - 2 * a) * (E.trace - 2 * b) = 0 := by
    have hf : F.trace = 2 * a + 2 * b - E.trace := by linarith
    rw [hf] at h2
    linear_combination -(1 / 2) * h2
  rcases mul_eq_zero.mp hp with h0 | h0
  · left; constructor <;> linarith
  · right; constructor <;> linarith

/-- The hypotheses are met by a coupled turn. -/
example : ∃ (W : M4) (qx qy : ℝ), Symp W ∧ Real.cos (2 * Real.pi * qx) ≠ Real.cos (2 * Real.pi * qy)
    ∧ (oneTurn W qx qy).toBlocks₁₁.trace ≠ (oneTurn W qx qy).toBlocks₂₂.trace
    ∧ ¬(norm2 (oneTurn W qx qy).toBlocks₁₂ < 1e-10 ∧ norm2 (oneTurn W qx qy).toBlocks₂₁ < 1e-10) := by
  have cx : 2 * Real.pi * (1 / 4) = Real.pi / 2 := by ring
  have cy : 2 * Real.pi * (1 / 2) = Real.pi := by ring
  have hT : oneTurn (decoupling 1 !![1, 0; 0, 0]) (1 / 4) (1 / 2) = fromBlocks !![0, 1; -1, 0] !![0, -1; 0, -1] !![-1, -1; 0, 0] !![-1, 1; 0, -1] := by
    unfold oneTurn decoupling
    rw [cx, cy, ← conj_adj, S4_transpose, S4, fromBlocks_transpose, fromBlocks_neg, fromBlocks_multiply, fromBlocks_multiply, fromBlocks_multiply, fromBlocks_multiply,
      fromBlocks_inj]
    refine ⟨?_, ?_, ?_, ?_⟩ <;> (ext i j; fin_cases i <;> fin_cases j <;> simp [rot2, J2, conjMat, Matrix.mul_apply, Fin.sum_univ_two, Matrix.vecMul, Matrix.vecHead, Matrix.vecTail])
  refine ⟨decoupling 1 !![1, 0; 0, 0], 1 / 4, 1 / 2, symp_decoupling (by simp [det_fin_two]), by rw [cx, cy]; simp, ?_, ?_⟩
  · rw [hT]; simp [trace_fin_two]; norm_num
  · rintro ⟨h, -⟩
    rw [hT, toBlocks_fromBlocks₁₂] at h
    unfold norm2 at h
    rw [Real.sqrt_lt' (by norm_num)] at h
    simp at h
    norm_num at h

/-- The roll by 45 degrees. -/
noncomputable def roll45 : M4 := fromBlocks (Real.sqrt (1 / 2) • 1) (Real.sqrt (1 / 2) • 1) (-(Real.sqrt (1 / 2) • 1)) (Real.sqrt (1 / 2) • 1)

theorem roll45_eq : roll45 = decoupling (Real.sqrt (1 / 2)) 1 := by
  unfold roll45 decoupling
  simp

theorem roll45_symp : Symp roll45 := by
  rw [roll45_eq]
  apply symp_decoupling
  rw [Real.sq_sqrt (by norm_num)]
  simp
  norm_num

theorem roll45_turn (qx qy : ℝ) : oneTurn roll45 qx qy
    = fromBlocks ((1 / 2 : ℝ) • (rot2 (2 * Real.pi * qx) + rot2 (2 * Real.pi * qy))) ((1 / 2 : ℝ) • (rot2 (2 * Real.pi * qy) - rot2 (2 * Real.pi * qx)))
        ((1 / 2 : ℝ) • (rot2 (2 * Real.pi * qy) - rot2 (2 * Real.pi * qx))) ((1 / 2 : ℝ) • (rot2 (2 * Real.pi * qx) + rot2 (2 * Real.pi * qy))) := by
  have hs : Real.sqrt (1 / 2) * Real.sqrt (1 / 2) = 1 / 2 := Real.mul_self_sqrt (by norm_num)
  have hi : S4ᵀ * roll45ᵀ * S4 = fromBlocks (Real.sqrt (1 / 2) • 1) (-(Real.sqrt (1 / 2) • 1)) (Real.sqrt (1 / 2) • 1) (Real.sqrt (1 / 2) • 1) := by
    rw [S4_transpose, S4, roll45, fromBlocks_transpose, fromBlocks_neg, fromBlocks_multiply, fromBlocks_multiply]
    simp [J_J]
  unfold oneTurn
  rw [hi, roll45, fromBlocks_multiply, fromBlocks_multiply, fromBlocks_inj]
  simp only [Matrix.mul_zero, add_zero, zero_add, Matrix.smul_mul, Matrix.mul_smul, one_mul, mul_one, neg_mul, mul_neg, smul_smul, hs, neg_neg, smul_add, smul_sub, smul_zero, neg_zero]
  refine ⟨trivial, ?_, ?_, ?_⟩ <;> first | rfl | (simp; done) | abel | (simp; abel)

/-- **C120 violated.**  A ring made of two different planes and seen through a roll by 45 degrees: the traces are equal, the code divides by zero, although a
matrix which decouples exists. -/
theorem C120_equal_traces_violated : ∃ (W : M4) (qx qy : ℝ), Symp W ∧ Real.cos (2 * Real.pi * qx) ≠ Real.cos (2 * Real.pi * qy)
    ∧ (∃ R, Decouples R (oneTurn W qx qy)) ∧ edwardsTengAll [W] qx qy = [none] := by
  have cx : 2 * Real.pi * (1 / 4) = Real.pi / 2 := by ring
  have cy : 2 * Real.pi * (1 / 2) = Real.pi := by ring
  refine ⟨roll45, 1 / 4, 1 / 2, roll45_symp, by rw [cx, cy]; simp, ⟨1, Real.sqrt (1 / 2), rot2 (2 * Real.pi * (1 / 4)), rot2 (2 * Real.pi * (1 / 2)), Real.sqrt_pos.mpr (by norm_num), ?_, ?_⟩, ?_⟩
  · rw [← roll45_eq]; exact roll45_symp
  · rw [← roll45_eq]; exact oneTurn_mul roll45_symp _ _
  · unfold edwardsTengAll
    simp only [List.map_cons, List.map_nil]
    rw [edwardsTeng, if_neg, if_pos]
    · unfold denominator traceDiff
      rw [roll45_turn]
      simp
    · rintro ⟨h, -⟩
      rw [roll45_turn, toBlocks_fromBlocks₁₂, cx, cy] at h
      unfold norm2 at h
      rw [Real.sqrt_lt' (by norm_num)] at h
      simp [rot2] at h
      norm_num at h

end Verif.EdwTeng
