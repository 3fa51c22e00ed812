import Verif.EdwTeng.Turn
import Mathlib.Analysis.SpecialFunctions.Complex.Arg
import Mathlib.Analysis.SpecialFunctions.Complex.Circle

/-!
# Modal functions and driving terms of the linear coupling (C122)

Modelled: lines 31-52 (rotation of the eigenvectors) and 82-110 of `/repo/xtrack/twiss/lattice_functions_from_W.py` on the transverse `4 x 4` block of the `W`
matrix.
-/

namespace Verif.EdwTeng

open Matrix

noncomputable section

/-- `phix`, line 32. -/
def phix (W : M4) : ℝ := Complex.arg ⟨W.toBlocks₁₁ 0 0, W.toBlocks₁₁ 0 1⟩

/-- `phiy`, line 33. -/
def phiy (W : M4) : ℝ := Complex.arg ⟨W.toBlocks₂₂ 0 0, W.toBlocks₂₂ 0 1⟩

/-- Lines 36-49: the columns of each mode are multiplied by `exp(-1j * phi)`. -/
def gauge4 (W : M4) : M4 := W * fromBlocks (rot2 (-phix W)) 0 0 (rot2 (-phiy W))

/-- `betx`, `alfx`, `gamx` of a block, lines 56-64. -/
def bet (X : M2) : ℝ := X 0 0 ^ 2 + X 0 1 ^ 2
def gam (X : M2) : ℝ := X 1 0 ^ 2 + X 1 1 ^ 2
def alf (X : M2) : ℝ := -X 0 0 * X 1 0 - X 0 1 * X 1 1

/-- `g_squared`, lines 88-89. -/
def gSquared (W : M4) : ℝ := Real.sqrt (max (bet W.toBlocks₁₁ * gam W.toBlocks₁₁ - alf W.toBlocks₁₁ ^ 2) 0)

/-- `g_edw_teng`, line 90. -/
def gEdw (W : M4) : ℝ := Real.sqrt (gSquared W)

/-- Lines 92-95. -/
def betxEdw (W : M4) : ℝ := bet W.toBlocks₁₁ / gSquared W
def alfxEdw (W : M4) : ℝ := alf W.toBlocks₁₁ / gSquared W
def betyEdw (W : M4) : ℝ := bet W.toBlocks₂₂ / gSquared W
def alfyEdw (W : M4) : ℝ := alf W.toBlocks₂₂ / gSquared W

/-- `ux`, lines 100-101. -/
def ux (W : M4) : ℂ := (⟨W.toBlocks₁₂ 0 0, W.toBlocks₁₂ 0 1⟩ : ℂ) / Real.sqrt (betxEdw W)

/-- `upx`, lines 102-105. -/
def upx (W : M4) : ℂ :=
  (alfxEdw W * (⟨W.toBlocks₁₂ 0 0, W.toBlocks₁₂ 0 1⟩ : ℂ) + betxEdw W * (⟨W.toBlocks₁₂ 1 0, W.toBlocks₁₂ 1 1⟩ : ℂ)) / Real.sqrt (betxEdw W)

/-- `f1001`, `f1010`: lines 107-108. -/
def f1001 (W : M4) : ℂ := (upx W + Complex.I * ux W) / (4 * gEdw W)
def f1010 (W : M4) : ℂ := starRingEnd ℂ (upx W - Complex.I * ux W) / (4 * gEdw W)

end

/-! ## The decomposition -/

theorem det_sq (X : M2) : bet X * gam X - alf X ^ 2 = X.det ^ 2 := by
  rw [det_fin_two]; unfold bet gam alf; ring

theorem gSquared_eq (W : M4) : gSquared W = |W.toBlocks₁₁.det| := by
  unfold gSquared
  rw [det_sq, max_eq_left (sq_nonneg _), Real.sqrt_sq_eq_abs]

theorem gEdw_pos {W : M4} (h : 0 < W.toBlocks₁₁.det) : 0 < gEdw W ∧ gEdw W ^ 2 = W.toBlocks₁₁.det := by
  have e : gSquared W = W.toBlocks₁₁.det := by rw [gSquared_eq, abs_of_pos h]
  unfold gEdw
  rw [e]
  exact ⟨Real.sqrt_pos.mpr h, Real.sq_sqrt h.le⟩

theorem bet_smul (a : ℝ) (X : M2) : bet (a • X) = a ^ 2 * bet X ∧ alf (a • X) = a ^ 2 * alf X := by
  unfold bet alf
  simp only [Matrix.smul_apply, smul_eq_mul]
  constructor <;> ring

theorem conj_mul_rev (X Y : M2) : conjMat (X * Y) = conjMat Y * conjMat X := by
  rw [conj_adj, conj_adj, conj_adj, adjugate_mul_distrib]

theorem conj_neg (X : M2) : conjMat (-X) = -conjMat X := by
  have := conj_smul (-1) X
  simpa using this

/-- **C122, functions.**  When the block of the first mode in the horizontal plane has a positive determinant, the normal form is the product of the change of
coordinates of Edwards and Teng with the reported `g`, and of one normal form in each plane, whose functions are the reported ones. -/
theorem C122_functions {W : M4} (hW : Symp W) (hd : 0 < W.toBlocks₁₁.det) :
    ∃ R W1 W2 : M2, Symp (decoupling (gEdw W) R) ∧ 0 < gEdw W ∧ W1.det = 1 ∧ W2.det = 1
      ∧ W = decoupling (gEdw W) R * fromBlocks W1 0 0 W2
      ∧ betxEdw W = bet W1 ∧ alfxEdw W = alf W1 ∧ betyEdw W = bet W2 ∧ alfyEdw W = alf W2 := by
  obtain ⟨hg, hg2⟩ := gEdw_pos hd
  have hb := blocks_of_symp hW
  obtain ⟨d1, d2, d3⟩ := hb.dets
  have hs : gSquared W = gEdw W ^ 2 := by rw [hg2, gSquared_eq, abs_of_pos hd]
  unfold betxEdw alfxEdw betyEdw alfyEdw
  rw [hs]
  have hM : W = fromBlocks W.toBlocks₁₁ W.toBlocks₁₂ W.toBlocks₂₁ W.toBlocks₂₂ := (fromBlocks_toBlocks W).symm
  generalize gEdw W = g at *
  generalize W.toBlocks₁₁ = A at *
  generalize W.toBlocks₁₂ = B at *
  generalize W.toBlocks₂₁ = C at *
  generalize W.toBlocks₂₂ = D at *
  have hAD : A.det = D.det := by rw [d2, d3]
  have hgn := hg.ne'
  have hAne : A.det ≠ 0 := hd.ne'
  -- R = -C A⁻¹
  set R : M2 := -((1 / A.det) • (C * conjMat A)) with hR
  have hRA : R * A = -C := by
    rw [hR, neg_mul, Matrix.smul_mul, Matrix.mul_assoc, conj_mul, Matrix.mul_smul, mul_one, smul_smul]
    rw [one_div, inv_mul_cancel₀ hAne, one_smul]
  have hRb : conjMat R * D = B := by
    have e1 : conjMat R = -((1 / A.det) • (A * conjMat C)) := by
      rw [hR, conj_neg, conj_smul, conj_mul_rev, conj_conj]
    have e2 : A * conjMat C = -(B * conjMat D) := eq_neg_of_add_eq_zero_left hb.r12
    rw [e1, e2, smul_neg, neg_neg, Matrix.smul_mul, Matrix.mul_assoc, conj_mul, Matrix.mul_smul, mul_one, smul_smul, ← hAD]
    rw [one_div, inv_mul_cancel₀ hAne, one_smul]
  have hdet : g ^ 2 * (1 + R.det) = 1 := by
    have e1 : R.det * A.det = C.det := by
      rw [← det_mul, hRA, det_neg]; simp
    have e2 : A.det + C.det = 1 := by rw [d2, d1]; ring
    rw [hg2]; linear_combination e2 + e1
  refine ⟨R, (1 / g) • A, (1 / g) • D, symp_decoupling hdet, hg, ?_, ?_, ?_, ?_, ?_, ?_, ?_⟩
  · rw [det_smul]; simp only [Fintype.card_fin]; rw [← hg2]; field_simp
  · rw [det_smul]; simp only [Fintype.card_fin]; rw [← hAD, ← hg2]; field_simp
  · rw [hM]
    unfold decoupling
    rw [← conj_adj, fromBlocks_multiply, fromBlocks_inj]
    refine ⟨?_, ?_, ?_, ?_⟩
    · simp only [Matrix.mul_zero, add_zero, Matrix.smul_mul, Matrix.mul_smul, one_mul, smul_smul]
      rw [one_div_mul_cancel hgn, one_smul]
    · simp only [Matrix.mul_zero, zero_add, Matrix.smul_mul, Matrix.mul_smul, smul_smul, hRb]
      rw [one_div_mul_cancel hgn, one_smul]
    · simp only [Matrix.mul_zero, add_zero, neg_mul, Matrix.smul_mul, Matrix.mul_smul, smul_smul, hRA]
      rw [one_div_mul_cancel hgn, one_smul, neg_neg]
    · simp only [Matrix.mul_zero, zero_add, Matrix.smul_mul, Matrix.mul_smul, one_mul, smul_smul]
      rw [one_div_mul_cancel hgn, one_smul]
  · rw [(bet_smul _ _).1]; field_simp
  · rw [(bet_smul _ _).2]; field_simp
  · rw [(bet_smul _ _).1]; field_simp
  · rw [(bet_smul _ _).2]; field_simp

/-- The turn of a normal form which is a product. -/
theorem turn_of_product {W : M4} (hW : Symp W) {g : ℝ} {R W1 W2 : M2} (h1 : W1.det = 1) (h2 : W2.det = 1)
    (h : W = decoupling g R * fromBlocks W1 0 0 W2) (qx qy : ℝ) :
    oneTurn W qx qy * decoupling g R = decoupling g R
      * fromBlocks (W1 * rot2 (2 * Real.pi * qx) * conjMat W1) 0 0 (W2 * rot2 (2 * Real.pi * qy) * conjMat W2) := by
  have hi : fromBlocks W1 0 0 W2 * fromBlocks (conjMat W1) 0 0 (conjMat W2) = 1 := by
    rw [fromBlocks_multiply, mul_conj, mul_conj, h1, h2]
    simp
  have e := oneTurn_mul hW qx qy
  have e2 : decoupling g R = W * fromBlocks (conjMat W1) 0 0 (conjMat W2) := by
    rw [h, Matrix.mul_assoc, hi, mul_one]
  calc oneTurn W qx qy * decoupling g R = oneTurn W qx qy * W * fromBlocks (conjMat W1) 0 0 (conjMat W2) := by
        conv_lhs => rw [e2]
        rw [Matrix.mul_assoc]
    _ = W * fromBlocks (rot2 (2 * Real.pi * qx)) 0 0 (rot2 (2 * Real.pi * qy)) * fromBlocks (conjMat W1) 0 0 (conjMat W2) := by rw [e]
    _ = _ := by
        conv_lhs => rw [h]
        simp only [Matrix.mul_assoc, fromBlocks_multiply]
        simp [Matrix.mul_assoc]

/-- The blocks of a turn in terms of a decoupling. -/
theorem blocks_of_decoupling {M : M4} {g : ℝ} {R E F : M2} (hg : g ^ 2 * (1 + R.det) = 1) (h : M * decoupling g R = decoupling g R * fromBlocks E 0 0 F) :
    M = fromBlocks (g ^ 2 • (E + conjMat R * F * R)) (g ^ 2 • (conjMat R * F - E * conjMat R))
      (g ^ 2 • (F * R - R * E)) (g ^ 2 • (F + R * E * conjMat R)) := by
  have hV := symp_decoupling hg
  have hinv : S4ᵀ * (decoupling g R)ᵀ * S4 = fromBlocks (g • 1) (-(g • conjMat R)) (g • R) (g • 1) := by
    apply (Matrix.left_inv_eq_left_inv (inv_mul hV) _)
    unfold decoupling
    rw [← conj_adj, fromBlocks_multiply, ← fromBlocks_one, fromBlocks_inj]
    refine ⟨?_, ?_, ?_, ?_⟩
    · simp only [Matrix.smul_mul, Matrix.mul_smul, one_mul, mul_one, neg_mul, mul_neg, neg_neg, smul_smul, conj_mul]
      rw [← add_smul]
      convert one_smul ℝ (1 : M2) using 2
      linear_combination hg
    · simp
    · simp
    · simp only [Matrix.smul_mul, Matrix.mul_smul, one_mul, mul_one, neg_mul, mul_neg, neg_neg, smul_smul, mul_conj]
      rw [← add_smul]
      convert one_smul ℝ (1 : M2) using 2
      linear_combination hg
  have hM : M = decoupling g R * fromBlocks E 0 0 F * fromBlocks (g • 1) (-(g • conjMat R)) (g • R) (g • 1) := by
    rw [← h, Matrix.mul_assoc, ← hinv, mul_inv hV, mul_one]
  rw [hM]
  unfold decoupling
  rw [← conj_adj, fromBlocks_multiply, fromBlocks_multiply, fromBlocks_inj]
  simp only [Matrix.smul_mul, Matrix.mul_smul, one_mul, mul_one, neg_mul, mul_neg, neg_neg, smul_smul, Matrix.mul_zero, add_zero, zero_add, smul_add, smul_sub,
    pow_two]
  refine ⟨trivial, ?_, ?_, ?_⟩
  · abel
  · simp [smul_smul]; abel
  · simp; abel

/-- The matrix of the code in terms of a decoupling. -/
theorem cPlusBBar_of {M : M4} {g : ℝ} {R E F : M2} (hg : g ^ 2 * (1 + R.det) = 1) (h : M * decoupling g R = decoupling g R * fromBlocks E 0 0 F) :
    cPlusBBar M = (g ^ 2 * (F.trace - E.trace)) • R ∧ traceDiff M = g ^ 2 * (1 - R.det) * (E.trace - F.trace) := by
  have hM' := blocks_of_decoupling hg h
  constructor
  · unfold cPlusBBar
    rw [hM', toBlocks_fromBlocks₂₁, toBlocks_fromBlocks₁₂, conj_smul, ← smul_add]
    have e1 : conjMat (conjMat R * F - E * conjMat R) = conjMat F * R - R * conjMat E := by
      rw [sub_eq_add_neg, conj_add, conj_neg, conj_mul_rev, conj_mul_rev, conj_conj, ← sub_eq_add_neg]
    have e2 : F * R - R * E + (conjMat F * R - R * conjMat E) = (F + conjMat F) * R - R * (E + conjMat E) := by
      rw [add_mul, mul_add]; abel
    rw [e1, e2, add_conj, add_conj, Matrix.smul_mul, Matrix.mul_smul, one_mul, mul_one, ← sub_smul, smul_smul]
  · unfold traceDiff
    rw [hM', toBlocks_fromBlocks₁₁, toBlocks_fromBlocks₂₂, trace_smul, trace_smul, trace_add, trace_add]
    have t1 : (conjMat R * F * R).trace = R.det * F.trace := by
      rw [trace_mul_comm, ← Matrix.mul_assoc, mul_conj, Matrix.smul_mul, one_mul, trace_smul, smul_eq_mul]
    have t2 : (R * E * conjMat R).trace = R.det * E.trace := by
      rw [trace_mul_comm, ← Matrix.mul_assoc, conj_mul, Matrix.smul_mul, one_mul, trace_smul, smul_eq_mul]
    rw [t1, t2]
    simp only [smul_eq_mul]
    ring

theorem trace_similar {X : M2} (h : X.det = 1) (a : ℝ) : (X * rot2 a * conjMat X).trace = 2 * Real.cos a := by
  rw [trace_mul_comm, ← Matrix.mul_assoc, conj_mul, h, one_smul, one_mul, trace_rot]

/-- **C122, one decoupling.**  The coupling matrix and the functions of the modes belong to the same change of coordinates.  Partial: for `g` squared above one
half and coupling which is not below the threshold. -/
theorem C122_same_partial {W : M4} (hW : Symp W) (hd : 1 / 2 < W.toBlocks₁₁.det) (qx qy : ℝ)
    (hq : Real.cos (2 * Real.pi * qx) ≠ Real.cos (2 * Real.pi * qy))
    (hc : ¬(norm2 (oneTurn W qx qy).toBlocks₁₂ < 1e-10 ∧ norm2 (oneTurn W qx qy).toBlocks₂₁ < 1e-10)) :
    ∃ R W1 W2 : M2, edwardsTengAll [W] qx qy = [some R] ∧ Symp (decoupling (gEdw W) R) ∧ 0 < gEdw W ∧ W1.det = 1 ∧ W2.det = 1
      ∧ W = decoupling (gEdw W) R * fromBlocks W1 0 0 W2
      ∧ betxEdw W = bet W1 ∧ alfxEdw W = alf W1 ∧ betyEdw W = bet W2 ∧ alfyEdw W = alf W2 := by
  have hd0 : 0 < W.toBlocks₁₁.det := by linarith
  obtain ⟨R, W1, W2, hV, hg, h1, h2, hp, hf⟩ := C122_functions hW hd0
  refine ⟨R, W1, W2, ?_, hV, hg, h1, h2, hp, hf⟩
  obtain ⟨-, hg2⟩ := gEdw_pos hd0
  have hdet : gEdw W ^ 2 * (1 + R.det) = 1 := by
    have hb := (blocks_of_symp hV).dets
    unfold decoupling at hb
    simp only [toBlocks_fromBlocks₁₁, toBlocks_fromBlocks₁₂, ← conj_adj] at hb
    obtain ⟨-, e, -⟩ := hb
    rw [det_smul, det_smul, det_conj] at e
    simp only [Fintype.card_fin, det_one, mul_one] at e
    linarith
  obtain ⟨e1, e2⟩ := cPlusBBar_of hdet (turn_of_product hW h1 h2 hp qx qy)
  rw [trace_similar h1, trace_similar h2] at e1 e2
  have hr := radicand hW qx qy
  rw [hg2] at hdet e1 e2
  generalize W.toBlocks₁₁.det = G at *
  have hden : denominator (oneTurn W qx qy) = G * (2 * Real.cos (2 * Real.pi * qy) - 2 * Real.cos (2 * Real.pi * qx)) := by
    unfold denominator
    rw [hr, Real.sqrt_sq_eq_abs, e2]
    generalize Real.cos (2 * Real.pi * qx) = a at *
    generalize Real.cos (2 * Real.pi * qy) = b at *
    have hpos : 0 < G * (1 - R.det) := by nlinarith
    rcases lt_or_gt_of_ne hq with h | h
    · rw [Real.sign_of_neg (by nlinarith), abs_of_neg (by linarith)]
      linear_combination (a - b) * hdet
    · rw [Real.sign_of_pos (by nlinarith), abs_of_pos (by linarith)]
      linear_combination (b - a) * (-hdet)
  have hne : denominator (oneTurn W qx qy) ≠ 0 := by
    rw [hden]
    have : 2 * Real.cos (2 * Real.pi * qy) - 2 * Real.cos (2 * Real.pi * qx) ≠ 0 := by
      intro h; apply hq; linarith
    exact mul_ne_zero (by linarith) this
  unfold edwardsTengAll edwardsTeng
  simp only [List.map_cons, List.map_nil]
  rw [if_neg hc, if_neg hne, e1, ← hden, smul_smul, one_div, inv_mul_cancel₀ hne, one_smul]

/-- **C122 violated.**  For `g` squared below one half the coupling matrix belongs to the other assignment of the modes: here `g` squared is `1/5`, and the
coupling matrix is minus one half times the identity, for which `g` squared would be `4/5`. -/
theorem C122_same_violated : ∃ (W : M4) (qx qy : ℝ) (R : M2), Symp W ∧ 0 < W.toBlocks₁₁.det
    ∧ Real.cos (2 * Real.pi * qx) ≠ Real.cos (2 * Real.pi * qy)
    ∧ edwardsTengAll [W] qx qy = [some R] ∧ ¬Symp (decoupling (gEdw W) R) := by
  have cx : 2 * Real.pi * (1 / 4) = Real.pi / 2 := by ring
  have cy : 2 * Real.pi * (1 / 2) = Real.pi := by ring
  have hs : Real.sqrt (1 / 5) ^ 2 = 1 / 5 := Real.sq_sqrt (by norm_num)
  have hR : ((2 : ℝ) • (1 : M2)).det = 4 := by rw [det_smul]; simp; norm_num
  have hg : Real.sqrt (1 / 5) ^ 2 * (1 + ((2 : ℝ) • (1 : M2)).det) = 1 := by rw [hs, hR]; norm_num
  have hW := symp_decoupling hg
  set W := decoupling (Real.sqrt (1 / 5)) ((2 : ℝ) • (1 : M2)) with hWd
  have hA : W.toBlocks₁₁.det = 1 / 5 := by
    rw [hWd, decoupling, toBlocks_fromBlocks₁₁, det_smul]
    simp only [Fintype.card_fin, det_one, mul_one, hs]
  have hM := oneTurn_mul hW (1 / 4) (1 / 2)
  obtain ⟨e1, e2⟩ := cPlusBBar_of hg hM
  have eB := blocks_of_decoupling hg hM
  rw [trace_rot, trace_rot, cx, cy, hs] at e1 e2
  rw [hR] at e2
  simp only [Real.cos_pi_div_two, Real.cos_pi] at e1 e2
  have hT : traceDiff (oneTurn W (1 / 4) (1 / 2)) = -(6 / 5) := by rw [e2]; norm_num
  have hH : cPlusBBar (oneTurn W (1 / 4) (1 / 2)) = (-(4 / 5) : ℝ) • (1 : M2) := by rw [e1, smul_smul]; norm_num
  have hden : denominator (oneTurn W (1 / 4) (1 / 2)) = 8 / 5 := by
    unfold denominator
    rw [radicand hW, cx, cy, hT, Real.sign_of_neg (by norm_num)]
    simp
    norm_num
  refine ⟨W, 1 / 4, 1 / 2, (-(1 / 2) : ℝ) • (1 : M2), hW, by rw [hA]; norm_num, by rw [cx, cy]; simp, ?_, ?_⟩
  · unfold edwardsTengAll edwardsTeng
    simp only [List.map_cons, List.map_nil]
    rw [if_neg, if_neg (by rw [hden]; norm_num), hden, hH, smul_smul]
    · norm_num
    · rintro ⟨h, -⟩
      rw [eB, toBlocks_fromBlocks₁₂, cx, cy, hs] at h
      unfold norm2 at h
      rw [Real.sqrt_lt' (by norm_num)] at h
      simp [rot2, conjMat, Matrix.mul_apply, Fin.sum_univ_two, Matrix.vecMul, Matrix.vecHead, Matrix.vecTail] at h
      norm_num at h
  · intro h
    have hb := (blocks_of_symp h).dets
    unfold decoupling at hb
    simp only [toBlocks_fromBlocks₁₁, toBlocks_fromBlocks₁₂, ← conj_adj] at hb
    obtain ⟨-, e, -⟩ := hb
    rw [det_smul, det_smul, det_conj, det_smul] at e
    simp only [Fintype.card_fin, det_one, mul_one] at e
    rw [(gEdw_pos (by rw [hA]; norm_num)).2, hA] at e
    norm_num at e

/-! ## Driving terms -/

theorem betxEdw_pos {W : M4} (h : 0 < W.toBlocks₁₁.det) : 0 < betxEdw W := by
  unfold betxEdw
  have hg : gSquared W = W.toBlocks₁₁.det := by rw [gSquared_eq, abs_of_pos h]
  rw [hg]
  apply div_pos _ h
  unfold bet
  by_contra hn
  have h0 : W.toBlocks₁₁ 0 0 = 0 := by nlinarith [sq_nonneg (W.toBlocks₁₁ 0 0), sq_nonneg (W.toBlocks₁₁ 0 1)]
  have h1 : W.toBlocks₁₁ 0 1 = 0 := by nlinarith [sq_nonneg (W.toBlocks₁₁ 0 0), sq_nonneg (W.toBlocks₁₁ 0 1)]
  rw [det_fin_two, h0, h1] at h
  simp at h

/-- **C122, driving terms.**  `g`, `f1001` and `f1010` are tied together. -/
theorem C122_rdt {W : M4} (hW : Symp W) (hd : 0 < W.toBlocks₁₁.det) :
    gEdw W ^ 2 * (1 + 4 * Complex.normSq (f1001 W) - 4 * Complex.normSq (f1010 W)) = 1 := by
  obtain ⟨hg, hg2⟩ := gEdw_pos hd
  obtain ⟨d1, d2, d3⟩ := (blocks_of_symp hW).dets
  have hb := betxEdw_pos hd
  have hq := Real.sq_sqrt hb.le
  have hqp := Real.sqrt_pos.mpr hb
  unfold f1001 f1010 ux upx
  rw [d2, det_fin_two] at hg2
  generalize alfxEdw W = a at *
  generalize hbe : betxEdw W = b at *
  generalize hge : gEdw W = g at *
  generalize W.toBlocks₁₂ = B at *
  generalize Real.sqrt b = r at *
  have hgn := hg.ne'
  have hrn := hqp.ne'
  simp only [Complex.normSq_div, Complex.normSq_conj, Complex.normSq_mul, Complex.normSq_ofReal]
  have e1 : ((a : ℂ) * ⟨B 0 0, B 0 1⟩ + b * ⟨B 1 0, B 1 1⟩) / (r : ℂ) + Complex.I * (⟨B 0 0, B 0 1⟩ / (r : ℂ))
      = ⟨(a * B 0 0 + b * B 1 0 - B 0 1) / r, (a * B 0 1 + b * B 1 1 + B 0 0) / r⟩ := by
    rw [mul_div_assoc', ← add_div]
    apply Complex.ext <;> simp [Complex.div_re, Complex.div_im, Complex.normSq_apply] <;> field_simp
    ring
  have e2 : ((a : ℂ) * ⟨B 0 0, B 0 1⟩ + b * ⟨B 1 0, B 1 1⟩) / (r : ℂ) - Complex.I * (⟨B 0 0, B 0 1⟩ / (r : ℂ))
      = ⟨(a * B 0 0 + b * B 1 0 + B 0 1) / r, (a * B 0 1 + b * B 1 1 - B 0 0) / r⟩ := by
    rw [mul_div_assoc', ← sub_div]
    apply Complex.ext <;> simp [Complex.div_re, Complex.div_im, Complex.normSq_apply] <;> field_simp
  have h4 : Complex.normSq 4 = 16 := by
    rw [show (4 : ℂ) = ((4 : ℝ) : ℂ) by norm_num, Complex.normSq_ofReal]; norm_num
  rw [e1, e2, h4, Complex.normSq_mk, Complex.normSq_mk]
  have hr : ∀ t : ℝ, t / r * (t / r) = t ^ 2 / b := by intro t; rw [← hq]; field_simp
  simp only [hr]
  have hbn := hb.ne'
  field_simp
  linear_combination 16 * b * hg2

/-- The eigenvectors are rotated: the horizontal component of the first mode is real and positive. -/
def Gauged (W : M4) : Prop := W.toBlocks₁₁ 0 1 = 0 ∧ 0 < W.toBlocks₁₁ 0 0

theorem u_of_gauged {W : M4} (h : Gauged W) (hd : 0 < W.toBlocks₁₁.det) :
    ux W = ⟨(conjMat W.toBlocks₁₁ * W.toBlocks₁₂) 0 0 / gEdw W, (conjMat W.toBlocks₁₁ * W.toBlocks₁₂) 0 1 / gEdw W⟩
    ∧ upx W = ⟨(conjMat W.toBlocks₁₁ * W.toBlocks₁₂) 1 0 / gEdw W, (conjMat W.toBlocks₁₁ * W.toBlocks₁₂) 1 1 / gEdw W⟩ := by
  obtain ⟨hg, hg2⟩ := gEdw_pos hd
  obtain ⟨h01, h00⟩ := h
  have hs : gSquared W = gEdw W ^ 2 := by rw [hg2, gSquared_eq, abs_of_pos hd]
  have hgn := hg.ne'
  have hb : betxEdw W = (W.toBlocks₁₁ 0 0 / gEdw W) ^ 2 := by
    unfold betxEdw bet; rw [hs, h01]; field_simp; ring
  have hr : Real.sqrt (betxEdw W) = W.toBlocks₁₁ 0 0 / gEdw W := by
    rw [hb, Real.sqrt_sq (by positivity)]
  have ha : alfxEdw W = -(W.toBlocks₁₁ 0 0 * W.toBlocks₁₁ 1 0) / gEdw W ^ 2 := by
    unfold alfxEdw alf; rw [hs, h01]; ring
  unfold ux upx
  rw [hr, hb, ha]
  rw [det_fin_two, h01] at hg2
  generalize W.toBlocks₁₁ = A at *
  generalize W.toBlocks₁₂ = B at *
  generalize gEdw W = g at *
  have hA := h00.ne'
  have hg3 : A 1 1 = g ^ 2 / A 0 0 := by field_simp; linarith
  constructor
  · apply Complex.ext <;> simp [conjMat, Matrix.mul_apply, Fin.sum_univ_two, Complex.div_re, Complex.div_im, Complex.normSq_apply, h01, hg3] <;> field_simp
  · apply Complex.ext <;> simp [conjMat, Matrix.mul_apply, Fin.sum_univ_two, Complex.div_re, Complex.div_im, Complex.normSq_apply, pow_two] <;> field_simp

/-- The driving terms in terms of the normalized coupling matrix. -/
theorem rdt_of_gauged {W : M4} (h : Gauged W) (hd : 0 < W.toBlocks₁₁.det) :
    let c := conjMat W.toBlocks₁₁ * W.toBlocks₁₂
    f1001 W = ⟨c 1 0 - c 0 1, c 1 1 + c 0 0⟩ / (4 * gEdw W ^ 2) ∧ f1010 W = ⟨c 1 0 + c 0 1, c 0 0 - c 1 1⟩ / (4 * gEdw W ^ 2) := by
  intro c
  obtain ⟨hg, -⟩ := gEdw_pos hd
  obtain ⟨e1, e2⟩ := u_of_gauged h hd
  have hgn : (gEdw W : ℂ) ≠ 0 := by exact_mod_cast hg.ne'
  have d (x y : ℝ) : (⟨x / gEdw W, y / gEdw W⟩ : ℂ) = ⟨x, y⟩ / gEdw W := by
    apply Complex.ext <;> simp [Complex.div_re, Complex.div_im, Complex.normSq_apply] <;> field_simp
  unfold f1001 f1010
  rw [e1, e2, d, d]
  constructor
  · have : (⟨c 1 0 - c 0 1, c 1 1 + c 0 0⟩ : ℂ) = ⟨c 1 0, c 1 1⟩ + Complex.I * ⟨c 0 0, c 0 1⟩ := by
      apply Complex.ext <;> simp
      ring
    rw [this]
    field_simp
    rfl
  · have : (⟨c 1 0 + c 0 1, c 0 0 - c 1 1⟩ : ℂ) = starRingEnd ℂ (⟨c 1 0, c 1 1⟩ - Complex.I * ⟨c 0 0, c 0 1⟩) := by
      apply Complex.ext <;> simp
      ring
    rw [this]
    simp only [map_sub, map_mul, map_div₀, Complex.conj_ofReal]
    field_simp
    rfl

theorem gauge4_blocks (W : M4) : (gauge4 W).toBlocks₁₁ = W.toBlocks₁₁ * rot2 (-phix W) ∧ (gauge4 W).toBlocks₁₂ = W.toBlocks₁₂ * rot2 (-phiy W) := by
  unfold gauge4
  generalize phix W = p
  generalize phiy W = q
  constructor
  · conv_lhs => rw [← fromBlocks_toBlocks W]
    rw [fromBlocks_multiply, toBlocks_fromBlocks₁₁]
    simp
  · conv_lhs => rw [← fromBlocks_toBlocks W]
    rw [fromBlocks_multiply, toBlocks_fromBlocks₁₂]
    simp

/-- The rotation of the code makes that component real and positive. -/
theorem gauged_gauge4 {W : M4} (hd : W.toBlocks₁₁.det ≠ 0) : Gauged (gauge4 W) := by
  unfold Gauged
  rw [(gauge4_blocks W).1]
  have hre := Complex.norm_mul_cos_arg ⟨W.toBlocks₁₁ 0 0, W.toBlocks₁₁ 0 1⟩
  have him := Complex.norm_mul_sin_arg ⟨W.toBlocks₁₁ 0 0, W.toBlocks₁₁ 0 1⟩
  have hn : 0 < ‖(⟨W.toBlocks₁₁ 0 0, W.toBlocks₁₁ 0 1⟩ : ℂ)‖ := by
    apply norm_pos_iff.mpr
    intro h
    apply hd
    rw [det_fin_two]
    have h0 := congrArg Complex.re h
    have h1 := congrArg Complex.im h
    simp only [Complex.zero_re, Complex.zero_im] at h0 h1
    rw [h0, h1]; ring
  have hc := Real.sin_sq_add_cos_sq (phix W)
  change _ * Real.cos (phix W) = _ at hre
  change _ * Real.sin (phix W) = _ at him
  simp only at hre him
  generalize ‖(⟨W.toBlocks₁₁ 0 0, W.toBlocks₁₁ 0 1⟩ : ℂ)‖ = n at *
  simp only [rot2, Matrix.mul_apply, Fin.sum_univ_two, Real.cos_neg, Real.sin_neg]
  simp
  rw [← hre, ← him]
  constructor
  · ring
  · have : n * Real.cos (phix W) * Real.cos (phix W) + n * Real.sin (phix W) * Real.sin (phix W) = n := by linear_combination n * hc
    rw [this]
    exact hn

theorem conj_rot (a : ℝ) : conjMat (rot2 a) = rot2 (-a) := by
  ext i j; fin_cases i <;> fin_cases j <;> simp [conjMat, rot2]

/-- **C122, propagation.**  Between sources of coupling the driving terms only turn with the phase advances: `f1001` with their difference, `f1010` with their
sum.  `Mx` and `My` are the matrices of the elements passed. -/
theorem C122_propagate {W : M4} (hG : Gauged W) (hd : 0 < W.toBlocks₁₁.det) {Mx My : M2} (hx : Mx.det = 1) :
    let N := fromBlocks Mx 0 0 My * W
    f1001 (gauge4 N) = Complex.exp (Complex.I * (phix N - phiy N : ℝ)) * f1001 W
    ∧ f1010 (gauge4 N) = Complex.exp (Complex.I * (phix N + phiy N : ℝ)) * f1010 W := by
  intro N
  have hN1 : N.toBlocks₁₁ = Mx * W.toBlocks₁₁ := by
    show (fromBlocks Mx 0 0 My * W).toBlocks₁₁ = _
    conv_lhs => rw [← fromBlocks_toBlocks W]
    rw [fromBlocks_multiply, toBlocks_fromBlocks₁₁]
    simp
  have hN2 : N.toBlocks₁₂ = Mx * W.toBlocks₁₂ := by
    show (fromBlocks Mx 0 0 My * W).toBlocks₁₂ = _
    conv_lhs => rw [← fromBlocks_toBlocks W]
    rw [fromBlocks_multiply, toBlocks_fromBlocks₁₂]
    simp
  have hNd : N.toBlocks₁₁.det = W.toBlocks₁₁.det := by rw [hN1, det_mul, hx, one_mul]
  have hGd : (gauge4 N).toBlocks₁₁.det = W.toBlocks₁₁.det := by
    rw [(gauge4_blocks N).1, det_mul, det_rot, mul_one, hNd]
  have hg : gEdw (gauge4 N) = gEdw W := by
    unfold gEdw
    rw [gSquared_eq, gSquared_eq, hGd]
  obtain ⟨a1, a2⟩ := rdt_of_gauged hG hd
  obtain ⟨b1, b2⟩ := rdt_of_gauged (gauged_gauge4 (W := N) (by rw [hNd]; exact hd.ne')) (by rw [hGd]; exact hd)
  have hc : conjMat (gauge4 N).toBlocks₁₁ * (gauge4 N).toBlocks₁₂ = rot2 (phix N) * (conjMat W.toBlocks₁₁ * W.toBlocks₁₂) * rot2 (-phiy N) := by
    rw [(gauge4_blocks N).1, (gauge4_blocks N).2, conj_mul_rev, conj_rot, neg_neg, hN1, hN2, conj_mul_rev]
    have e : conjMat Mx * Mx = 1 := by rw [conj_mul, hx, one_smul]
    calc rot2 (phix N) * (conjMat W.toBlocks₁₁ * conjMat Mx) * (Mx * W.toBlocks₁₂ * rot2 (-phiy N))
        = rot2 (phix N) * (conjMat W.toBlocks₁₁ * (conjMat Mx * Mx) * W.toBlocks₁₂) * rot2 (-phiy N) := by simp only [Matrix.mul_assoc]
      _ = _ := by rw [e, mul_one]
  rw [a1, a2, b1, b2, hg]
  simp only [hc]
  generalize conjMat W.toBlocks₁₁ * W.toBlocks₁₂ = c
  generalize phix N = p
  generalize phiy N = q
  have ex (t : ℝ) : Complex.exp (Complex.I * (t : ℝ)) = ⟨Real.cos t, Real.sin t⟩ := by
    rw [mul_comm, Complex.exp_mul_I]
    apply Complex.ext <;> simp [Complex.cos_ofReal_re, Complex.sin_ofReal_re, Complex.cos_ofReal_im, Complex.sin_ofReal_im]
  rw [ex, ex, ← mul_div_assoc, ← mul_div_assoc]
  constructor
  · congr 1
    apply Complex.ext <;>
      simp [rot2, Matrix.mul_apply, Matrix.vecMul, dotProduct, Fin.sum_univ_two, Real.cos_sub, Real.sin_sub] <;> ring
  · congr 1
    apply Complex.ext <;>
      simp [rot2, Matrix.mul_apply, Matrix.vecMul, dotProduct, Fin.sum_univ_two, Real.cos_add, Real.sin_add] <;> ring

/-- The moduli do not change between sources of coupling. -/
theorem C122_moduli {W : M4} (hG : Gauged W) (hd : 0 < W.toBlocks₁₁.det) {Mx My : M2} (hx : Mx.det = 1) :
    ‖f1001 (gauge4 (fromBlocks Mx 0 0 My * W))‖ = ‖f1001 W‖ ∧ ‖f1010 (gauge4 (fromBlocks Mx 0 0 My * W))‖ = ‖f1010 W‖ := by
  obtain ⟨h1, h2⟩ := C122_propagate (My := My) hG hd hx
  rw [h1, h2, norm_mul, norm_mul]
  have e (t : ℝ) : ‖Complex.exp (Complex.I * (t : ℝ))‖ = 1 := by rw [mul_comm]; exact Complex.norm_exp_ofReal_mul_I t
  rw [e, e, one_mul, one_mul]
  exact ⟨rfl, rfl⟩

/-- A normal form with coupling which meets the hypotheses, with `f1001` different from zero. -/
example : ∃ W : M4, Symp W ∧ Gauged W ∧ 1 / 2 < W.toBlocks₁₁.det ∧ f1001 W ≠ 0 := by
  have hs : Real.sqrt (4 / 5) ^ 2 = 4 / 5 := Real.sq_sqrt (by norm_num)
  have hp : 0 < Real.sqrt (4 / 5) := Real.sqrt_pos.mpr (by norm_num)
  have hR : ((1 / 2 : ℝ) • (1 : M2)).det = 1 / 4 := by rw [det_smul]; simp; norm_num
  have hg : Real.sqrt (4 / 5) ^ 2 * (1 + ((1 / 2 : ℝ) • (1 : M2)).det) = 1 := by rw [hs, hR]; norm_num
  have h11 : (decoupling (Real.sqrt (4 / 5)) ((1 / 2 : ℝ) • (1 : M2))).toBlocks₁₁ = Real.sqrt (4 / 5) • (1 : M2) := by
    rw [decoupling, toBlocks_fromBlocks₁₁]
  have h12 : (decoupling (Real.sqrt (4 / 5)) ((1 / 2 : ℝ) • (1 : M2))).toBlocks₁₂ = Real.sqrt (4 / 5) • ((1 / 2 : ℝ) • (1 : M2)) := by
    rw [decoupling, toBlocks_fromBlocks₁₂]
    congr 1
    rw [adjugate_fin_two]
    ext i j; fin_cases i <;> fin_cases j <;> simp
  have hdet : (decoupling (Real.sqrt (4 / 5)) ((1 / 2 : ℝ) • (1 : M2))).toBlocks₁₁.det = 4 / 5 := by
    rw [h11, det_smul, Fintype.card_fin, det_one, mul_one, hs]
  have hG : Gauged (decoupling (Real.sqrt (4 / 5)) ((1 / 2 : ℝ) • (1 : M2))) := by
    unfold Gauged; rw [h11]; simp
  refine ⟨decoupling (Real.sqrt (4 / 5)) ((1 / 2 : ℝ) • (1 : M2)), symp_decoupling hg, hG, by rw [hdet]; norm_num, ?_⟩
  obtain ⟨h, -⟩ := rdt_of_gauged hG (by rw [hdet]; norm_num)
  obtain ⟨gp, -⟩ := gEdw_pos (W := decoupling (Real.sqrt (4 / 5)) ((1 / 2 : ℝ) • (1 : M2))) (by rw [hdet]; norm_num)
  rw [h, h11, h12]
  apply div_ne_zero
  · intro h0
    have := congrArg Complex.im h0
    simp [conjMat, Matrix.mul_apply, Fin.sum_univ_two] at this
  · have : (gEdw (decoupling (Real.sqrt (4 / 5)) ((1 / 2 : ℝ) • (1 : M2))) : ℂ) ≠ 0 := by exact_mod_cast gp.ne'
    exact mul_ne_zero (by norm_num) (pow_ne_zero _ this)

end Verif.EdwTeng
