import Verif.Twiss.NormalForm
import Verif.Twiss.Optics
import Mathlib.Analysis.Real.Pi.Bounds
import Mathlib.Analysis.SpecialFunctions.Trigonometric.Bounds

/-! # Normal form of the 4x4 block, examples, symplectification -/

namespace Verif.Twiss

open Matrix

/-! ## An example: rotations in the three planes -/

/-- Eigenvectors of rotations: `(1, i)` and `(1, -i)` in each plane; `e` is the sign of the first of the
two. -/
def rotV (e : Fin 3 → ℝ) : Fin 6 → CVec :=
  ![![1, ⟨0, e 0⟩, 0, 0, 0, 0], ![1, ⟨0, -e 0⟩, 0, 0, 0, 0],
    ![0, 0, 1, ⟨0, e 1⟩, 0, 0], ![0, 0, 1, ⟨0, -e 1⟩, 0, 0],
    ![0, 0, 0, 0, 1, ⟨0, e 2⟩], ![0, 0, 0, 0, 1, ⟨0, -e 2⟩]]

/-- Their eigenvalues, for rotations with cosines `c` and sines `s`. -/
def rotW (e c s : Fin 3 → ℝ) : Fin 6 → ℂ :=
  ![⟨c 0, e 0 * s 0⟩, ⟨c 0, -(e 0 * s 0)⟩, ⟨c 1, e 1 * s 1⟩, ⟨c 1, -(e 1 * s 1)⟩,
    ⟨c 2, e 2 * s 2⟩, ⟨c 2, -(e 2 * s 2)⟩]

/-- The rotations. -/
def rotM (c s : Fin 3 → ℝ) : Mat :=
  !![c 0, s 0, 0, 0, 0, 0;
     -s 0, c 0, 0, 0, 0, 0;
     0, 0, c 1, s 1, 0, 0;
     0, 0, -s 1, c 1, 0, 0;
     0, 0, 0, 0, c 2, s 2;
     0, 0, 0, 0, -s 2, c 2]

/-- Partner in each pair. -/
abbrev rotC : Fin 6 → Fin 6 := ![1, 0, 3, 2, 5, 4]

theorem rot_pairs {e c s : Fin 3 → ℝ} (he : ∀ k, e k ^ 2 = 1) (h1 : ∀ k, c k ^ 2 + s k ^ 2 = 1)
    (hd : Function.Injective (rotW e c s)) : EigenPairs (rotM c s) (rotV e) (rotW e c s) rotC where
  symplectic := by
    rw [symplectic_iff]
    have h0 := h1 0
    have h1' := h1 1
    have h2 := h1 2
    ext i j
    fin_cases i <;> fin_cases j <;>
      simp [rotM, S, Matrix.mul_apply, Fin.sum_univ_six] <;> linarith
  eigen := by
    have h0 := he 0
    have h1' := he 1
    have h2 := he 2
    intro j
    funext i
    fin_cases j <;> fin_cases i <;>
      (apply Complex.ext <;> simp [act, rotM, rotV, rotW, Fin.sum_univ_six]) <;>
      first
        | (linear_combination (-(s 0)) * h0)
        | (linear_combination (-(s 1)) * h1')
        | (linear_combination (-(s 2)) * h2)
        | ring1
  unit := by
    have h : ∀ k (x : ℝ), x ^ 2 = s k ^ 2 → ‖(⟨c k, x⟩ : ℂ)‖ = 1 := by
      intro k x hx
      rw [Complex.norm_def, Complex.normSq_apply, Real.sqrt_eq_one]
      show c k * c k + x * x = 1
      have := h1 k
      nlinarith
    have q : ∀ k, (e k * s k) ^ 2 = s k ^ 2 := fun k => by rw [mul_pow, he, one_mul]
    have q' : ∀ k, (-(e k * s k)) ^ 2 = s k ^ 2 := fun k => by rw [neg_sq, q]
    intro j
    fin_cases j
    · exact h 0 _ (q 0)
    · exact h 0 _ (q' 0)
    · exact h 1 _ (q 1)
    · exact h 1 _ (q' 1)
    · exact h 2 _ (q 2)
    · exact h 2 _ (q' 2)
  distinct := hd
  conj_w := by
    intro j
    fin_cases j <;> (apply Complex.ext <;> simp [rotW, rotC])
  conj_v := by
    intro j i
    fin_cases j <;> fin_cases i <;> (apply Complex.ext <;> simp [rotV, rotC])
  conj_ne := by decide
  indep := by
    intro d hd'
    have n : ∀ k, e k ≠ 0 := fun k h => by have := he k; rw [h] at this; norm_num at this
    have p : ∀ k (a b : ℂ), a + b = 0 → a * ⟨0, e k⟩ + b * ⟨0, -e k⟩ = 0 → a = 0 ∧ b = 0 := by
      intro k a b h1 h2
      have hn : (⟨0, -e k⟩ : ℂ) = -⟨0, e k⟩ := by apply Complex.ext <;> simp
      have hz : (⟨0, e k⟩ : ℂ) ≠ 0 := by
        intro h
        have := congrArg Complex.im h
        exact n k this
      rw [hn] at h2
      have h3 : (a - b) * ⟨0, e k⟩ = 0 := by linear_combination h2
      rcases mul_eq_zero.mp h3 with h4 | h4
      · constructor
        · linear_combination (h1 + h4) / 2
        · linear_combination (h1 - h4) / 2
      · exact absurd h4 hz
    have f : ∀ i, d 0 * rotV e 0 i + d 1 * rotV e 1 i + d 2 * rotV e 2 i + d 3 * rotV e 3 i
        + d 4 * rotV e 4 i + d 5 * rotV e 5 i = 0 := fun i => by
      have := hd' i
      rw [Fin.sum_univ_six] at this
      exact this
    have f0 := f 0
    have f1 := f 1
    have f2 := f 2
    have f3 := f 3
    have f4 := f 4
    have f5 := f 5
    simp [rotV] at f0 f1 f2 f3 f4 f5
    obtain ⟨a0, a1⟩ := p 0 _ _ f0 f1
    obtain ⟨a2, a3⟩ := p 1 _ _ f2 f3
    obtain ⟨a4, a5⟩ := p 2 _ _ f4 f5
    funext k
    fin_cases k <;> assumption

/-- Rotations whose sines are positive and all different meet the hypotheses of `C94_normal_form`. -/
theorem rot_stable {c s : Fin 3 → ℝ} (h1 : ∀ k, c k ^ 2 + s k ^ 2 = 1) (hp : ∀ k, 0 < s k)
    (h01 : s 0 ≠ s 1) (h02 : s 0 ≠ s 2) (h12 : s 1 ≠ s 2) :
    Stable (rotM c s) (rotV fun _ => 1) (rotW (fun _ => 1) c s) rotC := by
  have p0 := hp 0
  have p1 := hp 1
  have p2 := hp 2
  have im : ∀ j, (rotW (fun _ => 1) c s j).im
      = (![s 0, -s 0, s 1, -s 1, s 2, -s 2] : Fin 6 → ℝ) j := by
    intro j
    fin_cases j <;> simp [rotW]
  refine ⟨rot_pairs (fun _ => one_pow 2) h1 ?_, ?_⟩
  · intro i j hij
    have h := congrArg Complex.im hij
    rw [im, im] at h
    fin_cases i <;> fin_cases j <;>
      first
        | rfl
        | (exfalso; simp at h; first
            | linarith
            | exact h01 (by linarith)
            | exact h02 (by linarith)
            | exact h12 (by linarith))
  · intro i j hij h
    rw [Complex.add_im, im, im] at h
    fin_cases i <;> fin_cases j <;>
      first
        | rfl
        | exact absurd rfl hij
        | (exfalso; simp at h; first
            | linarith
            | exact h01 (by linarith)
            | exact h02 (by linarith)
            | exact h12 (by linarith))

/-- The hypotheses of `C94_normal_form` are met: tunes with sines 4/5, 3/5 and 5/13. -/
example : Stable (rotM ![3/5, 4/5, 12/13] ![4/5, 3/5, 5/13]) (rotV fun _ => 1)
    (rotW (fun _ => 1) ![3/5, 4/5, 12/13] ![4/5, 3/5, 5/13]) rotC := by
  apply rot_stable
  · intro k
    fin_cases k <;> norm_num
  · intro k
    fin_cases k <;> norm_num
  all_goals (simp; try norm_num)

theorem only4d_rot (c s : Fin 3 → ℝ) : only4d (rotM c s)
    = rotM ![c 0, c 1, Real.cos (Real.pi / 10)] ![s 0, s 1, Real.sin (Real.pi / 10)] := by
  ext i j
  fin_cases i <;> fin_cases j <;> simp [only4d, rotM]

/-- The hypotheses of `C94_normal_form_4d` are met. -/
example (c2 s2 : ℝ) : ∃ v w cj, Stable (only4d (rotM ![3/5, 4/5, c2] ![4/5, 3/5, s2])) v w cj := by
  rw [only4d_rot]
  have b : Real.sin (Real.pi / 10) < 1 / 2 := by
    have := Real.sin_lt (x := Real.pi / 10) (by positivity)
    have := Real.pi_lt_four
    linarith
  refine ⟨_, _, _, rot_stable ?_ ?_ ?_ ?_ ?_⟩
  · intro k
    fin_cases k
    · norm_num
    · norm_num
    · simp
  · intro k
    fin_cases k
    · norm_num
    · norm_num
    · exact Real.sin_pos_of_pos_of_lt_pi (by positivity) (by linarith [Real.pi_pos])
  · norm_num
  · simp; intro h; linarith
  · simp; intro h; linarith

/-! ## Tunes which differ by one half -/

/-- Sines and cosines of tunes `q`, `1/4`, `q + 1/2`. -/
noncomputable abbrev halfC : Fin 3 → ℝ := ![3/5, 0, -3/5]
noncomputable abbrev halfS : Fin 3 → ℝ := ![4/5, 1, -4/5]

/-- The eigenvalue with positive imaginary part comes first in each pair. -/
abbrev halfE : Fin 3 → ℝ := ![1, 1, -1]

theorem half_pairs : EigenPairs (rotM halfC halfS) (rotV halfE) (rotW halfE halfC halfS) rotC := by
  apply rot_pairs
  · intro k
    fin_cases k <;> norm_num [halfE]
  · intro k
    fin_cases k <;> norm_num [halfC, halfS]
  · intro i j hij
    have h1 := congrArg Complex.im hij
    have h2 := congrArg Complex.re hij
    fin_cases i <;> fin_cases j <;>
      first
        | rfl
        | (exfalso; simp [rotW, halfE, halfC, halfS] at h1; norm_num at h1; done)
        | (exfalso; simp [rotW, halfE, halfC, halfS] at h2; norm_num at h2)

theorem half_conjModes : conjModes (rotW halfE halfC halfS) = [(0, 5), (1, 4), (2, 3)] := by
  have a1 : argmin (fun b => |(rotW halfE halfC halfS 0 + rotW halfE halfC halfS b).im|)
      [5, 1, 2, 3, 4] = 0 := by
    rw [argmin_cons, fold_min (f := fun b => |(rotW halfE halfC halfS 0
      + rotW halfE halfC halfS b).im|) (fun _ => abs_nonneg _)]
    simp [rotW, halfE, halfS]
    norm_num
  have a2 : argmin (fun b => |(rotW halfE halfC halfS 1 + rotW halfE halfC halfS b).im|)
      [2, 3, 4] = 2 := by
    simp only [argmin_cons, List.zipIdx_cons, List.zipIdx_nil, List.foldl_cons, List.foldl_nil]
    simp [rotW, halfE, halfS]
    norm_num [abs_of_pos, abs_of_neg]
  unfold conjModes pairOff
  simp only [a1, List.getD_cons_zero, List.eraseIdx_zero, List.tail_cons, a2]
  simp

/-- **C94.** A stable machine whose tunes are all different is refused (`ValueError: Invalid n..`) when
the horizontal and longitudinal tunes differ by one half: conjugate modes are paired by the imaginary
part of the eigenvalues only. -/
theorem C94_half_integer_violated :
    EigenPairs (rotM halfC halfS) (rotV halfE) (rotW halfE halfC halfS) rotC
      ∧ normalForm (rotV halfE) (rotW halfE halfC halfS) false = none := by
  refine ⟨half_pairs, ?_⟩
  have n : ∀ j, pairNorm (rotV halfE j) = (![1, -1, 1, -1, -1, 1] : Fin 6 → ℝ) j := by
    intro j
    fin_cases j <;> simp [pairNorm, rotV, dotProduct, Matrix.mulVec, S, Fin.sum_univ_six, halfE]
  have e0 : selectMode (rotV halfE) (0, 5) = 0 := by
    unfold selectMode
    rw [n]
    simp
  have e1 : selectMode (rotV halfE) (1, 4) = 4 := by
    unfold selectMode
    rw [n]
    norm_num
  have e2 : selectMode (rotV halfE) (2, 3) = 2 := by
    unfold selectMode
    rw [n]
    simp
  have hm : sortModes (rotV halfE) (rotW halfE halfC halfS) = ![0, 2, 4] := by
    unfold sortModes
    rw [half_conjModes]
    simp only [List.getD_cons_zero, List.getD_cons_succ, e0, e1, e2]
    unfold orderModes
    have v05 : rotV halfE 0 5 = 0 := by simp [rotV]
    have v25 : rotV halfE 2 5 = 0 := by simp [rotV]
    have v45 : ‖rotV halfE 4 5‖ = 1 := by
      have : rotV halfE 4 5 = -Complex.I := by
        apply Complex.ext <;> simp [rotV, halfE]
      rw [this]; simp
    have v02 : rotV halfE 0 2 = 0 := by simp [rotV]
    have v22 : rotV halfE 2 2 = 1 := by simp [rotV]
    simp [v05, v25, v45, v02, v22]
  unfold normalForm
  simp only [hm]
  have hb : buildW (rotV halfE) ![0, 2, 4] false = none := by
    unfold buildW
    rw [if_neg]
    intro h
    have := h 2
    rw [nInvSq_false, n] at this
    simp at this
    norm_num at this
  rw [hb]
  rfl

/-! ## Periodic optics -/

/-- **C94.** The W matrix of the normal form of the one-turn map gives periodic optics whose tunes are
the phases of the eigenvalues. -/
theorem C94_tunes {maps : List (Vec → Vec)} {As : List Mat} (l : LinearLine maps As) (co : Vec)
    {scale : ℝ} (hs : scale ≠ 0) {n : ℕ} {v : Fin 6 → CVec} {w : Fin 6 → ℂ} {cj : Fin 6 → Fin 6}
    (h : Stable (transfer As 0 n) v w cj) :
    ∃ (nf : NormalForm) (W : Mat), normalForm v w false = some nf
      ∧ (∀ i j, |nf.W i j - W i j| < 1e-14)
      ∧ (Visible W → (tableRow co W scale maps n).W = (tableRow co W scale maps 0).W
        ∧ ∀ k, SameAngle ((tableRow co W scale maps n).phi k - (tableRow co W scale maps 0).phi k)
            (nf.eigenvalues k).arg) := by
  obtain ⟨nf, W, m, h1, h2, h3, h4, h5, -, -, -, h6, -⟩ := C94_normal_form h
  have r := regular_of_symplectic h2
  refine ⟨nf, W, h1, fun i j => (h6 i j).1, fun hv => ?_⟩
  rw [h4] at h3
  refine ⟨C90_periodic l co r hs hv n _ h3, fun k => ?_⟩
  rw [h5]
  exact C90_tune l co r hs hv n _ h3 k

/-! ## Symplectification -/

theorem cayley {W : Mat} (hW : Wᵀ = W) (hd : IsUnit (1 - S * W).det) :
    Symplectic ((1 + S * W) * (1 - S * W)⁻¹) := by
  rw [symplectic_iff]
  have hA : (1 + S * W)ᵀ * S * (1 + S * W) = S + W * S * W := by
    rw [Matrix.transpose_add, Matrix.transpose_one, Matrix.transpose_mul, hW, S_transpose]
    have e : (1 + W * -S) * S * (1 + S * W)
        = S + S * S * W - W * (S * S) - W * (S * S) * S * W := by
      noncomm_ring
    rw [e, S_mul_S]
    noncomm_ring
  have hB : (1 - S * W)ᵀ * S * (1 - S * W) = S + W * S * W := by
    rw [Matrix.transpose_sub, Matrix.transpose_one, Matrix.transpose_mul, hW, S_transpose]
    have e : (1 - W * -S) * S * (1 - S * W)
        = S - S * S * W + W * (S * S) - W * (S * S) * S * W := by
      noncomm_ring
    rw [e, S_mul_S]
    noncomm_ring
  generalize 1 - S * W = B at *
  generalize 1 + S * W = A at *
  have h1 : B * B⁻¹ = 1 := Matrix.mul_nonsing_inv _ hd
  have h2 : (B⁻¹)ᵀ * Bᵀ = 1 := by rw [← Matrix.transpose_mul, h1, Matrix.transpose_one]
  calc (A * B⁻¹)ᵀ * S * (A * B⁻¹) = (B⁻¹)ᵀ * (Aᵀ * S * A) * B⁻¹ := by
        rw [Matrix.transpose_mul]; simp only [Matrix.mul_assoc]
    _ = (B⁻¹)ᵀ * (Bᵀ * S * B) * B⁻¹ := by rw [hA, hB]
    _ = ((B⁻¹)ᵀ * Bᵀ) * S * (B * B⁻¹) := by simp only [Matrix.mul_assoc]
    _ = S := by rw [h1, h2, Matrix.one_mul, Matrix.mul_one]

/-- **C94.** What `healy_symplectify` returns is symplectic, for every matrix. -/
theorem C94_healy_symplectic {M N : Mat} (h : healy M = some N) : Symplectic N := by
  unfold healy at h
  simp only at h
  split at h
  · rename_i hd
    injection h with h
    rw [← h]
    apply cayley
    · rw [Matrix.transpose_smul, Matrix.transpose_add, Matrix.transpose_transpose, add_comm]
    · exact isUnit_iff_ne_zero.mpr hd
  · exact absurd h (by simp)

/-- **C94.** A matrix which is symplectic already (and has no eigenvalue -1) is returned unchanged. -/
theorem C94_healy_id {M : Mat} (h : Symplectic M) (h1 : IsUnit (1 + M).det) : healy M = some M := by
  have hs := (symplectic_iff M).mp h
  have i1 : (1 + M) * (1 + M)⁻¹ = 1 := Matrix.mul_nonsing_inv _ h1
  have i2 : (1 + M)⁻¹ * (1 + M) = 1 := Matrix.nonsing_inv_mul _ h1
  generalize hB : (1 + M)⁻¹ = B at *
  have i3 : Bᵀ * (1 + M)ᵀ = 1 := by rw [← Matrix.transpose_mul, i1, Matrix.transpose_one]
  have hX : (1 + M)ᵀ * (S * (1 - M)) = Mᵀ * S - S * M := by
    have e : (1 + Mᵀ) * (S * (1 - M)) = S - S * M + Mᵀ * S - Mᵀ * S * M := by noncomm_ring
    rw [Matrix.transpose_add, Matrix.transpose_one, e, hs]
    abel
  have hXt : (Mᵀ * S - S * M)ᵀ = Mᵀ * S - S * M := by
    rw [Matrix.transpose_sub, Matrix.transpose_mul, Matrix.transpose_mul, Matrix.transpose_transpose,
      S_transpose]
    noncomm_ring
  have hV : S * ((1 - M) * B) = Bᵀ * (Mᵀ * S - S * M) * B := by
    rw [← hX, ← Matrix.mul_assoc Bᵀ, i3, Matrix.one_mul, Matrix.mul_assoc]
  have hVt : (S * ((1 - M) * B))ᵀ = S * ((1 - M) * B) := by
    rw [hV, Matrix.transpose_mul, Matrix.transpose_mul, hXt, Matrix.transpose_transpose,
      Matrix.mul_assoc]
  have hW : (1 / 2 : ℝ) • (S * ((1 - M) * B) + (S * ((1 - M) * B))ᵀ) = S * ((1 - M) * B) := by
    rw [hVt, ← two_smul ℝ, smul_smul]
    norm_num
  have hSW : S * (S * ((1 - M) * B)) = -((1 - M) * B) := by
    rw [← Matrix.mul_assoc, S_mul_S]
    noncomm_ring
  have i1' : B + M * B = 1 := by rw [← i1]; noncomm_ring
  have hp : 1 + S * (S * ((1 - M) * B)) = (2 : ℝ) • (M * B) := by
    rw [hSW, Matrix.sub_mul, Matrix.one_mul, ← i1', two_smul]
    abel
  have hm : 1 - S * (S * ((1 - M) * B)) = (2 : ℝ) • B := by
    rw [hSW, Matrix.sub_mul, Matrix.one_mul, ← i1', two_smul]
    abel
  have hinv : ((2 : ℝ) • B)⁻¹ = (1 / 2 : ℝ) • (1 + M) := by
    apply Matrix.inv_eq_right_inv
    rw [Matrix.smul_mul, Matrix.mul_smul, i2, smul_smul]
    norm_num
  unfold healy
  simp only [hB, hW, hp, hm, hinv]
  rw [if_pos]
  · congr 1
    rw [Matrix.smul_mul, Matrix.mul_smul, smul_smul, Matrix.mul_assoc, i2, Matrix.mul_one]
    norm_num
  · have : ((2 : ℝ) • B).det * ((1 / 2 : ℝ) • (1 + M)).det = 1 := by
      rw [← Matrix.det_mul, Matrix.smul_mul, Matrix.mul_smul, i2, smul_smul]
      norm_num
    exact left_ne_zero_of_mul_eq_one this

example : healy exDrift = some exDrift := by
  apply C94_healy_id exDrift_symplectic
  apply Matrix.isUnit_det_of_right_inverse (B := !![1/2, -1/2, 0, 0, 0, 0; 0, 1/2, 0, 0, 0, 0;
    0, 0, 1/2, -1/2, 0, 0; 0, 0, 0, 1/2, 0, 0; 0, 0, 0, 0, 1/2, -3/4; 0, 0, 0, 0, 0, 1/2])
  ext i j
  fin_cases i <;> fin_cases j <;>
    simp [exDrift, Matrix.mul_apply, Fin.sum_univ_six, Matrix.one_apply] <;> norm_num

/-- **C94.** There are matrices for which `healy_symplectify` raises an exception instead of giving a
symplectic matrix. -/
theorem C94_healy_violated : ∃ M : Mat, IsUnit (1 + M).det ∧ healy M = none := by
  let M : Mat := Matrix.diagonal ![1, -1/3, 1, 1, 1, 1]
  have h1 : (1 + M) = Matrix.diagonal ![2, 2/3, 2, 2, 2, 2] := by
    rw [← Matrix.diagonal_one, Matrix.diagonal_add]
    congr 1
    funext i
    fin_cases i <;> norm_num
  have hinv : (1 + M)⁻¹ = Matrix.diagonal ![1/2, 3/2, 1/2, 1/2, 1/2, 1/2] := by
    rw [h1]
    apply Matrix.inv_eq_right_inv
    rw [Matrix.diagonal_mul_diagonal, ← Matrix.diagonal_one]
    congr 1
    funext i
    fin_cases i <;> norm_num
  have hm : 1 - M = Matrix.diagonal ![0, 4/3, 0, 0, 0, 0] := by
    rw [← Matrix.diagonal_one, Matrix.diagonal_sub]
    congr 1
    funext i
    fin_cases i <;> norm_num
  have hd : (1 - M) * (1 + M)⁻¹ = Matrix.diagonal ![0, 2, 0, 0, 0, 0] := by
    rw [hm, hinv, Matrix.diagonal_mul_diagonal]
    congr 1
    funext i
    fin_cases i <;> norm_num
  refine ⟨M, ?_, ?_⟩
  · rw [h1, Matrix.det_diagonal, Fin.prod_univ_six]
    simp
  · unfold healy
    simp only
    rw [if_neg]
    generalize hD : (Matrix.diagonal ![0, 2, 0, 0, 0, 0] : Mat) = D at hd
    have hV : S * D = (Matrix.of fun i j => if i = 0 ∧ j = 1 then 2 else 0 : Mat) := by
      ext i j
      rw [← hD, Matrix.mul_diagonal, Matrix.of_apply]
      fin_cases i <;> fin_cases j <;> simp [S]
    have hW : (1 / 2 : ℝ) • (S * D + (S * D)ᵀ)
        = (Matrix.of fun i j => if (i = 0 ∧ j = 1) ∨ (i = 1 ∧ j = 0) then 1 else 0 : Mat) := by
      rw [hV]
      ext i j
      rw [Matrix.smul_apply, Matrix.add_apply, Matrix.transpose_apply, Matrix.of_apply,
        Matrix.of_apply, Matrix.of_apply]
      fin_cases i <;> fin_cases j <;> simp
    rw [hd, hW, not_not]
    apply Matrix.det_eq_zero_of_row_eq_zero (0 : Fin 6)
    intro j
    rw [Matrix.sub_apply, Matrix.mul_apply, Fin.sum_univ_six]
    fin_cases j <;> simp [S, Matrix.one_apply]

/-! ## Only the 4x4 block -/

/-- The eigenvector of the dummy longitudinal motion. -/
noncomputable def dummy : CVec := ![0, 0, 0, 0, 1, Complex.I]

/-- Its eigenvalue. -/
noncomputable def dummyW : ℂ := ⟨Real.cos (Real.pi / 10), Real.sin (Real.pi / 10)⟩

theorem act_dummy (M : Mat) : act (only4d M) dummy = fun i => dummyW * dummy i := by
  funext i
  fin_cases i <;>
    (apply Complex.ext <;>
      simp [act, only4d, dummy, dummyW, Fin.sum_univ_six, -Complex.ofReal_cos, -Complex.ofReal_sin])

theorem act_lin {M : Mat} (c : Fin 6 → ℂ) (v : Fin 6 → CVec) :
    act M (fun i => ∑ j, c j * v j i) = fun i => ∑ j, c j * act M (v j) i := by
  funext i
  simp only [act, Finset.mul_sum]
  rw [Finset.sum_comm]
  exact Finset.sum_congr rfl fun j _ => Finset.sum_congr rfl fun k _ => by ring

/-- One of the eigenvectors is the dummy motion. -/
theorem exists_dummy {M : Mat} {v : Fin 6 → CVec} {w : Fin 6 → ℂ} {cj : Fin 6 → Fin 6}
    (h : EigenPairs (only4d M) v w cj) (sp : ∀ z : CVec, ∃ c : Fin 6 → ℂ, ∀ i, ∑ j, c j * v j i = z i) :
    ∃ j, ∃ a : ℂ, a ≠ 0 ∧ w j = dummyW ∧ ∀ i, v j i = a * dummy i := by
  obtain ⟨c, hc⟩ := sp dummy
  have hd : dummy = fun i => ∑ j, c j * v j i := funext fun i => (hc i).symm
  have h1 := act_dummy M
  have h2 : act (only4d M) dummy = fun i => ∑ j, c j * (w j * v j i) := by
    conv_lhs => rw [hd]
    rw [act_lin]
    funext i
    exact Finset.sum_congr rfl fun j _ => by rw [h.eigen]
  have h3 : (fun j => c j * (w j - dummyW)) = 0 := by
    apply h.indep
    intro i
    have e : dummyW * dummy i = ∑ j, c j * (w j * v j i) := congrFun (h1.symm.trans h2) i
    rw [← hc i, Finset.mul_sum] at e
    rw [← sub_eq_zero, ← Finset.sum_sub_distrib] at e
    rw [← neg_eq_zero, ← Finset.sum_neg_distrib, ← e]
    exact Finset.sum_congr rfl fun j _ => by ring
  obtain ⟨j, hj⟩ : ∃ j, c j ≠ 0 := by
    by_contra hn
    push Not at hn
    have := hc 4
    simp [hn, dummy] at this
  have wj : ∀ k, c k ≠ 0 → w k = dummyW := by
    intro k hk
    have := congrFun h3 k
    simp only [Pi.zero_apply, mul_eq_zero] at this
    rcases this with e | e
    · exact absurd e hk
    · exact sub_eq_zero.mp e
  refine ⟨j, (c j)⁻¹, inv_ne_zero hj, wj j hj, fun i => ?_⟩
  have e := hc i
  rw [Finset.sum_eq_single j] at e
  · rw [← e]
    field_simp
  · intro k _ hk
    by_contra hne
    have : c k ≠ 0 := fun e => hne (by rw [e, zero_mul])
    exact hk (h.distinct ((wj k this).trans (wj j hj).symm))
  · intro hb; exact absurd (Finset.mem_univ j) hb

/-- Eigenvectors with another eigenvalue have no longitudinal part. -/
theorem transverse {M : Mat} {u : CVec} {l : ℂ} (h : act (only4d M) u = fun i => l * u i)
    (h1 : l ≠ dummyW) (h2 : l ≠ starRingEnd ℂ dummyW) : u 4 = 0 ∧ u 5 = 0 := by
  have e4 := congrFun h 4
  have e5 := congrFun h 5
  simp [act, only4d, Fin.sum_univ_six, -Complex.ofReal_cos, -Complex.ofReal_sin] at e4 e5
  have hw : dummyW = (Real.cos (Real.pi / 10) : ℂ) + (Real.sin (Real.pi / 10) : ℂ) * Complex.I := by
    apply Complex.ext <;> simp [dummyW, -Complex.ofReal_cos, -Complex.ofReal_sin]
  have hw' : starRingEnd ℂ dummyW
      = (Real.cos (Real.pi / 10) : ℂ) - (Real.sin (Real.pi / 10) : ℂ) * Complex.I := by
    apply Complex.ext <;> simp [dummyW, -Complex.ofReal_cos, -Complex.ofReal_sin]
  generalize (Real.cos (Real.pi / 10) : ℂ) = c at *
  generalize (Real.sin (Real.pi / 10) : ℂ) = s at *
  have I2 : Complex.I * Complex.I = -1 := Complex.I_mul_I
  have p : (u 4 + u 5 * Complex.I) * (l - (c - s * Complex.I)) = 0 := by
    linear_combination -e4 - e5 * Complex.I + s * u 5 * I2
  have m : (u 4 - u 5 * Complex.I) * (l - (c + s * Complex.I)) = 0 := by
    linear_combination -e4 + e5 * Complex.I + s * u 5 * I2
  have p' : u 4 + u 5 * Complex.I = 0 := by
    rcases mul_eq_zero.mp p with e | e
    · exact e
    · exact absurd (by rw [hw']; exact sub_eq_zero.mp e) h2
  have m' : u 4 - u 5 * Complex.I = 0 := by
    rcases mul_eq_zero.mp m with e | e
    · exact e
    · exact absurd (by rw [hw]; exact sub_eq_zero.mp e) h1
  constructor
  · linear_combination (p' + m') / 2
  · have : u 5 * Complex.I = 0 := by linear_combination (p' - m') / 2
    rcases mul_eq_zero.mp this with e | e
    · exact e
    · exact absurd e Complex.I_ne_zero

/-- Three chosen modes and their partners are all six. -/
theorem chosen_cover {v : Fin 6 → CVec} {cj : Fin 6 → Fin 6} {m : Fin 3 → Fin 6} (h : Chosen v cj m)
    (inv : ∀ a, cj (cj a) = a) (j : Fin 6) : ∃ k, m k = j ∨ m k = cj j := by
  let g : Fin 3 ⊕ Fin 3 → Fin 6 := Sum.elim m (fun k => cj (m k))
  have hg : Function.Injective g := by
    rintro (a | a) (b | b) hab
    · exact congrArg _ (h.inj hab)
    · exact absurd hab (h.sep a b)
    · exact absurd hab.symm (h.sep b a)
    · have : m a = m b := by
        have := congrArg cj hab
        simpa [g, inv] using this
      exact congrArg _ (h.inj this)
  have hs : Function.Surjective g :=
    ((Fintype.bijective_iff_injective_and_card g).mpr ⟨hg, by simp⟩).2
  obtain ⟨a | a, ha⟩ := hs j
  · exact ⟨a, Or.inl ha⟩
  · refine ⟨a, Or.inr ?_⟩
    rw [← ha]
    exact (inv _).symm

/-- **C94.** Normal form of the 4x4 block (`only_4d_block`): the third mode is the dummy longitudinal
motion, and the 4x4 block of `W` is the one of a symplectic, block diagonal `W'` with
`M4 W' = W' R`. -/
theorem C94_normal_form_4d {M : Mat} {v : Fin 6 → CVec} {w : Fin 6 → ℂ} {cj : Fin 6 → Fin 6}
    (h : Stable (only4d M) v w cj) :
    ∃ (nf : NormalForm) (W' : Mat),
      normalForm v w true = some nf
      ∧ Symplectic W'
      ∧ only4d M * W' = W' * nf.R
      ∧ (∀ k, W' (reCol k) (imCol k) = 0 ∧ 0 ≤ W' (reCol k) (reCol k))
      ∧ (∀ i j : Fin 6, i.val < 4 → 4 ≤ j.val → W' i j = 0 ∧ W' j i = 0)
      ∧ (∀ i j : Fin 6, j.val < 4 → |nf.W i j - W' i j| < 1e-14)
      ∧ (nf.eigenvalues 2 = dummyW ∨ nf.eigenvalues 2 = starRingEnd ℂ dummyW) := by
  obtain ⟨hc, o1, o2⟩ := sortModes_spec h
  obtain ⟨j, a, ha, hj, hv⟩ := exists_dummy h.toEigenPairs h.span
  have hcj : w (cj j) = starRingEnd ℂ dummyW := by rw [h.conj_w, hj]
  have other : ∀ k, k ≠ j → k ≠ cj j → v k 4 = 0 ∧ v k 5 = 0 := by
    intro k h1 h2
    refine transverse (h.eigen k) ?_ ?_
    · rw [← hj]; exact fun e => h1 (h.distinct e)
    · rw [← hcj]; exact fun e => h2 (h.distinct e)
  have five : v j 5 ≠ 0 := by
    rw [hv]
    exact mul_ne_zero ha (by simp [dummy])
  have five' : v (cj j) 5 ≠ 0 := by
    rw [h.conj_v]
    exact (map_ne_zero _).mpr five
  have m2 : sortModes v w 2 = j ∨ sortModes v w 2 = cj j := by
    by_contra hn
    push Not at hn
    have z := (other _ hn.1 hn.2).2
    obtain ⟨k, hk⟩ := chosen_cover hc h.invol j
    have le := o1 k
    rw [z, norm_zero] at le
    have : v (sortModes v w k) 5 = 0 := norm_le_zero_iff.mp le
    rcases hk with e | e
    · rw [e] at this; exact five this
    · rw [e] at this; exact five' this
  have tr : ∀ k, k ≠ 2 → v (sortModes v w k) 4 = 0 ∧ v (sortModes v w k) 5 = 0 := by
    intro k hk
    have n1 : sortModes v w k ≠ sortModes v w 2 := fun e => hk (hc.inj e)
    have n2 : sortModes v w k ≠ cj (sortModes v w 2) := hc.sep k 2
    rcases m2 with e | e
    · rw [e] at n1 n2
      exact other _ n1 n2
    · rw [e] at n1 n2
      rw [h.invol] at n2
      exact other _ n2 n1
  have lo : ∀ i : Fin 6, i.val < 4 → v (sortModes v w 2) i = 0 := by
    intro i hi
    have d0 : dummy i = 0 := by
      fin_cases i <;> simp [dummy] at hi ⊢
    have vj : v j i = 0 := by rw [hv, d0, mul_zero]
    rcases m2 with e | e
    · rw [e, vj]
    · rw [e, h.conj_v, vj, map_zero]
  have hn : ∀ k, nInvSq v (sortModes v w) true k > 0 := by
    intro k
    unfold nInvSq
    split
    · exact one_pos
    · rw [pairNorm_turned]; exact hc.pos k
  have hnk : ∀ k, k ≠ 2 → nInvSq v (sortModes v w) true k = pairNorm (v (sortModes v w k)) := by
    intro k hk
    simp [nInvSq, hk, pairNorm_turned]
  obtain ⟨W, hW⟩ : ∃ W, buildW v (sortModes v w) true = some W
      ∧ W = ofModes fun k i => turned v (sortModes v w) k i
        * ((1 / √ (nInvSq v (sortModes v w) true k) : ℝ) : ℂ) := by
    refine ⟨_, ?_, rfl⟩
    unfold buildW
    rw [if_pos hn]
  have hform : normalForm v w true = some
      { W := flush W
        invW := (flush W)⁻¹
        R := blockRot fun k => (w (sortModes v w k)).arg
        eigenvalues := fun k => w (sortModes v w k) } := by
    simp only [normalForm, hW.1, Option.map_some]
  have same : ∀ i j : Fin 6, j.val < 4 → W i j = ofModes (unitMode v (sortModes v w)) i j := by
    intro i j hj4
    have h0 := hnk 0 (by decide)
    have h1 := hnk 1 (by decide)
    rw [hW.2]
    fin_cases j
    · show (turned v (sortModes v w) 0 i * ((1 / √ (nInvSq v (sortModes v w) true 0) : ℝ) : ℂ)).re = _
      rw [h0]; rfl
    · show (turned v (sortModes v w) 0 i * ((1 / √ (nInvSq v (sortModes v w) true 0) : ℝ) : ℂ)).im = _
      rw [h0]; rfl
    · show (turned v (sortModes v w) 1 i * ((1 / √ (nInvSq v (sortModes v w) true 1) : ℝ) : ℂ)).re = _
      rw [h1]; rfl
    · show (turned v (sortModes v w) 1 i * ((1 / √ (nInvSq v (sortModes v w) true 1) : ℝ) : ℂ)).im = _
      rw [h1]; rfl
    · simp at hj4
    · simp at hj4
  refine ⟨_, ofModes (unitMode v (sortModes v w)), hform, unitModes_symplectic h hc,
    unitModes_eigen h hc, fun k => unitModes_phase v _ k, ?_, ?_, ?_⟩
  · have u2 : ∀ i : Fin 6, i.val < 4 → unitMode v (sortModes v w) 2 i = 0 := by
      intro i hi
      rw [unitMode_eq]
      simp [lo i hi]
    have u4 : ∀ k, k ≠ 2 → unitMode v (sortModes v w) k 4 = 0 ∧ unitMode v (sortModes v w) k 5 = 0 := by
      intro k hk
      rw [unitMode_eq]
      simp [tr k hk]
    intro i j hi hj4
    have a0 := u4 0 (by decide)
    have a1 := u4 1 (by decide)
    have ui := u2 i hi
    fin_cases j <;> simp at hj4
    · refine ⟨?_, ?_⟩
      · show (unitMode v (sortModes v w) 2 i).re = 0
        rw [ui]; rfl
      · fin_cases i <;> simp at hi
        · show (unitMode v (sortModes v w) 0 4).re = 0
          rw [a0.1]; rfl
        · show (unitMode v (sortModes v w) 0 4).im = 0
          rw [a0.1]; rfl
        · show (unitMode v (sortModes v w) 1 4).re = 0
          rw [a1.1]; rfl
        · show (unitMode v (sortModes v w) 1 4).im = 0
          rw [a1.1]; rfl
    · refine ⟨?_, ?_⟩
      · show (unitMode v (sortModes v w) 2 i).im = 0
        rw [ui]; rfl
      · fin_cases i <;> simp at hi
        · show (unitMode v (sortModes v w) 0 5).re = 0
          rw [a0.2]; rfl
        · show (unitMode v (sortModes v w) 0 5).im = 0
          rw [a0.2]; rfl
        · show (unitMode v (sortModes v w) 1 5).re = 0
          rw [a1.2]; rfl
        · show (unitMode v (sortModes v w) 1 5).im = 0
          rw [a1.2]; rfl
  · intro i j hj4
    have := (flush_close W i j).1
    rw [same i j hj4] at this
    exact this
  · show w (sortModes v w 2) = _ ∨ w (sortModes v w 2) = _
    rcases m2 with e | e
    · left; rw [e, hj]
    · right; rw [e, hcj]

end Verif.Twiss
