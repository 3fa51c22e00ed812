import Verif.Twiss.Lemmas
import Verif.Twiss.Spec

/-! # Transfer matrices from twiss tables -/

namespace Verif.Twiss

open Matrix

theorem form_eq (z w : Vec) : form z w = z ⬝ᵥ (S *ᵥ w) := by
  simp [form, S, dotProduct, Matrix.mulVec, Fin.sum_univ_six]
  ring

theorem symplectic_iff (A : Mat) : Symplectic A ↔ Aᵀ * S * A = S := by
  constructor
  · intro h
    ext i j
    have := h (Pi.single i 1) (Pi.single j 1)
    rw [form_eq, form_eq, Matrix.mulVec_mulVec, Matrix.dotProduct_mulVec, ← Matrix.mulVec_transpose,
      Matrix.mulVec_mulVec, Matrix.dotProduct_mulVec, ← Matrix.mulVec_transpose] at this
    simp only [dotProduct_single_one, Matrix.mulVec_single_one, Matrix.col_apply] at this
    have e : (S * A)ᵀ * A = (Aᵀ * S * A)ᵀ := by
      rw [Matrix.transpose_mul, Matrix.transpose_mul, Matrix.transpose_mul,
        Matrix.transpose_transpose, Matrix.mul_assoc]
    rw [e] at this
    simpa using this
  · intro h z w
    rw [form_eq, form_eq, Matrix.mulVec_mulVec, Matrix.dotProduct_mulVec, ← Matrix.mulVec_transpose,
      Matrix.mulVec_mulVec]
    have e : (S * A)ᵀ * A = (Aᵀ * S * A)ᵀ := by
      rw [Matrix.transpose_mul, Matrix.transpose_mul, Matrix.transpose_mul,
        Matrix.transpose_transpose, Matrix.mul_assoc]
    rw [e, h, Matrix.dotProduct_mulVec, ← Matrix.mulVec_transpose]

theorem Symplectic.mul {A B : Mat} (a : Symplectic A) (b : Symplectic B) : Symplectic (A * B) := by
  intro z w
  rw [← Matrix.mulVec_mulVec, ← Matrix.mulVec_mulVec, a, b]

theorem Symplectic.one : Symplectic 1 := by
  intro z w
  rw [Matrix.one_mulVec, Matrix.one_mulVec]

theorem Symplectic.isUnit {A : Mat} (a : Symplectic A) : IsUnit A.det := by
  have h := (symplectic_iff A).mp a
  have : (-S * Aᵀ * S) * A = 1 := by
    rw [Matrix.mul_assoc, Matrix.mul_assoc, ← Matrix.mul_assoc Aᵀ, h, Matrix.neg_mul, S_mul_S,
      neg_neg]
  exact Matrix.isUnit_det_of_left_inverse this

theorem regular_nu {W : Mat} (r : Regular W) (k : Fin 3) : nu W k ≠ 0 := by
  have e : pairNorm (mode W k) = form (fun i => W i (reCol k)) (fun i => W i (imCol k)) := by
    rw [form_eq]; rfl
  have : pairNorm (mode W k) ≠ 0 := by
    rw [e]
    fin_cases k
    · exact r.x
    · exact r.y
    · exact r.zeta
  rw [nu]
  exact (Real.sqrt_pos.mpr (abs_pos.mpr this)).ne'

/-! Transfer matrices -/

theorem foldl_mul (l : List Mat) (P : Mat) :
    l.foldl (fun P A => A * P) P = l.foldl (fun P A => A * P) 1 * P := by
  induction l generalizing P with
  | nil => simp
  | cons a l ih =>
    simp only [List.foldl_cons]
    rw [ih (a * P), ih (a * 1), Matrix.mul_one, Matrix.mul_assoc]

theorem transfer_mul (As : List Mat) {i j k : ℕ} (hij : i ≤ j) (hjk : j ≤ k) :
    transfer As j k * transfer As i j = transfer As i k := by
  unfold transfer
  rw [← foldl_mul, ← List.foldl_append]
  congr 1
  have h : (As.take k).drop i = ((As.take k).drop i).take (j - i) ++ ((As.take k).drop i).drop (j - i) :=
    (List.take_append_drop _ _).symm
  rw [h, List.drop_drop, List.take_drop]
  have h1 : i + (j - i) = j := by omega
  rw [h1, List.take_take]
  have h2 : min j k = j := by omega
  rw [h2]

theorem transfer_self (As : List Mat) (i : ℕ) : transfer As i i = 1 := by
  unfold transfer
  have : (As.take i).drop i = [] := by simp
  rw [this]
  rfl

theorem transfer_symplectic {As : List Mat} (h : ∀ A ∈ As, Symplectic A) (i j : ℕ) :
    Symplectic (transfer As i j) := by
  unfold transfer
  have h' : ∀ A ∈ (As.take j).drop i, Symplectic A := fun A m =>
    h A (List.mem_of_mem_take (List.mem_of_mem_drop m))
  revert h'
  generalize (As.take j).drop i = l
  intro h'
  have : ∀ (l : List Mat) (P : Mat), (∀ A ∈ l, Symplectic A) → Symplectic P →
      Symplectic (l.foldl (fun P A => A * P) P) := by
    intro l
    induction l with
    | nil => intro P _ hP; exact hP
    | cons a l ih =>
      intro P hl hP
      exact ih _ (fun A m => hl A (List.mem_cons_of_mem _ m))
        ((hl a List.mem_cons_self).mul hP)
  exact this l 1 h' Symplectic.one

theorem recorded_sub {maps : List (Vec → Vec)} {As : List Mat} (h : List.Forall₂ Affine maps As)
    (k : ℕ) (z w : Vec) :
    recorded maps k z - recorded maps k w = transfer As 0 k *ᵥ (z - w) := by
  unfold recorded transfer
  rw [List.drop_zero]
  induction h generalizing k z w with
  | nil => simp
  | cons hf _ ih =>
    rename_i f A fs Bs hrest
    cases k with
    | zero => simp
    | succ k =>
      simp only [List.take_succ_cons, List.foldl_cons]
      rw [ih k, foldl_mul _ (A * 1), Matrix.mul_one, ← Matrix.mulVec_mulVec, hf z w]

theorem wsRow_eq {maps : List (Vec → Vec)} {As : List Mat} (h : List.Forall₂ Affine maps As)
    (co : Vec) (W : Mat) {scale : ℝ} (hs : scale ≠ 0) (k : ℕ) :
    wsRow co W scale maps k = -(transfer As 0 k * W) := by
  ext i j
  have lo := congrFun (recorded_sub h k (lowParticle co W scale j) co) i
  have hi := congrFun (recorded_sub h k (highParticle co W scale j) co) i
  have el : lowParticle co W scale j - co = (-scale) • fun i => W i j := by
    funext i; simp [lowParticle]; ring
  have eh : highParticle co W scale j - co = scale • fun i => W i j := by
    funext i; simp [highParticle]; ring
  rw [el, Matrix.mulVec_smul] at lo
  rw [eh, Matrix.mulVec_smul] at hi
  simp only [Pi.sub_apply, Pi.smul_apply, smul_eq_mul] at lo hi
  have em : (transfer As 0 k *ᵥ fun i => W i j) i = (transfer As 0 k * W) i j := by
    simp [Matrix.mulVec, dotProduct, Matrix.mul_apply]
  rw [em] at lo hi
  rw [wsRow, lo, hi, Matrix.neg_apply]
  field_simp
  ring

theorem nu_wsRow {maps : List (Vec → Vec)} {As : List Mat} (l : LinearLine maps As)
    (co : Vec) (W : Mat) {scale : ℝ} (hs : scale ≠ 0) (k : ℕ) :
    nu (wsRow co W scale maps k) = nu W := by
  rw [wsRow_eq l.affine co W hs, nu_neg,
    nu_mul _ _ ((symplectic_iff _).mp (transfer_symplectic l.symplectic 0 k))]

/-- **C89.** The transfer matrix between any two rows of a twiss table is the product of the matrices
of the elements in between: for every line of affine symplectic elements, every orbit, every
admissible optics at the start and every size of the finite-difference step. -/
theorem C89_R_matrix {maps : List (Vec → Vec)} {As : List Mat} (l : LinearLine maps As)
    (co : Vec) {W : Mat} (r : Regular W) {scale : ℝ} (hs : scale ≠ 0) {i j : ℕ} (hij : i ≤ j) :
    getR (tableRow co W scale maps i) (tableRow co W scale maps j) = transfer As i j := by
  unfold tableRow
  have hn : ∀ k, nu (wsRow co W scale maps k) = nu W := nu_wsRow l co W hs
  have hu : IsUnit (wsRow co W scale maps i).det := by
    rw [wsRow_eq l.affine co W hs, ← Matrix.isUnit_iff_isUnit_det]
    apply IsUnit.neg
    rw [Matrix.isUnit_iff_isUnit_det, Matrix.det_mul]
    exact (transfer_symplectic l.symplectic 0 i).isUnit.mul r.inv
  rw [getR_latticeRow _ _ (fun k => by rw [hn]; exact regular_nu r k) (by rw [hn, hn]) hu]
  have e : wsRow co W scale maps j = transfer As i j * wsRow co W scale maps i := by
    rw [wsRow_eq l.affine co W hs, wsRow_eq l.affine co W hs, Matrix.mul_neg, ← Matrix.mul_assoc,
      transfer_mul As (Nat.zero_le i) hij]
  rw [e, Matrix.mul_assoc, Matrix.mul_nonsing_inv _ hu, Matrix.mul_one]

/-- A drift and a quadrupole kick, and unit optics, satisfy the hypotheses. -/
def exDrift : Mat := !![1, 2, 0, 0, 0, 0; 0, 1, 0, 0, 0, 0; 0, 0, 1, 2, 0, 0; 0, 0, 0, 1, 0, 0;
  0, 0, 0, 0, 1, 3; 0, 0, 0, 0, 0, 1]

def exQuad : Mat := !![1, 0, 0, 0, 0, 0; -5, 1, 0, 0, 0, 0; 0, 0, 1, 0, 0, 0; 0, 0, 5, 1, 0, 0;
  0, 0, 0, 0, 1, 0; 0, 0, 0, 0, 0, 1]

theorem exDrift_symplectic : Symplectic exDrift := by
  intro z w
  simp [form, exDrift, Matrix.mulVec, dotProduct, Fin.sum_univ_six]
  ring

theorem exQuad_symplectic : Symplectic exQuad := by
  intro z w
  simp [form, exQuad, Matrix.mulVec, dotProduct, Fin.sum_univ_six]
  ring

theorem regular_of_symplectic {W : Mat} (h : Symplectic W) : Regular W := by
  have g : ∀ i j, form (fun k => W k i) (fun k => W k j) = form (Pi.single i 1) (Pi.single j 1) := by
    intro i j
    rw [← h (Pi.single i 1) (Pi.single j 1)]
    congr 1 <;> (funext k; simp)
  refine ⟨h.isUnit, ?_, ?_, ?_⟩ <;> rw [g] <;> simp [form]

theorem exLine (b : Vec) :
    LinearLine [fun z => exDrift *ᵥ z + b, fun z => exQuad *ᵥ z] [exDrift, exQuad] := by
  refine ⟨?_, ?_⟩
  · refine List.Forall₂.cons ?_ (List.Forall₂.cons ?_ List.Forall₂.nil)
    · intro z w
      simp [Matrix.mulVec_sub]
    · intro z w
      simp [Matrix.mulVec_sub]
  · intro A hA
    simp only [List.mem_cons, List.not_mem_nil, or_false] at hA
    rcases hA with rfl | rfl
    · exact exDrift_symplectic
    · exact exQuad_symplectic

theorem transfer_two (A B : Mat) : transfer [A, B] 0 2 = B * A := by
  have : transfer [A, B] 0 2 = B * (A * 1) := rfl
  rw [this, Matrix.mul_one]

example (b co : Vec) (h : (1 / 1000 : ℝ) ≠ 0) : getR
    (tableRow co 1 (1 / 1000) [fun z => exDrift *ᵥ z + b, fun z => exQuad *ᵥ z] 0)
    (tableRow co 1 (1 / 1000) [fun z => exDrift *ᵥ z + b, fun z => exQuad *ᵥ z] 2)
    = exQuad * exDrift :=
  (C89_R_matrix (exLine b) co (regular_of_symplectic Symplectic.one) h (Nat.zero_le 2)).trans
    (transfer_two exDrift exQuad)

/-- **C89.** Consequently the transfer matrices from rows of the table compose. -/
theorem C89_compose {maps : List (Vec → Vec)} {As : List Mat} (l : LinearLine maps As)
    (co : Vec) {W : Mat} (r : Regular W) {scale : ℝ} (hs : scale ≠ 0) {i j k : ℕ} (hij : i ≤ j)
    (hjk : j ≤ k) :
    getR (tableRow co W scale maps j) (tableRow co W scale maps k)
      * getR (tableRow co W scale maps i) (tableRow co W scale maps j)
      = getR (tableRow co W scale maps i) (tableRow co W scale maps k) := by
  rw [C89_R_matrix l co r hs hij, C89_R_matrix l co r hs hjk, C89_R_matrix l co r hs (hij.trans hjk),
    transfer_mul As hij hjk]

/-- **C89.** ... and they do not depend on the optics, the orbit or the step from which the table was
computed. -/
theorem C89_independent {maps : List (Vec → Vec)} {As : List Mat} (l : LinearLine maps As)
    (co co' : Vec) {W W' : Mat} (r : Regular W) (r' : Regular W') {scale scale' : ℝ}
    (hs : scale ≠ 0) (hs' : scale' ≠ 0) {i j : ℕ} (hij : i ≤ j) :
    getR (tableRow co W scale maps i) (tableRow co W scale maps j)
      = getR (tableRow co' W' scale' maps i) (tableRow co' W' scale' maps j) := by
  rw [C89_R_matrix l co r hs hij, C89_R_matrix l co' r' hs' hij]

end Verif.Twiss
