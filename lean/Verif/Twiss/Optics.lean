import Verif.Twiss.Props
import Mathlib.Tactic.Positivity
import Mathlib.Analysis.SpecialFunctions.Complex.Arg
import Mathlib.Analysis.SpecialFunctions.Trigonometric.Angle

/-! # Lattice functions: independence of the phase of the modes, periodicity, restart -/

namespace Verif.Twiss

open Matrix

/-- `A` and `B` have the same modes up to a phase and a positive factor. -/
def Aligned (A B : Mat) : Prop :=
  ∃ u : Fin 3 → ℂ, (∀ k, u k ≠ 0) ∧ ∀ k, mode A k = fun i => mode B k i * u k

/-- The row computed from a matrix does not depend on the phases and the scale of its modes. -/
theorem pairNorm_mul (v : CVec) (u : ℂ) :
    pairNorm (fun i => v i * u) = pairNorm v * Complex.normSq u := by
  simp only [pairNorm, S, dotProduct, Matrix.mulVec, Fin.sum_univ_six, Complex.normSq_apply,
    Complex.mul_re, Complex.mul_im]
  simp
  ring

theorem nu_mul_mode {A B : Mat} {u : Fin 3 → ℂ} (h : ∀ k, mode A k = fun i => mode B k i * u k)
    (k : Fin 3) : nu A k = nu B k * ‖u k‖ := by
  rw [nu, nu, h k, pairNorm_mul, abs_mul, Real.sqrt_mul (abs_nonneg _),
    abs_of_nonneg (Complex.normSq_nonneg _), Complex.normSq_eq_norm_sq,
    Real.sqrt_sq (norm_nonneg _)]

theorem gauge_phase (z u : ℂ) (hz : z ≠ 0) :
    u * Complex.exp (-(Complex.I * ((z * u).arg : ℂ)))
      = (‖u‖ : ℂ) * Complex.exp (-(Complex.I * (z.arg : ℂ))) := by
  have e1 : z * u = (‖z * u‖ : ℂ) * Complex.exp (((z * u).arg : ℂ) * Complex.I) :=
    (Complex.norm_mul_exp_arg_mul_I _).symm
  have e2 : z = (‖z‖ : ℂ) * Complex.exp ((z.arg : ℂ) * Complex.I) :=
    (Complex.norm_mul_exp_arg_mul_I _).symm
  have n1 : (‖z‖ : ℂ) ≠ 0 := by exact_mod_cast (norm_ne_zero_iff.mpr hz)
  rw [mul_comm Complex.I, mul_comm Complex.I, Complex.exp_neg, Complex.exp_neg]
  set E1 := Complex.exp (((z * u).arg : ℂ) * Complex.I) with hE1
  set E2 := Complex.exp ((z.arg : ℂ) * Complex.I) with hE2
  have p1 : E1 ≠ 0 := Complex.exp_ne_zero _
  have p2 : E2 ≠ 0 := Complex.exp_ne_zero _
  rw [norm_mul, Complex.ofReal_mul] at e1
  have key : (‖z‖ : ℂ) * (E2 * u) = (‖z‖ : ℂ) * ((‖u‖ : ℂ) * E1) := by
    calc (‖z‖ : ℂ) * (E2 * u) = ((‖z‖ : ℂ) * E2) * u := by ring
      _ = z * u := by rw [← e2]
      _ = (‖z‖ : ℂ) * ((‖u‖ : ℂ) * E1) := by rw [e1]; ring
  have key' := mul_left_cancel₀ n1 key
  field_simp
  linear_combination key'

theorem latticeRow_W_mode (W : Mat) (k : Fin 3) :
    mode (latticeRow W).W k = fun i => mode W k i / (nu W k : ℂ)
      * Complex.exp (-(Complex.I * ((mode W k (reCol k) / (nu W k : ℂ)).arg : ℂ))) := by
  show mode (gauge (renormalize W)) k = _
  rw [gauge, mode_ofModes]
  have : mode (renormalize W) k = fun i => mode W k i / (nu W k : ℂ) := by
    rw [renormalize, mode_ofModes]
  funext i
  rw [phase, this]

theorem latticeRow_aligned {A B : Mat} (h : Aligned A B) (hn : ∀ k, nu B k ≠ 0)
    (hz : ∀ k, mode B k (reCol k) ≠ 0) : (latticeRow A).W = (latticeRow B).W := by
  obtain ⟨u, hu, h⟩ := h
  apply mode_ext
  intro k
  rw [latticeRow_W_mode, latticeRow_W_mode, nu_mul_mode h k, h k]
  funext i
  have nB : (nu B k : ℂ) ≠ 0 := by exact_mod_cast hn k
  have nu0 : (‖u k‖ : ℂ) ≠ 0 := by exact_mod_cast (norm_ne_zero_iff.mpr (hu k))
  have posu : 0 < ‖u k‖ := norm_pos_iff.mpr (hu k)
  have posn : 0 < nu B k := lt_of_le_of_ne (Real.sqrt_nonneg _) (Ne.symm (hn k))
  have a1 : (mode B k (reCol k) * u k / ((nu B k * ‖u k‖ : ℝ) : ℂ)).arg
      = (mode B k (reCol k) * u k).arg := by
    rw [div_eq_mul_inv, mul_comm, ← Complex.ofReal_inv,
      Complex.arg_real_mul _ (by positivity)]
  have a2 : (mode B k (reCol k) / (nu B k : ℂ)).arg = (mode B k (reCol k)).arg := by
    rw [div_eq_mul_inv, mul_comm, ← Complex.ofReal_inv, Complex.arg_real_mul _ (by positivity)]
  show mode B k i * u k / ((nu B k * ‖u k‖ : ℝ) : ℂ)
      * Complex.exp (-(Complex.I * ((mode B k (reCol k) * u k
        / ((nu B k * ‖u k‖ : ℝ) : ℂ)).arg : ℂ))) = _
  rw [a1, a2]
  have g := gauge_phase (mode B k (reCol k)) (u k) (hz k)
  push_cast
  calc mode B k i * u k / ((nu B k : ℂ) * (‖u k‖ : ℂ))
        * Complex.exp (-(Complex.I * ((mode B k (reCol k) * u k).arg : ℂ)))
      = mode B k i / ((nu B k : ℂ) * (‖u k‖ : ℂ))
        * (u k * Complex.exp (-(Complex.I * ((mode B k (reCol k) * u k).arg : ℂ)))) := by ring
    _ = mode B k i / (nu B k : ℂ)
        * Complex.exp (-(Complex.I * ((mode B k (reCol k)).arg : ℂ))) := by
      rw [g]
      field_simp

/-- Phases of the rows of aligned matrices differ by the phase of the factor. -/
theorem latticeRow_phi_aligned {A B : Mat} {u : Fin 3 → ℂ} (hu : ∀ k, u k ≠ 0)
    (h : ∀ k, mode A k = fun i => mode B k i * u k) (hn : ∀ k, nu B k ≠ 0)
    (hz : ∀ k, mode B k (reCol k) ≠ 0) (k : Fin 3) :
    SameAngle ((latticeRow A).phi k) ((latticeRow B).phi k + (u k).arg) := by
  have posn : 0 < nu B k := lt_of_le_of_ne (Real.sqrt_nonneg _) (Ne.symm (hn k))
  have posu : 0 < ‖u k‖ := norm_pos_iff.mpr (hu k)
  have eA : (latticeRow A).phi k = (mode B k (reCol k) * u k).arg := by
    show (mode (renormalize A) k (reCol k)).arg = _
    rw [renormalize, mode_ofModes, nu_mul_mode h k, h k, div_eq_mul_inv, mul_comm,
      ← Complex.ofReal_inv, Complex.arg_real_mul _ (by positivity)]
  have eB : (latticeRow B).phi k = (mode B k (reCol k)).arg := by
    show (mode (renormalize B) k (reCol k)).arg = _
    rw [renormalize, mode_ofModes, div_eq_mul_inv, mul_comm,
      ← Complex.ofReal_inv, Complex.arg_real_mul _ (by positivity)]
  have := Complex.arg_mul_coe_angle (hz k) (hu k)
  rw [eA, eB]
  rw [← Real.Angle.coe_add, Real.Angle.angle_eq_iff_two_pi_dvd_sub] at this
  obtain ⟨n, hn⟩ := this
  exact ⟨n, by linarith⟩

theorem Aligned.trans {A B C : Mat} (h : Aligned A B) (g : Aligned B C) : Aligned A C := by
  obtain ⟨u, hu, h⟩ := h
  obtain ⟨v, hv, g⟩ := g
  refine ⟨fun k => v k * u k, fun k => mul_ne_zero (hv k) (hu k), fun k => ?_⟩
  rw [h k, g k]
  funext i
  ring

theorem aligned_rot (W : Mat) (φ : Fin 3 → ℝ) : Aligned (W * blockRot φ) W :=
  ⟨fun k => Complex.exp (Complex.I * (φ k : ℂ)), fun _ => Complex.exp_ne_zero _,
    fun k => mode_blockRot W φ k⟩

theorem aligned_neg (W : Mat) : Aligned (-W) W :=
  ⟨fun _ => -1, fun _ => by norm_num, fun k => by
    funext i
    apply Complex.ext <;> simp [mode]⟩

theorem aligned_row (W : Mat) (h : ∀ k, nu W k ≠ 0) : Aligned (latticeRow W).W W := by
  refine ⟨fun k => (nu W k : ℂ)⁻¹
      * Complex.exp (-(Complex.I * ((mode W k (reCol k) / (nu W k : ℂ)).arg : ℂ))), fun k => ?_,
    fun k => ?_⟩
  · have : (nu W k : ℂ) ≠ 0 := by exact_mod_cast h k
    exact mul_ne_zero (inv_ne_zero this) (Complex.exp_ne_zero _)
  · rw [latticeRow_W_mode]
    funext i
    ring

theorem Aligned.left_mul {A B : Mat} (M : Mat) (h : Aligned A B) : Aligned (M * A) (M * B) := by
  obtain ⟨u, hu, h⟩ := h
  refine ⟨u, hu, fun k => ?_⟩
  rw [mode_mul, mode_mul, h k]
  funext i
  simp only [act, Finset.sum_mul]
  exact Finset.sum_congr rfl fun j _ => by ring

theorem Aligned.mode_ne {A B : Mat} (h : Aligned A B) (k : Fin 3) (i : Fin 6)
    (hz : mode B k i ≠ 0) : mode A k i ≠ 0 := by
  obtain ⟨u, hu, h⟩ := h
  rw [h k]
  exact mul_ne_zero hz (hu k)

theorem Aligned.symm {A B : Mat} (h : Aligned A B) : Aligned B A := by
  obtain ⟨u, hu, h⟩ := h
  refine ⟨fun k => (u k)⁻¹, fun k => inv_ne_zero (hu k), fun k => ?_⟩
  rw [h k]
  funext i
  have := hu k
  field_simp

theorem Aligned.nu_ne {A B : Mat} (h : Aligned A B) (hn : ∀ k, nu B k ≠ 0) (k : Fin 3) :
    nu A k ≠ 0 := by
  obtain ⟨u, hu, h⟩ := h
  rw [nu_mul_mode h k]
  exact mul_ne_zero (hn k) (norm_ne_zero_iff.mpr (hu k))

theorem Aligned.isUnit {A B : Mat} (h : Aligned A B) (hB : IsUnit B.det) : IsUnit A.det := by
  obtain ⟨u, hu, h⟩ := h
  have e : A = B * blockRot (fun k => (u k).arg) * nuMat (fun k => ‖u k‖) := by
    apply mode_ext
    intro k
    rw [mode_nuMat, mode_blockRot, h k]
    funext i
    rw [mul_assoc, mul_comm (Complex.exp _), mul_comm Complex.I, Complex.norm_mul_exp_arg_mul_I]
  rw [e, Matrix.det_mul, Matrix.det_mul]
  have d1 : IsUnit (blockRot fun k => (u k).arg).det :=
    Matrix.isUnit_det_of_left_inverse (blockRot_neg_mul _)
  have d2 : IsUnit (nuMat fun k => ‖u k‖).det :=
    Matrix.isUnit_det_of_right_inverse (nuMat_inv _ fun k => norm_ne_zero_iff.mpr (hu k))
  exact (hB.mul d1).mul d2

theorem tableRow_aligned {maps : List (Vec → Vec)} {As : List Mat} (l : LinearLine maps As)
    (co : Vec) (W : Mat) {scale : ℝ} (hs : scale ≠ 0) (k : ℕ) :
    Aligned (wsRow co W scale maps k) (transfer As 0 k * W) := by
  rw [wsRow_eq l.affine co W hs]
  exact aligned_neg _

/-- The three positions whose phases define the phase advances are not zero (a mode of the beam never
has zero amplitude in its own plane). -/
def Visible (W : Mat) : Prop := ∀ k, mode W k (reCol k) ≠ 0

theorem nu_pos_of_regular {maps : List (Vec → Vec)} {As : List Mat} (l : LinearLine maps As)
    {W : Mat} (r : Regular W) (j : ℕ) (k : Fin 3) : nu (transfer As 0 j * W) k ≠ 0 := by
  rw [nu_mul _ _ ((symplectic_iff _).mp (transfer_symplectic l.symplectic 0 j))]
  exact regular_nu r k

theorem forall₂_drop {α β : Type} {R : α → β → Prop} {l : List α} {m : List β}
    (h : List.Forall₂ R l m) (i : ℕ) : List.Forall₂ R (l.drop i) (m.drop i) := by
  induction h generalizing i with
  | nil => simp
  | cons a b ih =>
    cases i with
    | zero => exact List.Forall₂.cons a b
    | succ i => simpa using ih i

theorem LinearLine.drop {maps : List (Vec → Vec)} {As : List Mat} (l : LinearLine maps As) (i : ℕ) :
    LinearLine (maps.drop i) (As.drop i) :=
  ⟨forall₂_drop l.affine i, fun A h => l.symplectic A (List.mem_of_mem_drop h)⟩

theorem transfer_drop (As : List Mat) (i k : ℕ) :
    transfer (As.drop i) 0 k = transfer As i (i + k) := by
  unfold transfer
  rw [List.drop_zero, List.take_drop]

/-- **C90.** Restarting the calculation from the initial conditions which a table gives at one of its
rows reproduces the table: the same W matrix (hence the same beta, alpha, gamma functions and
dispersions), row by row. -/
theorem C90_restart {maps : List (Vec → Vec)} {As : List Mat} (l : LinearLine maps As)
    (co co' : Vec) {W : Mat} (r : Regular W) {scale scale' : ℝ} (hs : scale ≠ 0) (hs' : scale' ≠ 0)
    (i k : ℕ) (v : Visible (tableRow co W scale maps (i + k)).W) :
    (tableRow co' (tableRow co W scale maps i).W scale' (maps.drop i) k).W
      = (tableRow co W scale maps (i + k)).W := by
  have a1 := tableRow_aligned (l.drop i) co' (tableRow co W scale maps i).W hs' k
  have n0 : ∀ j k, nu (wsRow co W scale maps j) k ≠ 0 := fun j k => by
    rw [nu_wsRow l co W hs]; exact regular_nu r k
  have a2 : Aligned (tableRow co W scale maps i).W (transfer As 0 i * W) :=
    (aligned_row _ (n0 i)).trans (tableRow_aligned l co W hs i)
  have a3 := a2.left_mul (transfer (As.drop i) 0 k)
  rw [transfer_drop, ← Matrix.mul_assoc, transfer_mul As (Nat.zero_le i) (Nat.le_add_right i k)] at a3
  rw [transfer_drop] at a1
  have a4 := (a1.trans a3).trans (tableRow_aligned l co W hs (i + k)).symm
  exact latticeRow_aligned a4 (n0 (i + k)) fun j =>
    (aligned_row _ (n0 (i + k))).symm.mode_ne j _ (v j)

/-- **C90.** The phase advances of the restarted table are those of the original table counted from
the restart point, up to full turns. -/
theorem C90_restart_phase {maps : List (Vec → Vec)} {As : List Mat} (l : LinearLine maps As)
    (co co' : Vec) {W : Mat} (r : Regular W) {scale scale' : ℝ} (hs : scale ≠ 0) (hs' : scale' ≠ 0)
    (i k : ℕ) (v : Visible (tableRow co W scale maps (i + k)).W)
    (v0 : Visible (tableRow co W scale maps i).W) (m : Fin 3) :
    SameAngle
      ((tableRow co' (tableRow co W scale maps i).W scale' (maps.drop i) k).phi m
        - (tableRow co' (tableRow co W scale maps i).W scale' (maps.drop i) 0).phi m)
      ((tableRow co W scale maps (i + k)).phi m - (tableRow co W scale maps i).phi m) := by
  have n0 : ∀ j k, nu (wsRow co W scale maps j) k ≠ 0 := fun j k => by
    rw [nu_wsRow l co W hs]; exact regular_nu r k
  obtain ⟨u, hu, a2⟩ : Aligned (tableRow co W scale maps i).W (wsRow co W scale maps i) :=
    aligned_row _ (n0 i)
  -- both rows of the restarted table are the rows of the first one times `-u`
  have key : ∀ k', Visible (tableRow co W scale maps (i + k')).W →
      SameAngle ((tableRow co' (tableRow co W scale maps i).W scale' (maps.drop i) k').phi m)
        ((tableRow co W scale maps (i + k')).phi m + (-u m).arg) := by
    intro k' v'
    apply latticeRow_phi_aligned (A := wsRow co' (tableRow co W scale maps i).W scale' (maps.drop i) k')
      (B := wsRow co W scale maps (i + k')) (u := fun k => -u k) (fun k => neg_ne_zero.mpr (hu k))
      _ (n0 (i + k')) (fun j => (aligned_row _ (n0 (i + k'))).symm.mode_ne j _ (v' j))
    intro k
    have e1 : wsRow co W scale maps (i + k') = transfer As i (i + k') * wsRow co W scale maps i := by
      rw [wsRow_eq l.affine co W hs, wsRow_eq l.affine co W hs, Matrix.mul_neg, ← Matrix.mul_assoc,
        transfer_mul As (Nat.zero_le i) (Nat.le_add_right i k')]
    rw [wsRow_eq (l.drop i).affine co' _ hs', transfer_drop, e1]
    have e2 : mode (-(transfer As i (i + k') * (tableRow co W scale maps i).W)) k
        = fun j => -mode (transfer As i (i + k') * (tableRow co W scale maps i).W) k j := by
      funext j
      apply Complex.ext <;> simp [mode]
    rw [e2, mode_mul, mode_mul, a2 k]
    funext j
    simp only [act, Finset.sum_mul]
    rw [← Finset.sum_neg_distrib]
    exact Finset.sum_congr rfl fun j _ => by ring
  obtain ⟨a, ha⟩ := key k v
  obtain ⟨b, hb⟩ := key 0 (by simpa using v0)
  rw [Nat.add_zero] at hb
  refine ⟨a - b, ?_⟩
  rw [ha, hb]
  push_cast
  ring

/-- **C90.** Periodic solution: if the optics at the start is matched to the transfer matrix of the
whole line (`M W = W Rot(μ)`), all lattice functions at the end are those at the start. -/
theorem C90_periodic {maps : List (Vec → Vec)} {As : List Mat} (l : LinearLine maps As)
    (co : Vec) {W : Mat} (r : Regular W) {scale : ℝ} (hs : scale ≠ 0) (v : Visible W)
    (n : ℕ) (μ : Fin 3 → ℝ) (h : transfer As 0 n * W = W * blockRot μ) :
    (tableRow co W scale maps n).W = (tableRow co W scale maps 0).W := by
  have a1 := tableRow_aligned l co W hs n
  have a2 := tableRow_aligned l co W hs 0
  rw [h] at a1
  rw [transfer_self, Matrix.one_mul] at a2
  have a3 := (a1.trans (aligned_rot W μ)).trans a2.symm
  exact latticeRow_aligned a3 (fun k => by rw [nu_wsRow l co W hs]; exact regular_nu r k)
    fun k => a2.mode_ne k _ (v k)

/-- **C90.** ... and the phase advance over the line is the angle of the normal form (the tune, up to
integers). -/
theorem C90_tune {maps : List (Vec → Vec)} {As : List Mat} (l : LinearLine maps As)
    (co : Vec) {W : Mat} (r : Regular W) {scale : ℝ} (hs : scale ≠ 0) (v : Visible W)
    (n : ℕ) (μ : Fin 3 → ℝ) (h : transfer As 0 n * W = W * blockRot μ) (k : Fin 3) :
    SameAngle ((tableRow co W scale maps n).phi k - (tableRow co W scale maps 0).phi k) (μ k) := by
  have e0 : wsRow co W scale maps 0 = -W := by
    rw [wsRow_eq l.affine co W hs, transfer_self, Matrix.one_mul]
  have en : wsRow co W scale maps n = -W * blockRot μ := by
    rw [wsRow_eq l.affine co W hs, h, Matrix.neg_mul]
  have key := latticeRow_phi_aligned (A := wsRow co W scale maps n) (B := wsRow co W scale maps 0)
    (u := fun k => Complex.exp (Complex.I * (μ k : ℂ))) (fun _ => Complex.exp_ne_zero _)
    (fun k => by rw [en, e0]; exact mode_blockRot (-W) μ k)
    (fun k => by rw [nu_wsRow l co W hs]; exact regular_nu r k)
    (fun k => by
      rw [e0]
      exact (aligned_neg W).mode_ne k _ (v k)) k
  obtain ⟨a, ha⟩ := key
  have ang : ((Complex.exp (Complex.I * (μ k : ℂ))).arg : Real.Angle) = (μ k : Real.Angle) := by
    rw [mul_comm, Complex.exp_mul_I, ← Complex.ofReal_cos, ← Complex.ofReal_sin]
    exact Complex.arg_cos_add_sin_mul_I_coe_angle (μ k : Real.Angle)
  rw [Real.Angle.angle_eq_iff_two_pi_dvd_sub] at ang
  obtain ⟨b, hb⟩ := ang
  refine ⟨a + b, ?_⟩
  show (latticeRow _).phi k - (latticeRow _).phi k = _
  rw [ha]
  push_cast
  linarith

end Verif.Twiss
