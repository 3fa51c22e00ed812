import Verif.Twiss.Optics
import Verif.Twiss.Functions
import Verif.Twiss.Beam

/-! # Reversed initial conditions and reversed tables -/

namespace Verif.Twiss

open Matrix

/-- The coordinates of a particle seen in the reversed frame: `x`, `py` and `zeta` change sign. -/
def flip : Mat := Matrix.diagonal ![-1, 1, 1, -1, -1, 1]

/-- A line followed in the reversed direction: a particle which goes from `z` to `R z` is seen, in the
reversed frame, going from `flip (R z)` to `flip z`. -/
def IsReversed (R R' : Mat) : Prop := ∀ z : Vec, R' *ᵥ (flip *ᵥ (R *ᵥ z)) = flip *ᵥ z

theorem flip_mul_flip : flip * flip = 1 := by
  ext i j
  fin_cases i <;> fin_cases j <;> simp [flip]

theorem revW_eq (W : Mat) : revW W = flip * W := by
  ext i j
  simp [revW, flip, Matrix.diagonal_mul]

theorem revW_revW (W : Mat) : revW (revW W) = W := by
  rw [revW_eq, revW_eq, ← Matrix.mul_assoc, flip_mul_flip, Matrix.one_mul]

theorem isReversed_iff {R R' : Mat} : IsReversed R R' ↔ R' * flip * R = flip := by
  constructor
  · intro h
    ext i j
    have := congrFun (h (Pi.single j 1)) i
    simp only [Matrix.mulVec_mulVec, Matrix.mulVec_single_one, Matrix.col_apply] at this
    exact this
  · intro h z
    rw [Matrix.mulVec_mulVec, Matrix.mulVec_mulVec, h]

/-- **C95.** Initial conditions given in either frame are those which the `TwissInit` reports. -/
theorem C95_init (rev : Bool) {bx by' : ℝ} (hx : 0 < bx) (hy : 0 < by') (ax ay dx dpx dy dpy : ℝ) :
    let W := initW rev bx by' ax ay 1 dx dpx dy dpy
    betx W = bx ∧ bety W = by' ∧ alfx W = ax ∧ alfy W = ay
      ∧ disp W 0 = dx ∧ disp W 1 = dpx ∧ disp W 2 = dy ∧ disp W 3 = dpy := by
  have h1 := Real.sq_sqrt hx.le
  have h2 := Real.sq_sqrt hy.le
  have n1 := (Real.sqrt_pos.mpr hx).ne'
  have n2 := (Real.sqrt_pos.mpr hy).ne'
  cases rev
  · refine ⟨?_, ?_, ?_, ?_, ?_, ?_, ?_, ?_⟩ <;>
      simp [initW, w6d, betx, bety, alfx, alfy, disp, h1, h2] <;> field_simp
  · refine ⟨?_, ?_, ?_, ?_, ?_, ?_, ?_, ?_⟩ <;>
      simp [initW, w6d, revW, betx, bety, alfx, alfy, disp, h1, h2] <;> field_simp

/-- **C95.** In the frame of the line, initial conditions given in the reversed frame have opposite
`alfx`, `alfy`, `dx`, `dpy`; reversing again comes back. -/
theorem C95_init_reverse (bx by' bs ax ay dx dpx dy dpy : ℝ) :
    revW (initW true bx by' ax ay bs dx dpx dy dpy)
      = initW false bx by' (-ax) (-ay) bs (-dx) dpx dy (-dpy) := by
  simp only [initW, if_true, revW_revW]
  simp

example : alfx (initW true 4 9 (1 / 2) 0 1 3 0 0 0) = 1 / 2 :=
  (C95_init true (by norm_num) (by norm_num) (1 / 2) 0 3 0 0 0).2.2.1

/-- The columns of a row are the functions of its W matrix. -/
def Consistent (r : FullRow) : Prop :=
  r.betx = betx r.row.W ∧ r.bety = bety r.row.W ∧ r.alfx = alfx r.row.W ∧ r.alfy = alfy r.row.W
    ∧ (∀ i : Fin 4, r.disp i = disp r.row.W (Fin.castLE (by omega) i))
    ∧ ∀ i : Fin 4, r.dispZeta i = dispZeta r.row.W (Fin.castLE (by omega) i)

theorem disp_revW (W : Mat) (i : Fin 6) : disp (revW W) i = ![-1, 1, 1, -1, -1, 1] i * disp W i := by
  have h4 : ∀ j, revW W 4 j = -W 4 j := fun j => by simp [revW]
  have h5 : ∀ j, revW W 5 j = W 5 j := fun j => by simp [revW]
  have hi : ∀ j, revW W i j = ![-1, 1, 1, -1, -1, 1] i * W i j := fun j => rfl
  simp only [disp, h4, h5, hi, mul_neg, neg_div_neg_eq]
  ring

theorem dispZeta_revW (W : Mat) (i : Fin 6) :
    dispZeta (revW W) i = -(![-1, 1, 1, -1, -1, 1] i * dispZeta W i) := by
  have h4 : ∀ j, revW W 4 j = -W 4 j := fun j => by simp [revW]
  have h5 : ∀ j, revW W 5 j = W 5 j := fun j => by simp [revW]
  have hi : ∀ j, revW W i j = ![-1, 1, 1, -1, -1, 1] i * W i j := fun j => rfl
  have e : -W 4 4 - -W 4 5 * W 5 4 / W 5 5 = -(W 4 4 - W 4 5 * W 5 4 / W 5 5) := by ring
  simp only [dispZeta, h4, h5, hi, e]
  rw [div_neg]
  ring

/-- **C95.** The functions of a reversed table belong to its W matrices. -/
theorem C95_functions (len : ℝ) {r : FullRow} (h : Consistent r) : Consistent (revRow len r) := by
  obtain ⟨h1, h2, h3, h4, h5, h6⟩ := h
  refine ⟨?_, ?_, ?_, ?_, ?_, ?_⟩
  · simp [revRow, h1, betx, revW]
  · simp [revRow, h2, bety, revW]
  · simp [revRow, h3, alfx, revW]; ring
  · simp [revRow, h4, alfy, revW]; ring
  · intro i
    have e := disp_revW r.row.W (Fin.castLE (by omega) i)
    have e5 := h5 i
    simp only [revRow]
    rw [e, ← e5]
    fin_cases i <;> simp
  · intro i
    have e := dispZeta_revW r.row.W (Fin.castLE (by omega) i)
    have e6 := h6 i
    simp only [revRow]
    rw [e, ← e6]
    fin_cases i <;> simp

theorem revRow_revRow (len : ℝ) (r : FullRow) : revRow len (revRow len r) = r := by
  obtain ⟨s, orbit, ⟨W, phi⟩, ax, ay, bx, by', dsp, dz, mu, dzeta, dmu⟩ := r
  have h1 : (fun i => ![-1, 1, 1, -1, -1, 1] i * (![-1, 1, 1, -1, -1, 1] i * orbit i)) = orbit := by
    funext i; fin_cases i <;> simp
  have h2 : (![- -phi 0, - -phi 1, phi 2] : Fin 3 → ℝ) = phi := by
    funext i; fin_cases i <;> simp
  have h3 : (![- -dsp 0, dsp 1, dsp 2, - -dsp 3] : Fin 4 → ℝ) = dsp := by
    funext i; fin_cases i <;> simp
  have h4 : (![dz 0, - -dz 1, - -dz 2, dz 3] : Fin 4 → ℝ) = dz := by
    funext i; fin_cases i <;> simp
  simp only [revRow, revW_revW, neg_neg, sub_sub_cancel]
  simp at h2 h3 h4
  simp [h1, h2, h3, h4]

/-- **C95.** Reversing a table twice gives the table back (phases and `dzeta` count from its first
row). -/
theorem C95_involution (len : ℝ) (f : FullRow) (t : List FullRow) (hmu : f.mu = 0)
    (hdz : f.dzeta = 0) : reverseTable len (reverseTable len (f :: t)) = f :: t := by
  obtain ⟨l, u, hu⟩ : ∃ l u, (f :: t).reverse = l :: u := by
    cases h : (f :: t).reverse with
    | nil => simp at h
    | cons l u => exact ⟨l, u, rfl⟩
  have back : (l :: u).reverse = f :: t := by rw [← hu, List.reverse_reverse]
  let g : FullRow → FullRow := fun r =>
    { revRow len r with
      mu := fun k => l.mu k - r.mu k
      dzeta := -l.dzeta - -r.dzeta }
  have e1 : reverseTable len (f :: t) = (l :: u).map g := by
    unfold reverseTable
    rw [hu]
    simp [revRow, g]
  have e2 : reverseTable len ((l :: u).map g) = (f :: t).map fun r =>
      { revRow len (g r) with
        mu := fun k => (revRow len (g f)).mu k - (revRow len (g r)).mu k
        dzeta := (revRow len (g f)).dzeta - (revRow len (g r)).dzeta } := by
    unfold reverseTable
    rw [← List.map_reverse, back]
    simp
  rw [e1, e2]
  conv_rhs => rw [← List.map_id (f :: t)]
  apply List.map_congr_left
  intro r _
  have e3 : revRow len (g r) = { r with
      mu := fun k => l.mu k - r.mu k
      dzeta := -(-l.dzeta - -r.dzeta) } := by
    have := revRow_revRow len r
    simp only [revRow] at this
    simp only [g, revRow]
    rw [FullRow.mk.injEq] at this ⊢
    simp only [this, true_and]
  have e4 : revRow len (g f) = { f with
      mu := fun k => l.mu k - f.mu k
      dzeta := -(-l.dzeta - -f.dzeta) } := by
    have := revRow_revRow len f
    simp only [revRow] at this
    simp only [g, revRow]
    rw [FullRow.mk.injEq] at this ⊢
    simp only [this, true_and]
  rw [e3, e4]
  obtain ⟨s, orbit, rw', ax, ay, bx, by', dsp, dz, mu, dzeta, dmu⟩ := r
  simp [hmu, hdz]

/-- The row of a table which is shifted to zero phase. -/
noncomputable def exRow (W : Mat) (s μ ζ d : ℝ) : FullRow where
  s := s
  orbit := ![0, 0, 0, 0, ζ, 0]
  row := { W := W, phi := fun _ => μ }
  alfx := alfx W
  alfy := alfy W
  betx := betx W
  bety := bety W
  disp := fun i => disp W (Fin.castLE (by omega) i)
  dispZeta := fun i => dispZeta W (Fin.castLE (by omega) i)
  mu := fun _ => μ
  dzeta := d
  dmu := 0

example : Consistent (exRow exDrift 0 0 0 0) ∧ (exRow exDrift 0 0 0 0).mu = 0 :=
  ⟨⟨rfl, rfl, rfl, rfl, fun _ => rfl, fun _ => rfl⟩, rfl⟩

/-- **C95.** The phase advances of a reversed table grow from zero by the same amounts. -/
theorem C95_phase (len : ℝ) (t : List FullRow) (h : t ≠ []) :
    (reverseTable len t).map (fun r => r.mu)
      = t.reverse.map fun r => (fun k => (t.getLast h).mu k - r.mu k) := by
  obtain ⟨l, u, hu⟩ : ∃ l u, t.reverse = l :: u := by
    cases h' : t.reverse with
    | nil => simp at h'; exact absurd h' h
    | cons l u => exact ⟨l, u, rfl⟩
  have hl : t.getLast h = l := by
    have : t = (l :: u).reverse := by rw [← hu, List.reverse_reverse]
    simp [this]
  unfold reverseTable
  rw [hu, hl]
  simp [revRow]

/-- **C95.** The W matrices of a reversed table are transported by the reversed motion, with opposite
rotation. -/
theorem C95_motion {R R' W W' : Mat} (hR : IsReversed R R') {μ : Fin 3 → ℝ}
    (h : R * W = W' * blockRot μ) : R' * revW W' = revW W * blockRot fun k => -μ k := by
  have hr := isReversed_iff.mp hR
  have hW' : W' = R * W * blockRot fun k => -μ k := by
    rw [h, Matrix.mul_assoc, blockRot_mul_neg, Matrix.mul_one]
  rw [revW_eq, revW_eq, hW']
  calc R' * (flip * (R * W * blockRot fun k => -μ k))
      = (R' * flip * R) * W * blockRot fun k => -μ k := by simp only [Matrix.mul_assoc]
    _ = flip * W * blockRot fun k => -μ k := by rw [hr]

theorem reversed_eq {R R' W W' : Mat} (hR : IsReversed R R') {μ : Fin 3 → ℝ}
    (h : R * W = W' * blockRot μ) (u : IsUnit W'.det) :
    R' = revW W * (blockRot fun k => -μ k) * (revW W')⁻¹ := by
  have u' : IsUnit (revW W').det := by
    rw [revW_eq, Matrix.det_mul]
    refine IsUnit.mul ?_ u
    have : flip.det * flip.det = 1 := by rw [← Matrix.det_mul, flip_mul_flip, Matrix.det_one]
    exact IsUnit.of_mul_eq_one _ this
  rw [← C95_motion hR h, Matrix.mul_assoc, Matrix.mul_nonsing_inv _ u', Matrix.mul_one]

theorem blockRot_inj_x {φ ψ : Fin 3 → ℝ} (h : blockRot φ = blockRot ψ) :
    Real.sin (φ 0) = Real.sin (ψ 0) := by
  have := congrFun (congrFun h 0) 1
  simpa [blockRot] using this

/-- The R matrix which a reversed table gives is wrong whenever the horizontal phase advance is not a
multiple of `π`: `reverse` changes the sign of `phix` and `phiy`, but the W matrices already rotate
in the opposite direction. -/
theorem reversed_getR_wrong {R R' : Mat} (hR : IsReversed R R') {a b : FullRow} (len : ℝ)
    (ha : IsUnit a.row.W.det) (hb : IsUnit b.row.W.det)
    (h : R = getR a.row b.row) (hs : Real.sin (b.row.phi 0 - a.row.phi 0) ≠ 0) :
    getR (revRow len b).row (revRow len a).row ≠ R' := by
  intro hc
  have hW : R * a.row.W = b.row.W * blockRot fun k => b.row.phi k - a.row.phi k := by
    rw [h, getR, Matrix.mul_assoc, Matrix.nonsing_inv_mul _ ha, Matrix.mul_one]
  have e := reversed_eq hR hW hb
  have uf : ∀ {M : Mat}, IsUnit M.det → IsUnit (revW M).det := by
    intro M hM
    rw [revW_eq, Matrix.det_mul]
    refine IsUnit.mul ?_ hM
    have : flip.det * flip.det = 1 := by rw [← Matrix.det_mul, flip_mul_flip, Matrix.det_one]
    exact IsUnit.of_mul_eq_one _ this
  rw [e] at hc
  have hc : revW a.row.W * (blockRot fun k => (revRow len a).row.phi k - (revRow len b).row.phi k)
      * (revW b.row.W)⁻¹ = revW a.row.W * (blockRot fun k => -(b.row.phi k - a.row.phi k))
      * (revW b.row.W)⁻¹ := hc
  have hc := congrArg (· * revW b.row.W) hc
  simp only [Matrix.mul_assoc, Matrix.nonsing_inv_mul _ (uf hb), Matrix.mul_one] at hc
  have hc := congrArg ((revW a.row.W)⁻¹ * ·) hc
  simp only [← Matrix.mul_assoc, Matrix.nonsing_inv_mul _ (uf ha), Matrix.one_mul] at hc
  have hx := blockRot_inj_x hc
  simp only [revRow, Matrix.cons_val_zero] at hx
  have e1 : -a.row.phi 0 - -b.row.phi 0 = b.row.phi 0 - a.row.phi 0 := by ring
  rw [e1, Real.sin_neg] at hx
  exact hs (by linarith)

theorem blockRot_symplectic (μ : Fin 3 → ℝ) : Symplectic (blockRot μ) := by
  rw [symplectic_iff]
  have h : ∀ k, Real.sin (μ k) * Real.sin (μ k) + Real.cos (μ k) * Real.cos (μ k) = 1 := fun k => by
    have := Real.sin_sq_add_cos_sq (μ k); linarith [this]
  ext i j
  fin_cases i <;> fin_cases j <;>
    simp [blockRot, S, Matrix.mul_apply, Fin.sum_univ_six] <;>
    linarith [h 0, h 1, h 2]

theorem transfer_one (A : Mat) : transfer [A] 0 1 = A := by
  simp [transfer]

theorem one_line {A : Mat} (h : Symplectic A) : LinearLine [fun z => A *ᵥ z] [A] := by
  constructor
  · refine List.Forall₂.cons ?_ List.Forall₂.nil
    intro z w
    rw [Matrix.mulVec_sub]
  · intro B hB
    simp at hB
    rw [hB]
    exact h

theorem visible_one : Visible (1 : Mat) := by
  intro k
  intro h
  have := congrArg Complex.re h
  simp [mode] at this

/-- The hypotheses of C90 are met, e.g. by a ring with any three tunes. -/
example (μ : Fin 3 → ℝ) (co : Vec) (k : Fin 3) :
    (tableRow co 1 1e-3 [fun z => blockRot μ *ᵥ z] 1).W
        = (tableRow co 1 1e-3 [fun z => blockRot μ *ᵥ z] 0).W
      ∧ SameAngle ((tableRow co 1 1e-3 [fun z => blockRot μ *ᵥ z] 1).phi k
          - (tableRow co 1 1e-3 [fun z => blockRot μ *ᵥ z] 0).phi k) (μ k) := by
  have l := one_line (blockRot_symplectic μ)
  have r : Regular 1 := regular_of_symplectic Symplectic.one
  have ht : transfer [blockRot μ] 0 1 * 1 = 1 * blockRot μ := by
    simp [transfer]
  exact ⟨C90_periodic l co r (by norm_num) visible_one 1 μ ht,
    C90_tune l co r (by norm_num) visible_one 1 μ ht k⟩

theorem reversed_ring_wrong (μ : Fin 3 → ℝ) (hμ : Real.sin (μ 0) ≠ 0) {maps : List (Vec → Vec)}
    (l : LinearLine maps [blockRot μ]) (len : ℝ) (R' : Mat)
    (hR : IsReversed (transfer [blockRot μ] 0 1) R') (a b : FullRow)
    (ha : a.row = tableRow 0 1 1 maps 0) (hb : b.row = tableRow 0 1 1 maps 1) :
    getR (revRow len b).row (revRow len a).row ≠ R' := by
  have r : Regular 1 := regular_of_symplectic Symplectic.one
  have one : (1 : ℝ) ≠ 0 := one_ne_zero
  have ht : transfer [blockRot μ] 0 1 * 1 = 1 * blockRot μ := by
    rw [transfer_one, Matrix.mul_one, Matrix.one_mul]
  obtain ⟨n, hn⟩ := C90_tune l 0 r one visible_one 1 μ ht 0
  apply reversed_getR_wrong hR len
  · rw [ha]; exact isUnit_row l 0 r one 0
  · rw [hb]; exact isUnit_row l 0 r one 1
  · rw [ha, hb]; exact (C89_R_matrix l 0 r one (Nat.zero_le 1)).symm
  · rw [ha, hb, hn, mul_comm (2 * Real.pi), Real.sin_add_int_mul_two_pi]
    exact hμ

/-- **C95.** The R matrices of a reversed table are not those of the reversed line: ring of one element
with a quarter of a turn of horizontal phase. -/
theorem C95_R_matrix_violated :
    ∃ (maps : List (Vec → Vec)) (As : List Mat) (_ : LinearLine maps As) (W : Mat) (_ : Regular W),
      ∀ a b : FullRow, a.row = tableRow 0 W 1 maps 0 → b.row = tableRow 0 W 1 maps 1 →
        ∀ len R', IsReversed (transfer As 0 1) R' →
          getR (revRow len b).row (revRow len a).row ≠ R' := by
  have hl := one_line (blockRot_symplectic fun _ => Real.pi / 2)
  refine ⟨_, _, hl, 1, regular_of_symplectic Symplectic.one, ?_⟩
  intro a b ha hb len R' hR
  exact reversed_ring_wrong _ (by simp) hl len R' hR a b ha hb

/-- **C95.** With the phases left as they are the R matrices would be right: the W matrices of the
reversed table are.  (What is missing is the sign of `phix` and `phiy`, see `C95_R_matrix_violated`.) -/
theorem C95_R_matrix_partial {maps : List (Vec → Vec)} {As : List Mat} (l : LinearLine maps As)
    (co : Vec) {W : Mat} (r : Regular W) {scale : ℝ} (hs : scale ≠ 0) {i j : ℕ} (hij : i ≤ j)
    {R' : Mat} (hR : IsReversed (transfer As i j) R') :
    getR { W := revW (tableRow co W scale maps j).W, phi := (tableRow co W scale maps j).phi }
      { W := revW (tableRow co W scale maps i).W, phi := (tableRow co W scale maps i).phi } = R' := by
  have h := C89_R_matrix l co r hs hij
  have ui := isUnit_row l co r hs i
  have uj := isUnit_row l co r hs j
  have hW : transfer As i j * (tableRow co W scale maps i).W = (tableRow co W scale maps j).W
      * blockRot fun k => (tableRow co W scale maps j).phi k - (tableRow co W scale maps i).phi k := by
    rw [← h, getR, Matrix.mul_assoc, Matrix.nonsing_inv_mul _ ui, Matrix.mul_one]
  rw [reversed_eq hR hW uj, getR]
  congr 2
  congr 1
  funext k
  ring

/-- Every line has a reversed line. -/
example (A : Mat) (h : Symplectic A) : ∃ R', IsReversed A R' := by
  refine ⟨flip * A⁻¹ * flip, isReversed_iff.mpr ?_⟩
  calc flip * A⁻¹ * flip * flip * A = flip * A⁻¹ * (flip * flip) * A := by simp only [Matrix.mul_assoc]
    _ = flip := by
      rw [flip_mul_flip, Matrix.mul_one, Matrix.mul_assoc, Matrix.nonsing_inv_mul _ h.isUnit,
        Matrix.mul_one]

/-- The columns `dmux`, `dmuy`, `dzeta` of a table are the momentum derivatives of phases and `zeta`
between the tables `plus` and `minus`. -/
def Chromatic (dd : ℝ) (plus minus t : List FullRow) : Prop :=
  t.map (fun r => r.dmu) = chromDmu dd plus minus ∧ t.map (fun r => r.dzeta) = chromDzeta dd plus minus

/-- **C95.** `dzeta` of a reversed table has the wrong sign and `dmux`, `dmuy` still count from the
other end: a drift-like line of two rows. -/
theorem C95_chromatic_violated :
    ∃ (dd : ℝ) (plus minus t : List FullRow), Chromatic dd plus minus t
      ∧ (reverseTable 1 t).map (fun r => r.dmu)
          ≠ chromDmu dd (reverseTable 1 plus) (reverseTable 1 minus)
      ∧ (reverseTable 1 t).map (fun r => r.dzeta)
          ≠ chromDzeta dd (reverseTable 1 plus) (reverseTable 1 minus) := by
  refine ⟨1, [exRow 1 0 0 0 0, exRow 1 1 3 1 0], [exRow 1 0 0 0 0, exRow 1 1 1 0 0],
    [exRow 1 0 0 0 0, { exRow 1 1 2 0 1 with dmu := fun _ => 2 }], ⟨?_, ?_⟩, ?_, ?_⟩
  · simp [chromDmu, exRow]
    constructor
    · rfl
    · funext k; norm_num
  · simp [chromDzeta, exRow]
  · intro h
    have h := congrArg (fun l => (l.headD 0) 0) h
    simp [chromDmu, exRow, reverseTable, revRow] at h
  · intro h
    have h := congrArg (fun l => l.getD 1 0) h
    simp [chromDzeta, exRow, reverseTable, revRow] at h
    norm_num at h

end Verif.Twiss
