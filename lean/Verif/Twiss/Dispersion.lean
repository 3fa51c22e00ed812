import Verif.Twiss.Functions

/-! # Dispersion; lines without coupling; the branch `use_full_inverse` -/

namespace Verif.Twiss

open Matrix

theorem Uncoupled.one : Uncoupled 1 := by
  refine ⟨?_, ?_, ?_, ?_, ?_, ?_⟩ <;> simp

theorem Uncoupled.mul {A B : Mat} (a : Uncoupled A) (b : Uncoupled B) : Uncoupled (A * B) := by
  obtain ⟨⟨a1, a2, a3⟩, ⟨a4, a5, a6⟩, ⟨a7, a8, a9⟩, ⟨a10, a11, a12⟩, a13,
    ⟨a14, a15, a16, a17, a18, a19⟩⟩ := a
  obtain ⟨⟨b1, b2, b3⟩, ⟨b4, b5, b6⟩, ⟨b7, b8, b9⟩, ⟨b10, b11, b12⟩, b13,
    ⟨b14, b15, b16, b17, b18, b19⟩⟩ := b
  refine ⟨⟨?_, ?_, ?_⟩, ⟨?_, ?_, ?_⟩, ⟨?_, ?_, ?_⟩, ⟨?_, ?_, ?_⟩, ?_, ⟨?_, ?_, ?_, ?_, ?_, ?_⟩⟩ <;>
    simp [Matrix.mul_apply, Fin.sum_univ_six, *]

theorem transfer_uncoupled {As : List Mat} (h : ∀ A ∈ As, Uncoupled A) (i j : ℕ) :
    Uncoupled (transfer As i j) := by
  unfold transfer
  have h' : ∀ A ∈ (As.take j).drop i, Uncoupled A := fun A m =>
    h A (List.mem_of_mem_take (List.mem_of_mem_drop m))
  revert h'
  generalize (As.take j).drop i = l
  intro h'
  have : ∀ (l : List Mat) (P : Mat), (∀ A ∈ l, Uncoupled A) → Uncoupled P →
      Uncoupled (l.foldl (fun P A => A * P) P) := by
    intro l
    induction l with
    | nil => intro P _ hP; exact hP
    | cons a l ih =>
      intro P hl hP
      exact ih _ (fun A m => hl A (List.mem_cons_of_mem _ m))
        ((hl a List.mem_cons_self).mul hP)
  exact this l 1 h' Uncoupled.one

theorem det_x {A : Mat} (u : Uncoupled A) (s : Symplectic A) :
    A 0 0 * A 1 1 - A 0 1 * A 1 0 = 1 := by
  have h := s (Pi.single 0 1) (Pi.single 1 1)
  simp only [Matrix.mulVec_single_one] at h
  simp [form, u.y, u.py, u.pzeta] at h
  linarith

theorem det_y {A : Mat} (u : Uncoupled A) (s : Symplectic A) :
    A 2 2 * A 3 3 - A 2 3 * A 3 2 = 1 := by
  have h := s (Pi.single 2 1) (Pi.single 3 1)
  simp only [Matrix.mulVec_single_one] at h
  simp [form, u.x, u.px, u.pzeta] at h
  linarith

variable {betx₀ bety₀ alfx₀ alfy₀ bets₀ dx₀ dpx₀ dy₀ dpy₀ : ℝ}

/-- **C91.** In lines without coupling `beta * gamma - alpha ^ 2 = 1` in every row. -/
theorem C91_gamma {maps : List (Vec → Vec)} {As : List Mat} (l : LinearLine maps As)
    (hu : ∀ A ∈ As, Uncoupled A) (co : Vec) (hb : Betas betx₀ bety₀ bets₀) {scale : ℝ}
    (hs : scale ≠ 0) (n : ℕ) :
    let W := (tableRow co (w6d betx₀ bety₀ alfx₀ alfy₀ bets₀ dx₀ dpx₀ dy₀ dpy₀) scale maps n).W
    betx W * gamx W - alfx W ^ 2 = 1 ∧ bety W * gamy W - alfy W ^ 2 = 1 := by
  intro W
  obtain ⟨x1, x2, x3⟩ := C91_transport_x (alfx₀ := alfx₀) (alfy₀ := alfy₀) (dx₀ := dx₀)
    (dpx₀ := dpx₀) (dy₀ := dy₀) (dpy₀ := dpy₀) l co hb hs n
  obtain ⟨y1, y2, y3⟩ := C91_transport_y (alfx₀ := alfx₀) (alfy₀ := alfy₀) (dx₀ := dx₀)
    (dpx₀ := dpx₀) (dy₀ := dy₀) (dpy₀ := dpy₀) l co hb hs n
  have dx := det_x (transfer_uncoupled hu 0 n) (transfer_symplectic l.symplectic 0 n)
  have dy := det_y (transfer_uncoupled hu 0 n) (transfer_symplectic l.symplectic 0 n)
  have hx := hb.x.ne'
  have hy := hb.y.ne'
  simp only [W]
  rw [x1, x2, x3, y1, y2, y3]
  constructor
  · have g : betx₀ * ((1 + alfx₀ ^ 2) / betx₀) - alfx₀ ^ 2 = 1 := by field_simp; ring
    generalize (1 + alfx₀ ^ 2) / betx₀ = G at *
    linear_combination (transfer As 0 n 0 0 * transfer As 0 n 1 1
      - transfer As 0 n 0 1 * transfer As 0 n 1 0) ^ 2 * g
      + (transfer As 0 n 0 0 * transfer As 0 n 1 1
      - transfer As 0 n 0 1 * transfer As 0 n 1 0 + 1) * dx
  · have g : bety₀ * ((1 + alfy₀ ^ 2) / bety₀) - alfy₀ ^ 2 = 1 := by field_simp; ring
    generalize (1 + alfy₀ ^ 2) / bety₀ = G at *
    linear_combination (transfer As 0 n 2 2 * transfer As 0 n 3 3
      - transfer As 0 n 2 3 * transfer As 0 n 3 2) ^ 2 * g
      + (transfer As 0 n 2 2 * transfer As 0 n 3 3
      - transfer As 0 n 2 3 * transfer As 0 n 3 2 + 1) * dy

theorem exDrift_uncoupled : Uncoupled exDrift := by
  refine ⟨?_, ?_, ?_, ?_, ?_, ?_⟩ <;> simp [exDrift]

theorem exQuad_uncoupled : Uncoupled exQuad := by
  refine ⟨?_, ?_, ?_, ?_, ?_, ?_⟩ <;> simp [exQuad]

/-- The hypotheses of `C91_gamma` are met by a drift and a quadrupole. -/
example (b co : Vec) : betx (tableRow co (w6d 3 4 (1 / 2) (-1) 1 2 0 0 0) (1 / 1000)
    [fun z => exDrift *ᵥ z + b, fun z => exQuad *ᵥ z] 2).W
    * gamx (tableRow co (w6d 3 4 (1 / 2) (-1) 1 2 0 0 0) (1 / 1000)
    [fun z => exDrift *ᵥ z + b, fun z => exQuad *ᵥ z] 2).W
    - alfx (tableRow co (w6d 3 4 (1 / 2) (-1) 1 2 0 0 0) (1 / 1000)
    [fun z => exDrift *ᵥ z + b, fun z => exQuad *ᵥ z] 2).W ^ 2 = 1 :=
  (C91_gamma (exLine b) (fun A hA => by
    simp only [List.mem_cons, List.not_mem_nil, or_false] at hA
    rcases hA with rfl | rfl
    · exact exDrift_uncoupled
    · exact exQuad_uncoupled) co ⟨by norm_num, by norm_num, by norm_num⟩ (by norm_num) 2).1

/-! Dispersion -/

/-- `Im(conj(v_i) v_j)` of mode `k`. -/
noncomputable def area (W : Mat) (k : Fin 3) (i j : Fin 6) : ℝ :=
  W i (reCol k) * W j (imCol k) - W i (imCol k) * W j (reCol k)

theorem area_eq (W : Mat) (k : Fin 3) (i j : Fin 6) :
    area W k i j = (starRingEnd ℂ (mode W k i) * mode W k j).im := by
  simp [area, mode]
  ring

theorem area_aligned {A B : Mat} {u : Fin 3 → ℂ} (h : ∀ k, mode A k = fun i => mode B k i * u k)
    (k : Fin 3) (i j : Fin 6) : area A k i j = Complex.normSq (u k) * area B k i j := by
  rw [area_eq, area_eq, h k]
  have : starRingEnd ℂ (mode B k i * u k) * (mode B k j * u k)
      = ((Complex.normSq (u k) : ℝ) : ℂ) * (starRingEnd ℂ (mode B k i) * mode B k j) := by
    rw [map_mul, ← Complex.mul_conj]
    ring
  show (starRingEnd ℂ (mode B k i * u k) * (mode B k j * u k)).im = _
  rw [this, Complex.im_ofReal_mul]

theorem disp_eq (W : Mat) (i : Fin 6) (h : W 4 4 ≠ 0) :
    disp W i = area W 2 4 i / area W 2 4 5 := by
  have e1 : W i 5 - W i 4 * W 4 5 / W 4 4 = area W 2 4 i / W 4 4 := by
    simp [area, reCol, imCol]
    field_simp
  have e2 : W 5 5 - W 5 4 * W 4 5 / W 4 4 = area W 2 4 5 / W 4 4 := by
    simp [area, reCol, imCol]
    field_simp
  rw [disp, e1, e2, div_div_div_cancel_right₀ h]

theorem row_diag (W : Mat) (k : Fin 3) (hn : nu W k ≠ 0) (h : mode W k (reCol k) ≠ 0) :
    (latticeRow W).W (reCol k) (reCol k) ≠ 0 ∧ (latticeRow W).W (reCol k) (imCol k) = 0 := by
  have e := congrFun (latticeRow_W_mode W k) (reCol k)
  have nB : (nu W k : ℂ) ≠ 0 := by exact_mod_cast hn
  set z := mode W k (reCol k) / (nu W k : ℂ) with hz
  have hz0 : z ≠ 0 := div_ne_zero h nB
  have e' : z * Complex.exp (-(Complex.I * (z.arg : ℂ))) = (‖z‖ : ℂ) := by
    conv_lhs => rw [← Complex.norm_mul_exp_arg_mul_I z]
    rw [mul_assoc, ← Complex.exp_add]
    have : (z.arg : ℂ) * Complex.I + -(Complex.I * ((‖z‖ * Complex.exp (z.arg * Complex.I)).arg : ℂ))
        = 0 := by
      rw [Complex.norm_mul_exp_arg_mul_I]
      ring
    rw [this, Complex.exp_zero, mul_one]
  rw [e'] at e
  have r := congrArg Complex.re e
  have i := congrArg Complex.im e
  simp only [mode, Complex.ofReal_re, Complex.ofReal_im] at r i
  exact ⟨by rw [r]; exact norm_ne_zero_iff.mpr hz0, i⟩

/-- The dispersion of a row does not depend on the phase of the longitudinal mode. -/
theorem disp_row (W : Mat) (i : Fin 6) (hn : ∀ k, nu W k ≠ 0) (h : mode W 2 4 ≠ 0) :
    disp (latticeRow W).W i = area W 2 4 i / area W 2 4 5 := by
  have d := (row_diag W 2 (hn 2) h).1
  rw [disp_eq _ _ d]
  obtain ⟨u, hu, al⟩ := aligned_row W hn
  rw [area_aligned al, area_aligned al]
  exact mul_div_mul_left _ _ (by simpa using hu 2)

theorem area_neg (W : Mat) (k : Fin 3) (i j : Fin 6) : area (-W) k i j = area W k i j := by
  simp [area]

theorem transfer_fixes_zeta {As : List Mat}
    (hz : ∀ A ∈ As, A *ᵥ Pi.single 4 1 = Pi.single 4 1) (j m : ℕ) :
    transfer As j m *ᵥ Pi.single 4 1 = Pi.single 4 1 := by
  unfold transfer
  have h' : ∀ A ∈ (As.take m).drop j, A *ᵥ Pi.single 4 1 = Pi.single 4 1 := fun A k =>
    hz A (List.mem_of_mem_take (List.mem_of_mem_drop k))
  revert h'
  generalize (As.take m).drop j = q
  intro h'
  have : ∀ (q : List Mat) (P : Mat), (∀ A ∈ q, A *ᵥ Pi.single 4 (1 : ℝ) = Pi.single 4 1) →
      P *ᵥ Pi.single 4 (1 : ℝ) = Pi.single 4 1 →
      (q.foldl (fun P A => A * P) P) *ᵥ Pi.single 4 (1 : ℝ) = Pi.single 4 1 := by
    intro q
    induction q with
    | nil => intro P _ hP; exact hP
    | cons a q ih =>
      intro P hl hP
      refine ih _ (fun A k => hl A (List.mem_cons_of_mem _ k)) ?_
      rw [← Matrix.mulVec_mulVec, hP, hl a List.mem_cons_self]
  exact this q 1 h' (Matrix.one_mulVec _)

/-- A symplectic matrix which fixes the direction of `zeta` conserves `pzeta`. -/
theorem conserves_pzeta {A : Mat} (hs : Symplectic A) (hz : A *ᵥ Pi.single 4 1 = Pi.single 4 1) :
    A 5 = Pi.single 5 1 := by
  funext j
  have h := hs (Pi.single 4 1) (Pi.single j 1)
  rw [hz, Matrix.mulVec_single_one] at h
  fin_cases j <;> simp [form] at h <;> simp [h]

/-- The vector of phase space which the dispersion functions of `W` stand for. -/
noncomputable def dispVec (W : Mat) : Vec := ![disp W 0, disp W 1, disp W 2, disp W 3, 0, 1]

/-- **C92.** Dispersion along a line without RF: in every row it is the derivative of the orbit with
respect to the momentum, i.e. the transfer matrix applied to the dispersion of the optics at the
start.  (The transverse motion does not depend on `zeta`; the planes may be coupled.) -/
theorem C92_dispersion {maps : List (Vec → Vec)} {As : List Mat} (l : LinearLine maps As)
    (hz : ∀ A ∈ As, A *ᵥ Pi.single 4 1 = Pi.single 4 1)
    (co : Vec) {W : Mat} (r : Regular W) {c : ℝ} (hc : ∀ i, W i 4 = if i = 4 then c else 0)
    {scale : ℝ} (hs : scale ≠ 0) (n : ℕ) (i : Fin 4) :
    disp (tableRow co W scale maps n).W (Fin.castLE (by omega) i)
      = (transfer As 0 n *ᵥ dispVec W) (Fin.castLE (by omega) i) := by
  have hn : ∀ m k, nu (wsRow co W scale maps m) k ≠ 0 := fun m k => by
    rw [nu_wsRow l co _ hs]; exact regular_nu r k
  have fix := transfer_fixes_zeta hz 0 n
  have last := conserves_pzeta (transfer_symplectic l.symplectic 0 n) fix
  have col4 : ∀ i, transfer As 0 n i 4 = if i = 4 then 1 else 0 := by
    intro i
    have := congrFun fix i
    rw [Matrix.mulVec_single_one] at this
    rw [← Matrix.col_apply (transfer As 0 n), this]
    simp [Pi.single_apply]
  have c55 : c * W 5 5 ≠ 0 := by
    have := r.zeta
    simpa [form, hc] using this
  have c0 : c ≠ 0 := left_ne_zero_of_mul c55
  have h55 : W 5 5 ≠ 0 := right_ne_zero_of_mul c55
  have e4 : ∀ i, (transfer As 0 n * W) i 4 = if i = 4 then c else 0 := by
    intro i
    simp only [Matrix.mul_apply, Fin.sum_univ_six, hc, col4]
    simp
  have e55 : (transfer As 0 n * W) 5 5 = W 5 5 := by
    simp [Matrix.mul_apply, Fin.sum_univ_six, last]
  have w44 : mode (wsRow co W scale maps n) 2 4 ≠ 0 := by
    rw [wsRow_eq l.affine co _ hs]
    intro h
    have q := congrArg Complex.re h
    simp only [mode, reCol, Matrix.neg_apply, Complex.zero_re] at q
    have : (transfer As 0 n * W) 4 4 = 0 := by
      have q' : -(transfer As 0 n * W) 4 4 = 0 := q
      linarith
    rw [e4 4] at this
    exact c0 (by simpa using this)
  rw [tableRow, disp_row _ _ (hn n) w44, wsRow_eq l.affine co _ hs, area_neg, area_neg]
  have den : area (transfer As 0 n * W) 2 4 5 = c * W 5 5 := by
    simp [area, reCol, imCol, e4, e55]
  have num : ∀ i : Fin 6, i ≠ 4 → area (transfer As 0 n * W) 2 4 i = c * (transfer As 0 n * W) i 5 := by
    intro i hi
    simp [area, reCol, imCol, e4, hi]
  have d0 : ∀ j : Fin 6, j ≠ 4 → disp W j = W j 5 / W 5 5 := by
    intro j hj
    simp [disp, hc, hj]
  have n4 : (Fin.castLE (by omega : 4 ≤ 6) i) ≠ 4 := by
    intro h
    have := congrArg Fin.val h
    simp at this
    omega
  rw [den, num _ n4, mul_div_mul_left _ _ c0, dispVec, d0 0 (by decide), d0 1 (by decide),
    d0 2 (by decide), d0 3 (by decide)]
  have q4 := col4 (Fin.castLE (by omega) i)
  rw [if_neg n4] at q4
  simp only [Matrix.mul_apply, Matrix.mulVec, dotProduct, Fin.sum_univ_six, q4]
  simp
  field_simp

theorem w6d_col4 (i : Fin 6) : w6d betx₀ bety₀ alfx₀ alfy₀ bets₀ dx₀ dpx₀ dy₀ dpy₀ i 4
    = if i = 4 then √ bets₀ else 0 := by
  fin_cases i <;> simp [w6d]

/-- **C92.** With the dispersion given by the user at the start (and the default `bets = 1`). -/
theorem C92_dispersion_init {maps : List (Vec → Vec)} {As : List Mat} (l : LinearLine maps As)
    (hz : ∀ A ∈ As, A *ᵥ Pi.single 4 1 = Pi.single 4 1)
    (co : Vec) (hx : 0 < betx₀) (hy : 0 < bety₀) {scale : ℝ} (hs : scale ≠ 0) (n : ℕ) (i : Fin 4) :
    disp (tableRow co (w6d betx₀ bety₀ alfx₀ alfy₀ 1 dx₀ dpx₀ dy₀ dpy₀) scale maps n).W
        (Fin.castLE (by omega) i)
      = (transfer As 0 n *ᵥ ![dx₀, dpx₀, dy₀, dpy₀, 0, 1]) (Fin.castLE (by omega) i) := by
  rw [C92_dispersion l hz co (regular_w6d ⟨hx, hy, one_pos⟩) w6d_col4 hs n i]
  have : dispVec (w6d betx₀ bety₀ alfx₀ alfy₀ 1 dx₀ dpx₀ dy₀ dpy₀) = ![dx₀, dpx₀, dy₀, dpy₀, 0, 1] := by
    funext j
    fin_cases j <;> simp [dispVec, disp, w6d]
  rw [this]

/-- **C92 (violation).** With another `bets` the dispersion of the optics at the start is not the one
which was given: here `dx = 1` is asked for and the table shows `dx = 2`. -/
theorem C92_bets_violated (co : Vec) :
    disp (tableRow co (w6d 1 1 0 0 4 1 0 0 0) 1 [] 0).W 0 = 2 := by
  have l : LinearLine [] [] := ⟨List.Forall₂.nil, fun A h => by simp at h⟩
  have := C92_dispersion (W := w6d 1 1 0 0 4 1 0 0 0) l (fun A h => by simp at h) co
    (regular_w6d ⟨one_pos, one_pos, by norm_num⟩) w6d_col4 (scale := 1) one_ne_zero 0 0
  have s4 : √ (4 : ℝ) = 2 := by
    rw [show (4 : ℝ) = 2 ^ 2 by norm_num]
    exact Real.sqrt_sq (by norm_num)
  rw [transfer_self, Matrix.one_mulVec] at this
  refine Eq.trans this ?_
  simp [dispVec, disp, w6d, s4, Fin.castLE]

/-- **C92.** In general (with RF) the dispersion is the motion in the longitudinal mode: the
combination of its two columns which has `zeta = 0` and `pzeta = 1`. -/
theorem C92_mode (W : Mat) (h : W 4 4 ≠ 0) (hd : area W 2 4 5 ≠ 0) :
    ∃ a b, W *ᵥ ![0, 0, 0, 0, a, b] = dispVec W := by
  refine ⟨-W 4 5 / area W 2 4 5, W 4 4 / area W 2 4 5, ?_⟩
  have d : ∀ i, disp W i = area W 2 4 i / area W 2 4 5 := fun i => disp_eq W i h
  have ha : ∀ i, area W 2 4 i = W 4 4 * W i 5 - W 4 5 * W i 4 := fun i => by
    simp [area, reCol, imCol]
  rw [dispVec, d, d, d, d]
  have h5 := ha 5
  have h4 := ha 0
  have h3 := ha 1
  have h2 := ha 2
  have h1 := ha 3
  generalize area W 2 4 5 = D at *
  funext i
  fin_cases i <;> simp [Matrix.mulVec, dotProduct, Fin.sum_univ_six, h1, h2, h3, h4] <;> field_simp
  · ring
  · ring
  · ring
  · ring
  · ring
  · rw [h5]; ring

/-- The crab dispersion, likewise: `zeta = 1` and `pzeta = 0`. -/
theorem C92_mode_zeta (W : Mat) (h : W 5 5 ≠ 0) (hd : area W 2 4 5 ≠ 0) :
    ∃ a b, W *ᵥ ![0, 0, 0, 0, a, b]
      = ![dispZeta W 0, dispZeta W 1, dispZeta W 2, dispZeta W 3, 1, 0] := by
  refine ⟨W 5 5 / area W 2 4 5, -W 5 4 / area W 2 4 5, ?_⟩
  have hD : area W 2 4 5 = W 4 4 * W 5 5 - W 4 5 * W 5 4 := by simp [area, reCol, imCol]
  have d : ∀ i, dispZeta W i = (W i 4 * W 5 5 - W i 5 * W 5 4) / area W 2 4 5 := fun i => by
    have e1 : W i 4 - W i 5 * W 5 4 / W 5 5 = (W i 4 * W 5 5 - W i 5 * W 5 4) / W 5 5 := by
      field_simp
    have e2 : W 4 4 - W 4 5 * W 5 4 / W 5 5 = area W 2 4 5 / W 5 5 := by
      rw [hD]; field_simp
    rw [dispZeta, e1, e2, div_div_div_cancel_right₀ h]
  rw [d, d, d, d]
  generalize area W 2 4 5 = D at *
  funext i
  fin_cases i <;> simp [Matrix.mulVec, dotProduct, Fin.sum_univ_six] <;> field_simp
  · ring
  · ring
  · ring
  · ring
  · rw [hD]; ring
  · ring

/-! The 4d method -/

theorem det_w4d_inv (W : Mat) (D : Fin 4 → ℝ) (B : Matrix (Fin 4) (Fin 4) ℝ)
    (h : block4 W * B = 1) : IsUnit (w4d W D 0).det := by
  apply Matrix.isUnit_det_of_right_inverse (B :=
    !![B 0 0, B 0 1, B 0 2, B 0 3, 0, -(B *ᵥ D) 0;
       B 1 0, B 1 1, B 1 2, B 1 3, 0, -(B *ᵥ D) 1;
       B 2 0, B 2 1, B 2 2, B 2 3, 0, -(B *ᵥ D) 2;
       B 3 0, B 3 1, B 3 2, B 3 3, 0, -(B *ᵥ D) 3;
       0, 0, 0, 0, 1, 0;
       0, 0, 0, 0, 0, 1])
  have hb : ∀ i j : Fin 4, ∑ k, block4 W i k * B k j = (1 : Matrix (Fin 4) (Fin 4) ℝ) i j := by
    intro i j
    rw [← h, Matrix.mul_apply]
  have hv : ∀ i : Fin 4, ∑ k, block4 W i k * (B *ᵥ D) k = D i := by
    intro i
    have : (block4 W *ᵥ (B *ᵥ D)) i = D i := by rw [Matrix.mulVec_mulVec, h, Matrix.one_mulVec]
    simpa [Matrix.mulVec, dotProduct] using this
  simp only [Fin.sum_univ_four] at hb hv
  have hb' := fun i j => hb i j
  ext i j
  generalize B *ᵥ D = v at *
  fin_cases i <;> fin_cases j <;>
    simp only [w4d, Matrix.mul_apply, Fin.sum_univ_six] <;> simp
  all_goals first
    | (have q := hb 0 0; have q1 := hb 0 1; have q2 := hb 0 2; have q3 := hb 0 3; have q4 := hv 0
       simp [block4, Fin.castLE] at q q1 q2 q3 q4; linarith)
    | (have q := hb 1 0; have q1 := hb 1 1; have q2 := hb 1 2; have q3 := hb 1 3; have q4 := hv 1
       simp [block4, Fin.castLE] at q q1 q2 q3 q4; linarith)
    | (have q := hb 2 0; have q1 := hb 2 1; have q2 := hb 2 2; have q3 := hb 2 3; have q4 := hv 2
       simp [block4, Fin.castLE] at q q1 q2 q3 q4; linarith)
    | (have q := hb 3 0; have q1 := hb 3 1; have q2 := hb 3 2; have q3 := hb 3 3; have q4 := hv 3
       simp [block4, Fin.castLE] at q q1 q2 q3 q4; linarith)

/-- **C92.** The periodic dispersion of the 4d method is reproduced by the one-turn matrix. -/
theorem C92_periodic (M : Mat) (h : IsUnit (block4 M - 1).det) (i : Fin 4) :
    (M *ᵥ ![periodicDisp M 5 0, periodicDisp M 5 1, periodicDisp M 5 2, periodicDisp M 5 3, 0, 1])
      (Fin.castLE (by omega) i) = periodicDisp M 5 i := by
  have e : (block4 M - 1) *ᵥ periodicDisp M 5 = -column4 M 5 := by
    rw [periodicDisp, Matrix.mulVec_neg, Matrix.mulVec_mulVec, Matrix.mul_nonsing_inv _ h,
      Matrix.one_mulVec]
  have e' := congrFun e i
  rw [Matrix.sub_mulVec, Matrix.one_mulVec] at e'
  simp only [Pi.sub_apply, Pi.neg_apply, Matrix.mulVec, dotProduct, Fin.sum_univ_four, block4,
    column4] at e'
  simp only [Matrix.mulVec, dotProduct, Fin.sum_univ_six]
  simp
  simp [Fin.castLE] at e' ⊢
  linarith

/-- **C92.** Periodic twiss with the 4d method: the dispersion of the table is periodic, and in each
row it is the closed off-momentum orbit per unit of `pzeta`, for every coupled or uncoupled ring
without RF. -/
theorem C92_ring {maps : List (Vec → Vec)} {As : List Mat} (l : LinearLine maps As)
    (hz : ∀ A ∈ As, A *ᵥ Pi.single 4 1 = Pi.single 4 1) (co : Vec) (W : Mat) (n : ℕ)
    (h : IsUnit (block4 (transfer As 0 n) - 1).det)
    (r : Regular (w4d W (periodicDisp (transfer As 0 n) 5) (periodicDisp (transfer As 0 n) 4)))
    {scale : ℝ} (hs : scale ≠ 0) (i : Fin 4) :
    let W₀ := w4d W (periodicDisp (transfer As 0 n) 5) (periodicDisp (transfer As 0 n) 4)
    disp (tableRow co W₀ scale maps 0).W (Fin.castLE (by omega) i) = periodicDisp (transfer As 0 n) 5 i
    ∧ disp (tableRow co W₀ scale maps n).W (Fin.castLE (by omega) i)
        = periodicDisp (transfer As 0 n) 5 i := by
  intro W₀
  have fix := transfer_fixes_zeta hz 0 n
  have c4 : periodicDisp (transfer As 0 n) 4 = 0 := by
    have : column4 (transfer As 0 n) 4 = 0 := by
      funext j
      have := congrFun fix (Fin.castLE (by omega) j)
      rw [Matrix.mulVec_single_one, Matrix.col_apply] at this
      rw [column4, this]
      fin_cases j <;> simp
    rw [periodicDisp, this]
    simp
  have hc : ∀ i, W₀ i 4 = if i = 4 then 1 else 0 := by
    intro i
    simp only [W₀, c4]
    fin_cases i <;> simp [w4d]
  have dv : dispVec W₀ = ![periodicDisp (transfer As 0 n) 5 0, periodicDisp (transfer As 0 n) 5 1,
      periodicDisp (transfer As 0 n) 5 2, periodicDisp (transfer As 0 n) 5 3, 0, 1] := by
    simp only [W₀, c4]
    funext j
    fin_cases j <;> simp [dispVec, disp, w4d]
  constructor
  · rw [C92_dispersion l hz co r hc hs 0 i, transfer_self, Matrix.one_mulVec, dv]
    fin_cases i <;> simp [Fin.castLE]
  · rw [C92_dispersion l hz co r hc hs n i, dv, C92_periodic _ h]

/-- A ring with a bend-like element has such a periodic dispersion. -/
noncomputable def exCell : Mat := !![0, 2, 0, 0, 0, 1; -1 / 2, 0, 0, 0, 0, 0; 0, 0, 0, 1, 0, 0; 0, 0, -1, 0, 0, 0;
  -1 / 2, 0, 0, 0, 1, 3; 0, 0, 0, 0, 0, 1]

example : Symplectic exCell ∧ exCell *ᵥ Pi.single 4 1 = Pi.single 4 1
    ∧ IsUnit (block4 (transfer [exCell] 0 1) - 1).det := by
  have t : transfer [exCell] 0 1 = exCell := by
    have : ∀ A : Mat, transfer [A] 0 1 = A := fun A => by
      have : transfer [A] 0 1 = A * 1 := rfl
      rw [this, Matrix.mul_one]
    exact this _
  refine ⟨?_, ?_, ?_⟩
  · intro z w
    simp [form, exCell, Matrix.mulVec, dotProduct, Fin.sum_univ_six]
    ring
  · rw [Matrix.mulVec_single_one]
    funext i
    fin_cases i <;> simp [exCell]
  · rw [t]
    apply Matrix.isUnit_det_of_right_inverse (B :=
      !![-1 / 2, -1, 0, 0; 1 / 4, -1 / 2, 0, 0; 0, 0, -1 / 2, -1 / 2; 0, 0, 1 / 2, -1 / 2])
    ext i j
    fin_cases i <;> fin_cases j <;>
      simp [block4, exCell, Matrix.mul_apply, Fin.sum_univ_four, Fin.castLE] <;> norm_num

end Verif.Twiss
