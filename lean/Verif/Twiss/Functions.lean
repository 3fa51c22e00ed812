import Verif.Twiss.Optics

/-! # Beta, alpha, gamma functions, dispersion -/

namespace Verif.Twiss

open Matrix

/-- The product from which the lattice functions are made: `Re(v_i conj(v_j))` of mode `k`. -/
noncomputable def corr (W : Mat) (k : Fin 3) (i j : Fin 6) : ℝ :=
  (mode W k i * starRingEnd ℂ (mode W k j)).re

theorem corr_row (W : Mat) (k : Fin 3) (i j : Fin 6) :
    corr (latticeRow W).W k i j = corr W k i j / nu W k ^ 2 := by
  rw [corr, latticeRow_W_mode]
  set z := Complex.exp (-(Complex.I * ((mode W k (reCol k) / (nu W k : ℂ)).arg : ℂ))) with hz
  have hn : z * starRingEnd ℂ z = 1 := by
    rw [Complex.mul_conj, Complex.normSq_eq_norm_sq, hz]
    have : -(Complex.I * ((mode W k (reCol k) / (nu W k : ℂ)).arg : ℂ))
        = ((-(mode W k (reCol k) / (nu W k : ℂ)).arg : ℝ) : ℂ) * Complex.I := by
      push_cast; ring
    rw [this, Complex.norm_exp_ofReal_mul_I]
    simp
  have e : mode W k i / (nu W k : ℂ) * z * starRingEnd ℂ (mode W k j / (nu W k : ℂ) * z)
      = ((1 / nu W k ^ 2 : ℝ) : ℂ) * (mode W k i * starRingEnd ℂ (mode W k j)) := by
    rw [map_mul, map_div₀, Complex.conj_ofReal]
    push_cast
    rw [show mode W k i / (nu W k : ℂ) * z * (starRingEnd ℂ (mode W k j) / (nu W k : ℂ)
        * starRingEnd ℂ z) = (z * starRingEnd ℂ z) * (mode W k i / (nu W k : ℂ)
        * (starRingEnd ℂ (mode W k j) / (nu W k : ℂ))) by ring, hn]
    ring
  show (mode W k i / (nu W k : ℂ) * z * starRingEnd ℂ (mode W k j / (nu W k : ℂ) * z)).re = _
  rw [e, Complex.re_ofReal_mul]
  rw [corr]
  ring

theorem betx_eq (W : Mat) : betx W = corr W 0 0 0 := by simp [betx, corr, mode, reCol, imCol]; ring
theorem gamx_eq (W : Mat) : gamx W = corr W 0 1 1 := by simp [gamx, corr, mode, reCol, imCol]; ring
theorem alfx_eq (W : Mat) : alfx W = -corr W 0 0 1 := by simp [alfx, corr, mode, reCol, imCol]; ring
theorem bety_eq (W : Mat) : bety W = corr W 1 2 2 := by simp [bety, corr, mode, reCol, imCol]; ring
theorem gamy_eq (W : Mat) : gamy W = corr W 1 3 3 := by simp [gamy, corr, mode, reCol, imCol]; ring
theorem alfy_eq (W : Mat) : alfy W = -corr W 1 2 3 := by simp [alfy, corr, mode, reCol, imCol]; ring

theorem corr_neg (W : Mat) (k : Fin 3) (i j : Fin 6) : corr (-W) k i j = corr W k i j := by
  simp [corr, mode]

theorem corr_mul (M W : Mat) (k : Fin 3) (i j : Fin 6) :
    corr (M * W) k i j = (M *ᵥ fun a => W a (reCol k)) i * (M *ᵥ fun a => W a (reCol k)) j
      + (M *ᵥ fun a => W a (imCol k)) i * (M *ᵥ fun a => W a (imCol k)) j := by
  simp [corr, mode, Matrix.mul_apply, Matrix.mulVec, dotProduct]

/-- Positive beta functions. -/
structure Betas (betx bety bets : ℝ) : Prop where
  x : 0 < betx
  y : 0 < bety
  s : 0 < bets

theorem nu_w6d {betx bety alfx alfy bets dx dpx dy dpy : ℝ} (h : Betas betx bety bets) :
    nu (w6d betx bety alfx alfy bets dx dpx dy dpy) = fun _ => 1 := by
  have hx := (Real.sqrt_pos.mpr h.x).ne'
  have hy := (Real.sqrt_pos.mpr h.y).ne'
  have hs := (Real.sqrt_pos.mpr h.s).ne'
  funext k
  have : pairNorm (mode (w6d betx bety alfx alfy bets dx dpx dy dpy) k) = 1 := by
    fin_cases k <;>
      (simp [pairNorm, mode, reCol, imCol, w6d, S, dotProduct, Matrix.mulVec, Fin.sum_univ_six]
       field_simp)
  rw [nu, this]
  simp

theorem det_w6d {betx bety alfx alfy bets dx dpx dy dpy : ℝ} (h : Betas betx bety bets) :
    IsUnit (w6d betx bety alfx alfy bets dx dpx dy dpy).det := by
  have hx := (Real.sqrt_pos.mpr h.x).ne'
  have hy := (Real.sqrt_pos.mpr h.y).ne'
  have hs := (Real.sqrt_pos.mpr h.s).ne'
  apply Matrix.isUnit_det_of_right_inverse (B :=
    !![1 / √ betx, 0, 0, 0, 0, -dx * √ bets / √ betx;
       alfx / √ betx, √ betx, 0, 0, 0, -(alfx / √ betx * dx + √ betx * dpx) * √ bets;
       0, 0, 1 / √ bety, 0, 0, -dy * √ bets / √ bety;
       0, 0, alfy / √ bety, √ bety, 0, -(alfy / √ bety * dy + √ bety * dpy) * √ bets;
       0, 0, 0, 0, 1 / √ bets, 0;
       0, 0, 0, 0, 0, √ bets])
  ext i j
  fin_cases i <;> fin_cases j <;>
    (simp [w6d, Matrix.mul_apply, Fin.sum_univ_six]
     try field_simp
     try ring)

theorem regular_w6d {betx bety alfx alfy bets dx dpx dy dpy : ℝ} (h : Betas betx bety bets) :
    Regular (w6d betx bety alfx alfy bets dx dpx dy dpy) := by
  have hx := (Real.sqrt_pos.mpr h.x).ne'
  have hy := (Real.sqrt_pos.mpr h.y).ne'
  have hs := (Real.sqrt_pos.mpr h.s).ne'
  refine ⟨det_w6d h, ?_, ?_, ?_⟩ <;> simp [form, w6d, hx, hy, hs]

variable {betx₀ bety₀ alfx₀ alfy₀ bets₀ dx₀ dpx₀ dy₀ dpy₀ : ℝ}

theorem corr_tableRow {maps : List (Vec → Vec)} {As : List Mat} (l : LinearLine maps As)
    (co : Vec) (hb : Betas betx₀ bety₀ bets₀) {scale : ℝ} (hs : scale ≠ 0) (n : ℕ) (k : Fin 3)
    (i j : Fin 6) :
    corr (tableRow co (w6d betx₀ bety₀ alfx₀ alfy₀ bets₀ dx₀ dpx₀ dy₀ dpy₀) scale maps n).W k i j
      = corr (transfer As 0 n * w6d betx₀ bety₀ alfx₀ alfy₀ bets₀ dx₀ dpx₀ dy₀ dpy₀) k i j := by
  rw [tableRow, corr_row, nu_wsRow l co _ hs, nu_w6d hb, wsRow_eq l.affine co _ hs, corr_neg]
  simp

/-- **C91.** Transport of the horizontal Twiss parameters given at the start, through every line of
affine symplectic elements, with the entries of the transfer matrix: the textbook formulas. -/
theorem C91_transport_x {maps : List (Vec → Vec)} {As : List Mat} (l : LinearLine maps As)
    (co : Vec) (hb : Betas betx₀ bety₀ bets₀) {scale : ℝ} (hs : scale ≠ 0) (n : ℕ) :
    let W := (tableRow co (w6d betx₀ bety₀ alfx₀ alfy₀ bets₀ dx₀ dpx₀ dy₀ dpy₀) scale maps n).W
    let R := transfer As 0 n
    let gamx₀ := (1 + alfx₀ ^ 2) / betx₀
    betx W = R 0 0 ^ 2 * betx₀ - 2 * R 0 0 * R 0 1 * alfx₀ + R 0 1 ^ 2 * gamx₀
    ∧ alfx W = -R 0 0 * R 1 0 * betx₀ + (R 0 0 * R 1 1 + R 0 1 * R 1 0) * alfx₀
        - R 0 1 * R 1 1 * gamx₀
    ∧ gamx W = R 1 0 ^ 2 * betx₀ - 2 * R 1 0 * R 1 1 * alfx₀ + R 1 1 ^ 2 * gamx₀ := by
  intro W R gamx₀
  have hx := Real.sqrt_pos.mpr hb.x
  have hq : √ betx₀ ^ 2 = betx₀ := Real.sq_sqrt hb.x.le
  have e := corr_tableRow (alfx₀ := alfx₀) (alfy₀ := alfy₀) (dx₀ := dx₀) (dpx₀ := dpx₀) (dy₀ := dy₀)
    (dpy₀ := dpy₀) l co hb hs n 0
  have g0 : gamx₀ = (1 + alfx₀ ^ 2) / √ betx₀ ^ 2 := by rw [hq]
  rw [betx_eq, alfx_eq, gamx_eq, e, e, e, corr_mul, corr_mul, corr_mul, g0]
  simp only [R]
  generalize transfer As 0 n = P
  simp [Matrix.mulVec, dotProduct, Fin.sum_univ_six, reCol, imCol, w6d]
  have hb0 : betx₀ = √ betx₀ ^ 2 := hq.symm
  generalize √ betx₀ = q at *
  subst hb0
  refine ⟨?_, ?_, ?_⟩ <;> (field_simp; ring)

/-- **C91.** The vertical plane. -/
theorem C91_transport_y {maps : List (Vec → Vec)} {As : List Mat} (l : LinearLine maps As)
    (co : Vec) (hb : Betas betx₀ bety₀ bets₀) {scale : ℝ} (hs : scale ≠ 0) (n : ℕ) :
    let W := (tableRow co (w6d betx₀ bety₀ alfx₀ alfy₀ bets₀ dx₀ dpx₀ dy₀ dpy₀) scale maps n).W
    let R := transfer As 0 n
    let gamy₀ := (1 + alfy₀ ^ 2) / bety₀
    bety W = R 2 2 ^ 2 * bety₀ - 2 * R 2 2 * R 2 3 * alfy₀ + R 2 3 ^ 2 * gamy₀
    ∧ alfy W = -R 2 2 * R 3 2 * bety₀ + (R 2 2 * R 3 3 + R 2 3 * R 3 2) * alfy₀
        - R 2 3 * R 3 3 * gamy₀
    ∧ gamy W = R 3 2 ^ 2 * bety₀ - 2 * R 3 2 * R 3 3 * alfy₀ + R 3 3 ^ 2 * gamy₀ := by
  intro W R gamy₀
  have hy := Real.sqrt_pos.mpr hb.y
  have hq : √ bety₀ ^ 2 = bety₀ := Real.sq_sqrt hb.y.le
  have e := corr_tableRow (alfx₀ := alfx₀) (alfy₀ := alfy₀) (dx₀ := dx₀) (dpx₀ := dpx₀) (dy₀ := dy₀)
    (dpy₀ := dpy₀) l co hb hs n 1
  have g0 : gamy₀ = (1 + alfy₀ ^ 2) / √ bety₀ ^ 2 := by rw [hq]
  rw [bety_eq, alfy_eq, gamy_eq, e, e, e, corr_mul, corr_mul, corr_mul, g0]
  simp only [R]
  generalize transfer As 0 n = P
  simp [Matrix.mulVec, dotProduct, Fin.sum_univ_six, reCol, imCol, w6d]
  have hb0 : bety₀ = √ bety₀ ^ 2 := hq.symm
  generalize √ bety₀ = q at *
  subst hb0
  refine ⟨?_, ?_, ?_⟩ <;> (field_simp; ring)

/-- **C91.** In the first row the beta and alpha functions are those given by the user. -/
theorem C91_initial {maps : List (Vec → Vec)} {As : List Mat} (l : LinearLine maps As)
    (co : Vec) (hb : Betas betx₀ bety₀ bets₀) {scale : ℝ} (hs : scale ≠ 0) :
    let W := (tableRow co (w6d betx₀ bety₀ alfx₀ alfy₀ bets₀ dx₀ dpx₀ dy₀ dpy₀) scale maps 0).W
    betx W = betx₀ ∧ alfx W = alfx₀ ∧ bety W = bety₀ ∧ alfy W = alfy₀ := by
  have hx := C91_transport_x (alfx₀ := alfx₀) (alfy₀ := alfy₀) (dx₀ := dx₀) (dpx₀ := dpx₀)
    (dy₀ := dy₀) (dpy₀ := dpy₀) l co hb hs 0
  have hy := C91_transport_y (alfx₀ := alfx₀) (alfy₀ := alfy₀) (dx₀ := dx₀) (dpx₀ := dpx₀)
    (dy₀ := dy₀) (dpy₀ := dpy₀) l co hb hs 0
  simp only [transfer_self] at hx hy
  refine ⟨?_, ?_, ?_, ?_⟩
  · rw [hx.1]; simp
  · rw [hx.2.1]; simp
  · rw [hy.1]; simp
  · rw [hy.2.1]; simp

/-- The phase and the amplitude of mode `k` in its own plane give the component of the raw matrix. -/
theorem polar (W : Mat) (k : Fin 3) (h1 : nu W k = 1) :
    mode W k (reCol k) = ((√ (corr (latticeRow W).W k (reCol k) (reCol k)) : ℝ) : ℂ)
      * Complex.exp (((latticeRow W).phi k : ℂ) * Complex.I) := by
  have e : (latticeRow W).phi k = (mode W k (reCol k)).arg := by
    show (mode (renormalize W) k (reCol k)).arg = _
    rw [renormalize, mode_ofModes, h1]
    simp
  have n : √ (corr (latticeRow W).W k (reCol k) (reCol k)) = ‖mode W k (reCol k)‖ := by
    rw [corr_row, h1, corr, Complex.mul_conj, Complex.ofReal_re, Complex.normSq_eq_norm_sq]
    simp
  rw [e, n, Complex.norm_mul_exp_arg_mul_I]

theorem transfer_from_phase {a b al q B φ φ0 : ℝ} (hq : 0 < q)
    (h0 : Complex.ofReal (-q) = (q : ℂ) * Complex.exp ((φ0 : ℂ) * Complex.I))
    (h : (⟨-(a * q + b * (-al / q)), -(b * (1 / q))⟩ : ℂ)
      = (B : ℂ) * Complex.exp ((φ : ℂ) * Complex.I)) :
    a = B / q * (Real.cos (φ - φ0) + al * Real.sin (φ - φ0)) ∧ b = q * B * Real.sin (φ - φ0) := by
  rw [Complex.exp_mul_I, ← Complex.ofReal_cos, ← Complex.ofReal_sin] at h h0
  have c0 := congrArg Complex.re h0
  have s0 := congrArg Complex.im h0
  have c1 := congrArg Complex.re h
  have s1 := congrArg Complex.im h
  simp [-Complex.ofReal_cos, -Complex.ofReal_sin] at c0 s0 c1 s1
  have c0' : Real.cos φ0 = -1 := by
    have : q * (Real.cos φ0 + 1) = 0 := by linarith
    rcases mul_eq_zero.mp this with h | h
    · exact absurd h hq.ne'
    · linarith
  have s0' : Real.sin φ0 = 0 := by
    rcases s0 with h | h
    · exact absurd h hq.ne'
    · exact h
  rw [Real.cos_sub, Real.sin_sub, c0', s0']
  have hb : b = -q * B * Real.sin φ := by
    have : -(q⁻¹ * b) = B * Real.sin φ := by linarith
    field_simp at this
    linarith
  have ha : a = B / q * (-Real.cos φ - al * Real.sin φ) := by
    field_simp
    have : a * q ^ 2 - b * al = -(B * Real.cos φ * q) := by
      have h3 : -(a * q + b * (-al / q)) = B * Real.cos φ := by linarith
      field_simp at h3
      linarith
    rw [hb] at this
    have hq2 : q ≠ 0 := hq.ne'
    have : q * (a * q) = q * (B * (-Real.cos φ - al * Real.sin φ)) := by linarith
    exact mul_left_cancel₀ hq2 this
  constructor
  · rw [ha]; ring
  · rw [hb]; ring

/-- **C91.** Courant-Snyder form of the transfer matrix: with the beta functions and the phase advance
of the table, in each plane. -/
theorem C91_courant_snyder {maps : List (Vec → Vec)} {As : List Mat} (l : LinearLine maps As)
    (co : Vec) (hb : Betas betx₀ bety₀ bets₀) {scale : ℝ} (hs : scale ≠ 0) (n : ℕ) :
    let row := tableRow co (w6d betx₀ bety₀ alfx₀ alfy₀ bets₀ dx₀ dpx₀ dy₀ dpy₀) scale maps
    let R := transfer As 0 n
    let μ := (row n).phi 0 - (row 0).phi 0
    let ν := (row n).phi 1 - (row 0).phi 1
    R 0 0 = √ (betx (row n).W) / √ betx₀ * (Real.cos μ + alfx₀ * Real.sin μ)
    ∧ R 0 1 = √ betx₀ * √ (betx (row n).W) * Real.sin μ
    ∧ R 2 2 = √ (bety (row n).W) / √ bety₀ * (Real.cos ν + alfy₀ * Real.sin ν)
    ∧ R 2 3 = √ bety₀ * √ (bety (row n).W) * Real.sin ν := by
  intro row R μ ν
  have hx := Real.sqrt_pos.mpr hb.x
  have hy := Real.sqrt_pos.mpr hb.y
  set W₀ := w6d betx₀ bety₀ alfx₀ alfy₀ bets₀ dx₀ dpx₀ dy₀ dpy₀ with hW
  have hn : ∀ m k, nu (wsRow co W₀ scale maps m) k = 1 := fun m k => by
    rw [nu_wsRow l co _ hs, hW, nu_w6d hb]
  have ini := C91_initial (alfx₀ := alfx₀) (alfy₀ := alfy₀) (dx₀ := dx₀) (dpx₀ := dpx₀)
    (dy₀ := dy₀) (dpy₀ := dpy₀) l co hb hs
  have p0 := fun k => polar (wsRow co W₀ scale maps 0) k (hn 0 k)
  have pn := fun k => polar (wsRow co W₀ scale maps n) k (hn n k)
  have x : R 0 0 = √ (betx (row n).W) / √ betx₀ * (Real.cos μ + alfx₀ * Real.sin μ)
      ∧ R 0 1 = √ betx₀ * √ (betx (row n).W) * Real.sin μ := by
    apply transfer_from_phase hx
    · have := p0 0
      rw [show corr (latticeRow (wsRow co W₀ scale maps 0)).W 0 (reCol 0) (reCol 0) = betx₀ by
        rw [show (reCol 0 : Fin 6) = 0 from rfl, ← betx_eq]; exact ini.1] at this
      refine Eq.trans ?_ this
      rw [wsRow_eq l.affine co _ hs, transfer_self, Matrix.one_mul]
      apply Complex.ext <;> simp [mode, reCol, imCol, hW, w6d]
    · have := pn 0
      rw [show corr (latticeRow (wsRow co W₀ scale maps n)).W 0 (reCol 0) (reCol 0)
        = betx (row n).W by rw [show (reCol 0 : Fin 6) = 0 from rfl, ← betx_eq]; rfl] at this
      refine Eq.trans ?_ this
      rw [wsRow_eq l.affine co _ hs]
      apply Complex.ext <;>
        simp [mode, reCol, imCol, hW, w6d, Matrix.mul_apply, Fin.sum_univ_six, R]
  have y : R 2 2 = √ (bety (row n).W) / √ bety₀ * (Real.cos ν + alfy₀ * Real.sin ν)
      ∧ R 2 3 = √ bety₀ * √ (bety (row n).W) * Real.sin ν := by
    apply transfer_from_phase hy
    · have := p0 1
      rw [show corr (latticeRow (wsRow co W₀ scale maps 0)).W 1 (reCol 1) (reCol 1) = bety₀ by
        rw [show (reCol 1 : Fin 6) = 2 from rfl, ← bety_eq]; exact ini.2.2.1] at this
      refine Eq.trans ?_ this
      rw [wsRow_eq l.affine co _ hs, transfer_self, Matrix.one_mul]
      apply Complex.ext <;> simp [mode, reCol, imCol, hW, w6d]
    · have := pn 1
      rw [show corr (latticeRow (wsRow co W₀ scale maps n)).W 1 (reCol 1) (reCol 1)
        = bety (row n).W by rw [show (reCol 1 : Fin 6) = 2 from rfl, ← bety_eq]; rfl] at this
      refine Eq.trans ?_ this
      rw [wsRow_eq l.affine co _ hs]
      apply Complex.ext <;>
        simp [mode, reCol, imCol, hW, w6d, Matrix.mul_apply, Fin.sum_univ_six, R]
  exact ⟨x.1, x.2, y.1, y.2⟩

end Verif.Twiss
