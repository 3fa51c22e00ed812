import Verif.Symplectic.Kicks

/-!
# Shifts and rotations of the frame are symplectic
-/

namespace Verif.Symplectic

open Frames hiding curvature
open Magnets Filter Topology

noncomputable section

variable {E : Type*} [NormedAddCommGroup E] [NormedSpace ℝ E]

/-- A map with a generating function of the new positions and the old momenta. -/
theorem canonical_gen {f : Z → Z} {S : Z → ℝ} {z : Z} (hf : DifferentiableAt ℝ f z)
    (hS : ContDiffAt ℝ 2 S ![f z 0, z 1, f z 2, z 3, f z 4, z 5])
    (h : ∀ᶠ y in 𝓝 z, ∀ u, fderiv ℝ S ![f y 0, y 1, f y 2, y 3, f y 4, y 5] u
      = f y 1 * u 0 + y 0 * u 1 + f y 3 * u 2 + y 2 * u 3 + f y 5 * u 4 + y 4 * u 5) : Canonical f z := by
  have c : ∀ i, DifferentiableAt ℝ (fun y => f y i) z := fun i => differentiableAt_pi.1 hf i
  have ci : ∀ i u, fderiv ℝ (fun y => f y i) z u = fderiv ℝ f z u i := fun i u => by
    rw [fderiv_apply hf]; rfl
  have pi : ∀ (i : Fin 6) u, fderiv ℝ (fun y : Z => y i) z u = u i := fun i u => by
    rw [fderiv_apply (Φ := fun y : Z => y) (by fun_prop)]
    simp
  have ha : DifferentiableAt ℝ (fun y : Z => ![f y 0, y 1, f y 2, y 3, f y 4, y 5]) z := by
    rw [differentiableAt_pi]
    intro i
    have := c i
    fin_cases i <;> simp <;> first | exact this | fun_prop
  have hb : DifferentiableAt ℝ (fun y : Z => ![f y 1, y 0, f y 3, y 2, f y 5, y 4]) z := by
    rw [differentiableAt_pi]
    intro i
    have c1 := c 1
    have c3 := c 3
    have c5 := c 5
    fin_cases i <;> simp <;> first | assumption | fun_prop
  refine ⟨fderiv ℝ f z, hf.hasFDerivAt, fun v w => ?_⟩
  have key := lagrangian hS ha hb (h.mono fun y hy u => by
    rw [hy u, Fin.sum_univ_six]
    simp) v w
  have va : ∀ u i, fderiv ℝ (fun y : Z => ![f y 0, y 1, f y 2, y 3, f y 4, y 5]) z u i
      = (![fderiv ℝ f z u 0, u 1, fderiv ℝ f z u 2, u 3, fderiv ℝ f z u 4, u 5] : Z) i := by
    intro u i
    have g := congrArg (fun A => A u) (fderiv_apply ha i)
    refine Eq.trans g.symm ?_
    fin_cases i <;> simp [ci, pi]
  have vb : ∀ u i, fderiv ℝ (fun y : Z => ![f y 1, y 0, f y 3, y 2, f y 5, y 4]) z u i
      = (![fderiv ℝ f z u 1, u 0, fderiv ℝ f z u 3, u 2, fderiv ℝ f z u 5, u 4] : Z) i := by
    intro u i
    have g := congrArg (fun A => A u) (fderiv_apply hb i)
    refine Eq.trans g.symm ?_
    fin_cases i <;> simp [ci, pi]
  simp only [va, vb, Fin.sum_univ_six, Matrix.cons_val] at key
  unfold omega
  linarith

/-- A map with a generating function of the old positions and the new momenta. -/
theorem canonical_gen2 {f : Z → Z} {S : Z → ℝ} {z : Z} (hf : DifferentiableAt ℝ f z)
    (hS : ContDiffAt ℝ 2 S ![z 0, f z 1, z 2, f z 3, z 4, f z 5])
    (h : ∀ᶠ y in 𝓝 z, ∀ u, fderiv ℝ S ![y 0, f y 1, y 2, f y 3, y 4, f y 5] u
      = y 1 * u 0 + f y 0 * u 1 + y 3 * u 2 + f y 2 * u 3 + y 5 * u 4 + f y 4 * u 5) : Canonical f z := by
  have c : ∀ i, DifferentiableAt ℝ (fun y => f y i) z := fun i => differentiableAt_pi.1 hf i
  have ci : ∀ i u, fderiv ℝ (fun y => f y i) z u = fderiv ℝ f z u i := fun i u => by
    rw [fderiv_apply hf]; rfl
  have pi : ∀ (i : Fin 6) u, fderiv ℝ (fun y : Z => y i) z u = u i := fun i u => by
    rw [fderiv_apply (Φ := fun y : Z => y) (by fun_prop)]
    simp
  have ha : DifferentiableAt ℝ (fun y : Z => ![y 0, f y 1, y 2, f y 3, y 4, f y 5]) z := by
    rw [differentiableAt_pi]
    intro i
    have := c i
    fin_cases i <;> simp <;> first | exact this | fun_prop
  have hb : DifferentiableAt ℝ (fun y : Z => ![y 1, f y 0, y 3, f y 2, y 5, f y 4]) z := by
    rw [differentiableAt_pi]
    intro i
    have c1 := c 0
    have c3 := c 2
    have c5 := c 4
    fin_cases i <;> simp <;> first | assumption | fun_prop
  refine ⟨fderiv ℝ f z, hf.hasFDerivAt, fun v w => ?_⟩
  have key := lagrangian hS ha hb (h.mono fun y hy u => by
    rw [hy u, Fin.sum_univ_six]
    simp) v w
  have va : ∀ u i, fderiv ℝ (fun y : Z => ![y 0, f y 1, y 2, f y 3, y 4, f y 5]) z u i
      = (![u 0, fderiv ℝ f z u 1, u 2, fderiv ℝ f z u 3, u 4, fderiv ℝ f z u 5] : Z) i := by
    intro u i
    have g := congrArg (fun A => A u) (fderiv_apply ha i)
    refine Eq.trans g.symm ?_
    fin_cases i <;> simp [ci, pi]
  have vb : ∀ u i, fderiv ℝ (fun y : Z => ![y 1, f y 0, y 3, f y 2, y 5, f y 4]) z u i
      = (![u 1, fderiv ℝ f z u 0, u 3, fderiv ℝ f z u 2, u 5, fderiv ℝ f z u 4] : Z) i := by
    intro u i
    have g := congrArg (fun A => A u) (fderiv_apply hb i)
    refine Eq.trans g.symm ?_
    fin_cases i <;> simp [ci, pi]
  simp only [va, vb, Fin.sum_univ_six, Matrix.cons_val] at key
  unfold omega
  linarith

/-! ### Shifts and rolls -/

theorem lawful_xyShift (dx dy : ℝ) : Lawful fun q => xyShift q dx dy :=
  Lawful.of_kind (fun _ => ⟨rfl, rfl, rfl, rfl, rfl, rfl⟩) fun p q e => by
    simp [coords, xyShift, e.x, e.px, e.y, e.py, e.zeta, e.ptau, e.beta0]

theorem symplectic_xyShift {p : Part} (k : p.Kin) (dx dy : ℝ) : SymplecticAt (fun q => xyShift q dx dy) p := by
  have c : Canonical (fun z : Z => ![z 0 - dx, z 1, z 2 - dy, z 3, z 4, z 5]) (coords p) := by
    refine canonical_of_lines ?_ (fun u => u) ?_ fun v w => rfl
    · rw [differentiableAt_pi]
      intro i
      fin_cases i <;> simp <;> fun_prop
    · intro u i
      have l := line (coords p) u
      fin_cases i <;> simp only [Pi.add_apply, Pi.smul_apply, smul_eq_mul] <;>
        first | exact (l 0).sub_const dx | exact l 1 | exact (l 2).sub_const dy | exact l 3 | exact l 4 | exact l 5
  refine c.congr (Eventually.of_forall fun z => ?_)
  ext i
  fin_cases i <;> simp [coords, xyShift, place, k.beta0.ne']

theorem coords_sRot (p : Part) (s c : ℝ) : coords (sRot p s c) = ![c * p.x + s * p.y, c * p.px + s * p.py, -s * p.x + c * p.y,
    -s * p.px + c * p.py, p.zeta, p.ptau / p.beta0] := by
  unfold sRot
  simp only
  split_ifs <;> rfl

theorem lawful_sRot (s c : ℝ) : Lawful fun q => sRot q s c :=
  Lawful.of_kind (fun _ => by unfold sRot; simp only; split_ifs <;> exact ⟨rfl, rfl, rfl, rfl, rfl, rfl⟩) fun p q e => by
    simp only [coords_sRot, e.x, e.px, e.y, e.py, e.zeta, e.ptau, e.beta0]

theorem symplectic_sRot {p : Part} (k : p.Kin) {s c : ℝ} (unit : s ^ 2 + c ^ 2 = 1) : SymplecticAt (fun q => sRot q s c) p := by
  have hc : Canonical (fun z : Z => ![c * z 0 + s * z 2, c * z 1 + s * z 3, -s * z 0 + c * z 2, -s * z 1 + c * z 3, z 4, z 5])
      (coords p) := by
    refine canonical_of_lines ?_ (fun u => ![c * u 0 + s * u 2, c * u 1 + s * u 3, -s * u 0 + c * u 2, -s * u 1 + c * u 3, u 4, u 5])
      ?_ ?_
    · rw [differentiableAt_pi]
      intro i
      fin_cases i <;> simp <;> fun_prop
    · intro u i
      have l := line (coords p) u
      fin_cases i <;> simp only [Pi.add_apply, Pi.smul_apply, smul_eq_mul]
      · exact ((l 0).const_mul c).add ((l 2).const_mul s)
      · exact ((l 1).const_mul c).add ((l 3).const_mul s)
      · exact ((l 0).const_mul (-s)).add ((l 2).const_mul c)
      · exact ((l 1).const_mul (-s)).add ((l 3).const_mul c)
      · exact l 4
      · exact l 5
    · intro v w
      simp only [omega, Matrix.cons_val]
      linear_combination (v 0 * w 1 - v 1 * w 0 + (v 2 * w 3 - v 3 * w 2)) * unit
  refine hc.congr (Eventually.of_forall fun z => ?_)
  refine (coords_sRot _ _ _).trans ?_
  ext i
  fin_cases i <;> simp [place, k.beta0.ne']

/-! ### Rotations about the transverse axes -/

theorem hasDerivAt_pzZ {b : ℝ} {w : Z} (h : 0 < radOf b (w 5) - w 1 ^ 2 - w 3 ^ 2) (u : Z) :
    HasDerivAt (fun t : ℝ => pzZ b (w + t • u)) (((1 + b ^ 2 * w 5) * u 5 - w 1 * u 1 - w 3 * u 3) / pzZ b w) 0 := by
  have l := line w u
  have hz : pzZ b w ≠ 0 := (Real.sqrt_pos.2 h).ne'
  have hp := (((hasDerivAt_radOf (b := b) (l 5)).sub ((l 1).pow 2)).sub ((l 3).pow 2)).sqrt (by simpa using h.ne')
  refine hp.congr_deriv ?_
  simp only [zero_mul, add_zero, Pi.sub_apply, Pi.pow_apply]
  unfold pzZ at hz ⊢
  field_simp
  ring

theorem contDiffAt_pzZ {b : ℝ} {w : Z} {n : WithTop ℕ∞} (h : 0 < radOf b (w 5) - w 1 ^ 2 - w 3 ^ 2) :
    ContDiffAt ℝ n (fun w => pzZ b w) w := by
  unfold pzZ
  have := h.ne'
  fun_prop (disch := assumption)

theorem pz_coords {p : Part} (k : p.Kin) : p.pz = pzZ p.beta0 (coords p) := by
  have h := place_pz (p := p) (fine_coords k)
  have e := place_alike k rfl rfl
  simp only [Part.pz, e.delta, e.px, e.py] at h
  exact h

theorem coords_yRot {p : Part} (hb : 0 < p.beta0) {z : Z} (s c t : ℝ) : coords (yRot (place p z) s c t)
    = ![z 0 / (c * (1 + t * z 1 / pzZ p.beta0 z)), c * z 1 - s * pzZ p.beta0 z,
      z 2 - t * z 0 * z 3 / (pzZ p.beta0 z * (1 + t * z 1 / pzZ p.beta0 z)), z 3,
      z 4 + t * z 0 * (1 + p.beta0 ^ 2 * z 5) / (pzZ p.beta0 z * (1 + t * z 1 / pzZ p.beta0 z)), z 5] := by
  have hb' := hb.ne'
  have e : Real.sqrt (1 + 2 * (z 5 * p.beta0) / p.beta0 + z 5 * p.beta0 * (z 5 * p.beta0) - z 1 * z 1 - z 3 * z 3)
      = pzZ p.beta0 z := by
    unfold pzZ radOf
    congr 1
    field_simp
  have g : ∀ d : ℝ, (z 4 / p.beta0 + t * z 0 * (1 / p.beta0 + z 5 * p.beta0) / d) * p.beta0
      = z 4 + t * z 0 * (1 + p.beta0 ^ 2 * z 5) / d := by
    intro d
    rw [add_mul, div_mul_cancel₀ _ hb', div_mul_eq_mul_div]
    congr 2
    field_simp
  unfold yRot
  simp only [place, mul_div_cancel_right₀ _ hb', e, g]
  split_ifs <;> simp only [coords, mul_div_cancel_right₀ _ hb']

theorem coords_xRot {p : Part} (hb : 0 < p.beta0) {z : Z} (s c t : ℝ) : coords (xRot (place p z) s c t)
    = ![z 0 + t * z 2 * z 1 / (pzZ p.beta0 z * (1 - t * z 3 / pzZ p.beta0 z)), z 1,
      z 2 / (c * (1 - t * z 3 / pzZ p.beta0 z)), c * z 3 + s * pzZ p.beta0 z,
      z 4 - t * z 2 * (1 + p.beta0 ^ 2 * z 5) / (pzZ p.beta0 z * (1 - t * z 3 / pzZ p.beta0 z)), z 5] := by
  have hb' := hb.ne'
  have e : Real.sqrt (1 + 2 * (z 5 * p.beta0) / p.beta0 + z 5 * p.beta0 * (z 5 * p.beta0) - z 1 * z 1 - z 3 * z 3)
      = pzZ p.beta0 z := by
    unfold pzZ radOf
    congr 1
    field_simp
  have g : ∀ d : ℝ, (z 4 / p.beta0 - t * z 2 * (1 / p.beta0 + z 5 * p.beta0) / d) * p.beta0
      = z 4 - t * z 2 * (1 + p.beta0 ^ 2 * z 5) / d := by
    intro d
    rw [sub_mul, div_mul_cancel₀ _ hb', div_mul_eq_mul_div]
    congr 2
    field_simp
  unfold xRot
  simp only [place, mul_div_cancel_right₀ _ hb', e, g]
  split_ifs <;> simp only [coords, mul_div_cancel_right₀ _ hb']

theorem lawful_yRot (s c t : ℝ) : Lawful fun q => yRot q s c t :=
  Lawful.of_kind (fun _ => by unfold yRot; simp only; split_ifs <;> exact ⟨rfl, rfl, rfl, rfl, rfl, rfl⟩) fun p q e => by
    unfold yRot
    simp only
    split_ifs <;> simp [coords, e.x, e.px, e.y, e.py, e.zeta, e.ptau, e.beta0]

theorem lawful_xRot (s c t : ℝ) : Lawful fun q => xRot q s c t :=
  Lawful.of_kind (fun _ => by unfold xRot; simp only; split_ifs <;> exact ⟨rfl, rfl, rfl, rfl, rfl, rfl⟩) fun p q e => by
    unfold xRot
    simp only
    split_ifs <;> simp [coords, e.x, e.px, e.y, e.py, e.zeta, e.ptau, e.beta0]

/-- A rotation about the vertical axis: the particle moves forward, and its path meets the new plane. -/
theorem symplectic_yRot {p : Part} (k : p.Kin) {s c t : ℝ} (hc : c ≠ 0) (ht : t = s / c) (fwd : p.Forward)
    (cross : 1 + t * p.px / p.pz ≠ 0) : SymplecticAt (fun q => yRot q s c t) p := by
  set b := p.beta0 with hb
  have fz := fineForward_coords k fwd
  have hpz : p.pz = pzZ b (coords p) := by
    have h := place_pz (p := p) fz.toFine
    have e := place_alike k rfl rfl
    simp only [Part.pz, e.delta, e.px, e.py] at h
    exact h
  have hne : pzZ b (coords p) ≠ 0 := (Real.sqrt_pos.2 fz.forward).ne'
  have hcr : 1 + t * coords p 1 / pzZ b (coords p) ≠ 0 := by rw [← hpz]; exact cross
  let f : Z → Z := fun z => ![z 0 / (c * (1 + t * z 1 / pzZ b z)), c * z 1 - s * pzZ b z,
      z 2 - t * z 0 * z 3 / (pzZ b z * (1 + t * z 1 / pzZ b z)), z 3,
      z 4 + t * z 0 * (1 + b ^ 2 * z 5) / (pzZ b z * (1 + t * z 1 / pzZ b z)), z 5]
  have hpd : ∀ w, FineForward b w → DifferentiableAt ℝ (fun w => pzZ b w) w :=
    fun w h => (contDiffAt_pzZ (n := 1) h.forward).differentiableAt (by norm_num)
  have hd : DifferentiableAt ℝ f (coords p) := by
    have h1 := hpd _ fz
    have h2 : c * (1 + t * coords p 1 / pzZ b (coords p)) ≠ 0 := mul_ne_zero hc hcr
    have h3 : pzZ b (coords p) * (1 + t * coords p 1 / pzZ b (coords p)) ≠ 0 := mul_ne_zero hne hcr
    rw [differentiableAt_pi]
    intro i
    fin_cases i <;> simp [f] <;> fun_prop (disch := assumption)
  let S : Z → ℝ := fun w => w 0 * (c * w 1 - s * pzZ b w) + w 2 * w 3 + w 4 * w 5
  have fwdOf : ∀ y, FineForward b y → FineForward b ![f y 0, y 1, f y 2, y 3, f y 4, y 5] := by
    intro y h
    exact ⟨⟨h.rad, h.energy⟩, h.forward⟩
  have sm : ∀ w, FineForward b w → ContDiffAt ℝ 2 S w := by
    intro w h
    have := contDiffAt_pzZ (n := 2) h.forward
    fun_prop
  have ev : ∀ᶠ y in 𝓝 (coords p), FineForward b y ∧ 1 + t * y 1 / pzZ b y ≠ 0 := by
    have c1 : ContinuousAt (fun y : Z => 1 + t * y 1 / pzZ b y) (coords p) := by
      have := contDiffAt_pzZ (n := 1) fz.forward
      exact ContDiffAt.continuousAt (n := 1) (𝕜 := ℝ) (by fun_prop (disch := assumption))
    filter_upwards [fineForward_near fz, c1.eventually_ne hcr] with y h1 h2 using ⟨h1, h2⟩
  have key : Canonical f (coords p) := by
    refine canonical_gen hd (sm _ (fwdOf _ fz)) (ev.mono fun y hy u => ?_)
    obtain ⟨hf, hx⟩ := hy
    have hf' := fwdOf y hf
    have hz : pzZ b y ≠ 0 := (Real.sqrt_pos.2 hf.forward).ne'
    refine fderiv_line ((sm _ hf').differentiableAt (by norm_num)) ?_
    have l := line ![f y 0, y 1, f y 2, y 3, f y 4, y 5] u
    have hp : HasDerivAt (fun t : ℝ => pzZ b (![f y 0, y 1, f y 2, y 3, f y 4, y 5] + t • u))
      (((1 + b ^ 2 * y 5) * u 5 - y 1 * u 1 - y 3 * u 3) / pzZ b y) 0 := hasDerivAt_pzZ hf'.forward u
    refine ((((l 0).mul (((l 1).const_mul c).sub (hp.const_mul s))).add ((l 2).mul (l 3))).add ((l 4).mul (l 5))).congr_deriv ?_
    have e : pzZ b ![f y 0, y 1, f y 2, y 3, f y 4, y 5] = pzZ b y := rfl
    simp only [Pi.sub_apply, zero_smul, zero_mul, add_zero]
    rw [e]
    simp only [Matrix.cons_val, f]
    have ex : 1 + t * y 1 / pzZ b y = (pzZ b y + t * y 1) / pzZ b y := by field_simp
    have hx' : pzZ b y + t * y 1 ≠ 0 := by
      intro h0
      rw [ex, h0, zero_div] at hx
      exact hx rfl
    rw [ex]
    have hs : s = t * c := by rw [ht]; field_simp
    rw [hs]
    generalize pzZ b y = pz at hz hx'
    have hx2 : pz + y 1 * t ≠ 0 := by rwa [mul_comm (y 1) t]
    field_simp
    ring
  refine key.congr (Eventually.of_forall fun z => ?_)
  exact coords_yRot k.beta0 s c t

/-- A rotation about the horizontal axis. -/
theorem symplectic_xRot {p : Part} (k : p.Kin) {s c t : ℝ} (hc : c ≠ 0) (ht : t = s / c) (fwd : p.Forward)
    (cross : 1 - t * p.py / p.pz ≠ 0) : SymplecticAt (fun q => xRot q s c t) p := by
  set b := p.beta0 with hb
  have fz := fineForward_coords k fwd
  have hpz : p.pz = pzZ b (coords p) := by
    have h := place_pz (p := p) fz.toFine
    have e := place_alike k rfl rfl
    simp only [Part.pz, e.delta, e.px, e.py] at h
    exact h
  have hne : pzZ b (coords p) ≠ 0 := (Real.sqrt_pos.2 fz.forward).ne'
  have hcr : 1 - t * coords p 3 / pzZ b (coords p) ≠ 0 := by rw [← hpz]; exact cross
  let f : Z → Z := fun z => ![z 0 + t * z 2 * z 1 / (pzZ b z * (1 - t * z 3 / pzZ b z)), z 1,
      z 2 / (c * (1 - t * z 3 / pzZ b z)), c * z 3 + s * pzZ b z,
      z 4 - t * z 2 * (1 + b ^ 2 * z 5) / (pzZ b z * (1 - t * z 3 / pzZ b z)), z 5]
  have hpd : ∀ w, FineForward b w → DifferentiableAt ℝ (fun w => pzZ b w) w :=
    fun w h => (contDiffAt_pzZ (n := 1) h.forward).differentiableAt (by norm_num)
  have hd : DifferentiableAt ℝ f (coords p) := by
    have h1 := hpd _ fz
    have h2 : c * (1 - t * coords p 3 / pzZ b (coords p)) ≠ 0 := mul_ne_zero hc hcr
    have h3 : pzZ b (coords p) * (1 - t * coords p 3 / pzZ b (coords p)) ≠ 0 := mul_ne_zero hne hcr
    rw [differentiableAt_pi]
    intro i
    fin_cases i <;> simp [f] <;> fun_prop (disch := assumption)
  let S : Z → ℝ := fun w => w 0 * w 1 + w 2 * (c * w 3 + s * pzZ b w) + w 4 * w 5
  have fwdOf : ∀ y, FineForward b y → FineForward b ![f y 0, y 1, f y 2, y 3, f y 4, y 5] := by
    intro y h
    exact ⟨⟨h.rad, h.energy⟩, h.forward⟩
  have sm : ∀ w, FineForward b w → ContDiffAt ℝ 2 S w := by
    intro w h
    have := contDiffAt_pzZ (n := 2) h.forward
    fun_prop
  have ev : ∀ᶠ y in 𝓝 (coords p), FineForward b y ∧ 1 - t * y 3 / pzZ b y ≠ 0 := by
    have c1 : ContinuousAt (fun y : Z => 1 - t * y 3 / pzZ b y) (coords p) := by
      have := contDiffAt_pzZ (n := 1) fz.forward
      exact ContDiffAt.continuousAt (n := 1) (𝕜 := ℝ) (by fun_prop (disch := assumption))
    filter_upwards [fineForward_near fz, c1.eventually_ne hcr] with y h1 h2 using ⟨h1, h2⟩
  have key : Canonical f (coords p) := by
    refine canonical_gen hd (sm _ (fwdOf _ fz)) (ev.mono fun y hy u => ?_)
    obtain ⟨hf, hx⟩ := hy
    have hf' := fwdOf y hf
    have hz : pzZ b y ≠ 0 := (Real.sqrt_pos.2 hf.forward).ne'
    refine fderiv_line ((sm _ hf').differentiableAt (by norm_num)) ?_
    have l := line ![f y 0, y 1, f y 2, y 3, f y 4, y 5] u
    have hp : HasDerivAt (fun t : ℝ => pzZ b (![f y 0, y 1, f y 2, y 3, f y 4, y 5] + t • u))
      (((1 + b ^ 2 * y 5) * u 5 - y 1 * u 1 - y 3 * u 3) / pzZ b y) 0 := hasDerivAt_pzZ hf'.forward u
    refine ((((l 0).mul (l 1)).add ((l 2).mul (((l 3).const_mul c).add (hp.const_mul s)))).add ((l 4).mul (l 5))).congr_deriv ?_
    have e : pzZ b ![f y 0, y 1, f y 2, y 3, f y 4, y 5] = pzZ b y := rfl
    simp only [Pi.add_apply, zero_smul, zero_mul, add_zero]
    rw [e]
    simp only [Matrix.cons_val, f]
    have ex : 1 - t * y 3 / pzZ b y = (pzZ b y - t * y 3) / pzZ b y := by field_simp
    have hx' : pzZ b y - t * y 3 ≠ 0 := by
      intro h0
      rw [ex, h0, zero_div] at hx
      exact hx rfl
    rw [ex]
    have hs : s = t * c := by rw [ht]; field_simp
    rw [hs]
    generalize pzZ b y = pz at hz hx'
    field_simp
    ring
  refine key.congr (Eventually.of_forall fun z => ?_)
  exact coords_xRot k.beta0 s c t

end

end Verif.Symplectic
