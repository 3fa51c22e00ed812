import Verif.Symplectic.Rotations

/-!
# The fringe field of a multipole is symplectic
-/

namespace Verif.Symplectic

open Frames hiding curvature
open Magnets Edges Filter Topology

noncomputable section

theorem fringeSum_succ (a : FringeArgs) (chi x y : ℝ) (n : ℕ) :
    fringeSum a chi x y (n + 1) = fringeStep a chi x y (fringeSum a chi x y n) n := by
  simp [fringeSum, List.range_succ]

theorem fringe_inv (a : FringeArgs) (chi x y x' y' : ℝ) (n : ℕ) :
    (fringeSum a chi x y n).invFactorial = (fringeSum a chi x' y' n).invFactorial := by
  induction n with
  | zero => rfl
  | succ n ih =>
    rw [fringeSum_succ, fringeSum_succ]
    simp only [fringeStep]
    rw [ih]

/-- The powers of `x + i y`. -/
theorem fringe_power (a : FringeArgs) (chi : ℝ) {X Y : ℝ → ℝ} {X' Y' t : ℝ} (hX : HasDerivAt X X' t) (hY : HasDerivAt Y Y' t) (n : ℕ) :
    HasDerivAt (fun t => (fringeSum a chi (X t) (Y t) (n + 1)).rx)
        ((n + 1) * ((fringeSum a chi (X t) (Y t) n).rx * X' - (fringeSum a chi (X t) (Y t) n).ix * Y')) t
      ∧ HasDerivAt (fun t => (fringeSum a chi (X t) (Y t) (n + 1)).ix)
        ((n + 1) * ((fringeSum a chi (X t) (Y t) n).ix * X' + (fringeSum a chi (X t) (Y t) n).rx * Y')) t := by
  induction n with
  | zero =>
    have e1 : (fun t => (fringeSum a chi (X t) (Y t) (0 + 1)).rx) = X := by
      funext t
      simp [fringeStep, fringeSum]
    have e2 : (fun t => (fringeSum a chi (X t) (Y t) (0 + 1)).ix) = Y := by
      funext t
      simp [fringeStep, fringeSum]
    rw [e1, e2]
    exact ⟨hX.congr_deriv (by simp [fringeSum]), hY.congr_deriv (by simp [fringeSum])⟩
  | succ n ih =>
    obtain ⟨h1, h2⟩ := ih
    have r1 : ∀ x y, (fringeSum a chi x y (n + 1 + 1)).rx = (fringeSum a chi x y (n + 1)).rx * x - (fringeSum a chi x y (n + 1)).ix * y :=
      fun x y => by rw [fringeSum_succ a chi x y (n + 1)]; rfl
    have r2 : ∀ x y, (fringeSum a chi x y (n + 1 + 1)).ix = (fringeSum a chi x y (n + 1)).rx * y + (fringeSum a chi x y (n + 1)).ix * x :=
      fun x y => by rw [fringeSum_succ a chi x y (n + 1)]; rfl
    have s1 : ∀ x y, (fringeSum a chi x y (n + 1)).rx = (fringeSum a chi x y n).rx * x - (fringeSum a chi x y n).ix * y :=
      fun x y => by rw [fringeSum_succ a chi x y n]; rfl
    have s2 : ∀ x y, (fringeSum a chi x y (n + 1)).ix = (fringeSum a chi x y n).rx * y + (fringeSum a chi x y n).ix * x :=
      fun x y => by rw [fringeSum_succ a chi x y n]; rfl
    simp only [r1, r2]
    refine ⟨((h1.mul hX).sub (h2.mul hY)).congr_deriv ?_, ((h1.mul hY).add (h2.mul hX)).congr_deriv ?_⟩ <;>
      simp only [s1, s2] <;> push_cast <;> ring

/-- The loop computes the two components `fx`, `fy` of the fringe field together with their derivatives. -/
theorem fringe_derivatives (a : FringeArgs) (chi : ℝ) {X Y : ℝ → ℝ} {X' Y' t : ℝ} (hX : HasDerivAt X X' t) (hY : HasDerivAt Y Y' t)
    (n : ℕ) :
    HasDerivAt (fun t => (fringeSum a chi (X t) (Y t) n).fx)
        ((fringeSum a chi (X t) (Y t) n).fxx * X' + (fringeSum a chi (X t) (Y t) n).fxy * Y') t
      ∧ HasDerivAt (fun t => (fringeSum a chi (X t) (Y t) n).fy)
        ((fringeSum a chi (X t) (Y t) n).fyx * X' + (fringeSum a chi (X t) (Y t) n).fyy * Y') t := by
  induction n with
  | zero =>
    constructor
    · exact (hasDerivAt_const t (0 : ℝ)).congr_deriv (by simp [fringeSum])
    · exact (hasDerivAt_const t (0 : ℝ)).congr_deriv (by simp [fringeSum])
  | succ n ih =>
    obtain ⟨h1, h2⟩ := ih
    obtain ⟨p1, p2⟩ := fringe_power a chi hX hY n
    have r1 : ∀ x y, (fringeSum a chi x y (n + 1)).rx = (fringeSum a chi x y n).rx * x - (fringeSum a chi x y n).ix * y :=
      fun x y => by rw [fringeSum_succ a chi x y n]; rfl
    have r2 : ∀ x y, (fringeSum a chi x y (n + 1)).ix = (fringeSum a chi x y n).rx * y + (fringeSum a chi x y n).ix * x :=
      fun x y => by rw [fringeSum_succ a chi x y n]; rfl
    simp only [r1, r2] at p1 p2
    simp only [fringeSum_succ]
    have inv : ∀ x y, (fringeSum a chi x y n).invFactorial = (fringeSum a chi (X t) (Y t) n).invFactorial :=
      fun x y => fringe_inv a chi _ _ _ _ n
    simp only [fringeStep, inv]
    generalize (fringeSum a chi (X t) (Y t) n).invFactorial = f
    generalize a.total a.kn a.knl (if n > 1 then f / n else f) n * chi = kj
    generalize a.total a.ks a.ksl (if n > 1 then f / n else f) n * chi = ksj
    generalize (-(if a.isExit = true then -1 else 1) / (4 * (((n : ℝ) + 1) + 1)) : ℝ) = nj
    generalize ((n : ℝ) + 1 + 2) / ((n : ℝ) + 1) = nf
    by_cases h0 : n = 0
    · simp only [if_pos h0]
      have hu := (p2.const_mul (-ksj)).const_mul nj
      have hw := (p1.const_mul ksj).const_mul nj
      exact ⟨((h1.add (hu.mul hX)).add ((hw.const_mul nf).mul hY)).congr_deriv (by ring),
        ((h2.add (hu.mul hY)).sub ((hw.const_mul nf).mul hX)).congr_deriv (by ring)⟩
    · simp only [if_neg h0]
      have hu := ((p1.const_mul kj).sub (p2.const_mul ksj)).const_mul nj
      have hw := ((p2.const_mul kj).add (p1.const_mul ksj)).const_mul nj
      exact ⟨((h1.add (hu.mul hX)).add ((hw.const_mul nf).mul hY)).congr_deriv (by simp only [Pi.sub_apply, Pi.add_apply]; ring),
        ((h2.add (hu.mul hY)).sub ((hw.const_mul nf).mul hX)).congr_deriv (by simp only [Pi.sub_apply, Pi.add_apply]; ring)⟩

/-- All parts of the loop are smooth. -/
theorem fringe_smooth (a : FringeArgs) (chi : ℝ) (n : ℕ) :
    ContDiff ℝ 2 (fun z : Z => (fringeSum a chi (z 0) (z 2) n).rx) ∧ ContDiff ℝ 2 (fun z : Z => (fringeSum a chi (z 0) (z 2) n).ix)
      ∧ ContDiff ℝ 2 (fun z : Z => (fringeSum a chi (z 0) (z 2) n).fx) ∧ ContDiff ℝ 2 (fun z : Z => (fringeSum a chi (z 0) (z 2) n).fy)
      ∧ ContDiff ℝ 2 (fun z : Z => (fringeSum a chi (z 0) (z 2) n).fxx) ∧ ContDiff ℝ 2 (fun z : Z => (fringeSum a chi (z 0) (z 2) n).fxy)
      ∧ ContDiff ℝ 2 (fun z : Z => (fringeSum a chi (z 0) (z 2) n).fyx) ∧ ContDiff ℝ 2 (fun z : Z => (fringeSum a chi (z 0) (z 2) n).fyy) := by
  induction n with
  | zero => refine ⟨?_, ?_, ?_, ?_, ?_, ?_, ?_, ?_⟩ <;> exact contDiff_const
  | succ n ih =>
    obtain ⟨h1, h2, h3, h4, h5, h6, h7, h8⟩ := ih
    have inv : ∀ x y, (fringeSum a chi x y n).invFactorial = (fringeSum a chi 0 0 n).invFactorial :=
      fun x y => fringe_inv a chi _ _ _ _ n
    simp only [fringeSum_succ, fringeStep, inv]
    generalize (fringeSum a chi 0 0 n).invFactorial = f
    generalize a.total a.kn a.knl (if n > 1 then f / n else f) n * chi = kj
    generalize a.total a.ks a.ksl (if n > 1 then f / n else f) n * chi = ksj
    generalize (-(if a.isExit = true then -1 else 1) / (4 * (((n : ℝ) + 1) + 1)) : ℝ) = nj
    generalize ((n : ℝ) + 1 + 2) / ((n : ℝ) + 1) = nf
    by_cases h0 : n = 0
    · simp only [if_pos h0]
      refine ⟨?_, ?_, ?_, ?_, ?_, ?_, ?_, ?_⟩ <;> fun_prop
    · simp only [if_neg h0]
      refine ⟨?_, ?_, ?_, ?_, ?_, ?_, ?_, ?_⟩ <;> fun_prop

/-- The map of a multipole fringe. -/
def multMap (b : ℝ) (v : ℝ → ℝ → FringeSum) (z : Z) : Z :=
  let s := v (z 0) (z 2)
  let r := 1 / opdOf b (z 5)
  let det := (1 - s.fxx * r) * (1 - s.fyy * r) - (-s.fyx * r) * (-s.fxy * r)
  let px := ((1 - s.fyy * r) * z 1 - -s.fyx * r * z 3) / det
  let py := ((1 - s.fxx * r) * z 3 - -s.fxy * r * z 1) / det
  ![z 0 + -s.fx * r, px, z 2 + -s.fy * r, py, z 4 + (1 + b ^ 2 * z 5) * (px * s.fx + py * s.fy) * r ^ 3, z 5]

theorem solve {A B C D : ℝ} (h : A * D - B * C ≠ 0) (p q : ℝ) :
    A * ((D * p - B * q) / (A * D - B * C)) + B * ((A * q - C * p) / (A * D - B * C)) = p
      ∧ C * ((D * p - B * q) / (A * D - B * C)) + D * ((A * q - C * p) / (A * D - B * C)) = q := by
  constructor
  · rw [mul_div_assoc', mul_div_assoc', ← add_div, div_eq_iff h]
    ring
  · rw [mul_div_assoc', mul_div_assoc', ← add_div, div_eq_iff h]
    ring

theorem canonical_multMap (a : FringeArgs) (chi b : ℝ) (n : ℕ) {z : Z} (fz : Fine b z)
    (det : (1 - (fringeSum a chi (z 0) (z 2) n).fxx * (1 / opdOf b (z 5))) * (1 - (fringeSum a chi (z 0) (z 2) n).fyy * (1 / opdOf b (z 5)))
      - (-(fringeSum a chi (z 0) (z 2) n).fyx * (1 / opdOf b (z 5))) * (-(fringeSum a chi (z 0) (z 2) n).fxy * (1 / opdOf b (z 5))) ≠ 0) :
    Canonical (multMap b fun x y => fringeSum a chi x y n) z := by
  obtain ⟨-, -, h3, h4, h5, h6, h7, h8⟩ := fringe_smooth a chi n
  have hr : ∀ w : Z, Fine b w → ∀ m : WithTop ℕ∞, ContDiffAt ℝ m (fun w : Z => 1 / opdOf b (w 5)) w := by
    intro w fw m
    have h5 : radOf b (w 5) ≠ 0 := fw.rad.ne'
    have h6 : opdOf b (w 5) ≠ 0 := (opdOf_pos fw.rad).ne'
    fun_prop (disch := assumption)
  have hd : DifferentiableAt ℝ (multMap b fun x y => fringeSum a chi x y n) z := by
    refine ContDiffAt.differentiableAt (n := 2) ?_ (by norm_num)
    have r := hr z fz 2
    have a3 := h3.contDiffAt (x := z)
    have a4 := h4.contDiffAt (x := z)
    have a5 := h5.contDiffAt (x := z)
    have a6 := h6.contDiffAt (x := z)
    have a7 := h7.contDiffAt (x := z)
    have a8 := h8.contDiffAt (x := z)
    rw [contDiffAt_pi]
    intro i
    fin_cases i <;> simp only [multMap, Fin.zero_eta, Fin.mk_one, Fin.reduceFinMk, Matrix.cons_val] <;> fun_prop (disch := assumption)
  let S : Z → ℝ := fun w => w 0 * w 1 + w 2 * w 3 + w 4 * w 5
    - 1 / opdOf b (w 5) * ((fringeSum a chi (w 0) (w 2) n).fx * w 1 + (fringeSum a chi (w 0) (w 2) n).fy * w 3)
  have sm : ∀ w, Fine b w → ContDiffAt ℝ 2 S w := by
    intro w fw
    have r := hr w fw 2
    have a3 := h3.contDiffAt (x := w)
    have a4 := h4.contDiffAt (x := w)
    fun_prop
  let f := multMap b fun x y => fringeSum a chi x y n
  let A : Z → Z := fun y => ![y 0, f y 1, y 2, f y 3, y 4, f y 5]
  have fa : ∀ y, Fine b y → Fine b (A y) := fun y h => ⟨h.rad, h.energy⟩
  have ev : ∀ᶠ y in 𝓝 z, Fine b y
      ∧ (1 - (fringeSum a chi (y 0) (y 2) n).fxx * (1 / opdOf b (y 5))) * (1 - (fringeSum a chi (y 0) (y 2) n).fyy * (1 / opdOf b (y 5)))
      - (-(fringeSum a chi (y 0) (y 2) n).fyx * (1 / opdOf b (y 5))) * (-(fringeSum a chi (y 0) (y 2) n).fxy * (1 / opdOf b (y 5))) ≠ 0 := by
    have r := hr z fz 2
    have a5 := h5.contDiffAt (x := z)
    have a6 := h6.contDiffAt (x := z)
    have a7 := h7.contDiffAt (x := z)
    have a8 := h8.contDiffAt (x := z)
    have c1 := ContDiffAt.continuousAt (n := 2) (𝕜 := ℝ) (x := z) (f := fun y : Z =>
      (1 - (fringeSum a chi (y 0) (y 2) n).fxx * (1 / opdOf b (y 5))) * (1 - (fringeSum a chi (y 0) (y 2) n).fyy * (1 / opdOf b (y 5)))
      - (-(fringeSum a chi (y 0) (y 2) n).fyx * (1 / opdOf b (y 5))) * (-(fringeSum a chi (y 0) (y 2) n).fxy * (1 / opdOf b (y 5))))
      (by fun_prop)
    filter_upwards [fine_near fz, c1.eventually_ne det] with y h1 h2 using ⟨h1, h2⟩
  refine canonical_gen2 hd (sm _ (fa z fz)) (ev.mono fun y hy u => ?_)
  obtain ⟨fy, dy⟩ := hy
  have fay := fa y fy
  have ho : opdOf b (y 5) ≠ 0 := (opdOf_pos fy.rad).ne'
  change fderiv ℝ S (A y) u = _
  refine fderiv_line ((sm _ fay).differentiableAt (by norm_num)) ?_
  have l := line (A y) u
  obtain ⟨hx, hy⟩ := fringe_derivatives a chi (l 0) (l 2) n
  have hO := hasDerivAt_opdOf (b := b) (l 5) (by simpa [A, f, multMap, radOf] using fy.rad)
  have hI := (hasDerivAt_const (0 : ℝ) (1 : ℝ)).div hO (by simpa [A, f, multMap] using ho)
  refine (((((l 0).mul (l 1)).add ((l 2).mul (l 3))).add ((l 4).mul (l 5))).sub
    (hI.mul ((hx.mul (l 1)).add (hy.mul (l 3))))).congr_deriv ?_
  simp only [Pi.div_apply, Pi.add_apply, Pi.mul_apply, zero_mul, add_zero]
  simp only [A, f, multMap, Matrix.cons_val]
  generalize fringeSum a chi (y 0) (y 2) n = v at dy
  generalize opdOf b (y 5) = o at *
  generalize hdet : (1 - v.fxx * (1 / o)) * (1 - v.fyy * (1 / o)) - -v.fyx * (1 / o) * (-v.fxy * (1 / o)) = D at dy
  have q1 : (1 - v.fxx * (1 / o)) * (((1 - v.fyy * (1 / o)) * y 1 - -v.fyx * (1 / o) * y 3) / D)
      + -v.fyx * (1 / o) * (((1 - v.fxx * (1 / o)) * y 3 - -v.fxy * (1 / o) * y 1) / D) = y 1 := by
    rw [← hdet] at dy ⊢
    exact (solve dy _ _).1
  have q2 : -v.fxy * (1 / o) * (((1 - v.fyy * (1 / o)) * y 1 - -v.fyx * (1 / o) * y 3) / D)
      + (1 - v.fyy * (1 / o)) * (((1 - v.fxx * (1 / o)) * y 3 - -v.fxy * (1 / o) * y 1) / D) = y 3 := by
    rw [← hdet] at dy ⊢
    exact (solve dy _ _).2
  generalize ((1 - v.fyy * (1 / o)) * y 1 - -v.fyx * (1 / o) * y 3) / D = P at *
  generalize ((1 - v.fxx * (1 / o)) * y 3 - -v.fxy * (1 / o) * y 1) / D = Q at *
  rw [← q1, ← q2]
  field_simp
  ring

/-- `MultFringe_track_single_particle` can be solved for the momenta at the particle. -/
def MultOk (a : FringeArgs) (p : Part) : Prop :=
  let v := fringeSum a p.chi p.x p.y (max a.kOrder a.klOrder + 1).toNat
  (1 - v.fxx * p.rpp) * (1 - v.fyy * p.rpp) - (-v.fyx * p.rpp) * (-v.fxy * p.rpp) ≠ 0

theorem coords_multFringe {p : Part} (hb : 0 < p.beta0) (z : Z) (a : FringeArgs) (h : ¬(a.kOrder = -1 ∧ a.klOrder = -1)) :
    coords (multFringe a (place p z))
      = multMap p.beta0 (fun x y => fringeSum a p.chi x y (max a.kOrder a.klOrder + 1).toNat) z := by
  have hb' := hb.ne'
  unfold multFringe
  rw [if_neg h]
  have e : ∀ A B r : ℝ, (z 4 / p.beta0 + (1 / p.beta0 + z 5 * p.beta0) * A * r ^ 3) * p.beta0
      = z 4 + (1 + p.beta0 ^ 2 * z 5) * A * r ^ 3 := by
    intro A B r
    field_simp
  simp only [place, coords, multMap]
  ext i
  fin_cases i
  · rfl
  · rfl
  · rfl
  · rfl
  · exact e _ 0 _
  · simp [hb']

theorem lawful_multFringe (a : FringeArgs) : Lawful (multFringe a) :=
  Lawful.of_kind (fun _ => by unfold multFringe; simp only; split_ifs <;> exact ⟨rfl, rfl, rfl, rfl, rfl, rfl⟩) fun p q e => by
    unfold multFringe
    by_cases hk : a.kOrder = -1 ∧ a.klOrder = -1
    · simp only [if_pos hk]
      exact e.coords.symm
    · simp only [if_neg hk, coords, e.x, e.px, e.y, e.py, e.zeta, e.rpp, e.ptau, e.beta0, e.chi]

/-- The fringe field of a multipole. -/
theorem symplectic_multFringe {p : Part} (k : p.Kin) (a : FringeArgs) (ok : MultOk a p) : SymplecticAt (multFringe a) p := by
  by_cases hk : a.kOrder = -1 ∧ a.klOrder = -1
  · have e : multFringe a = fun q => q := by
      funext q
      simp [multFringe, hk]
    rw [e]
    exact SymplecticAt.id k
  · have ok' : (1 - (fringeSum a p.chi p.x p.y (max a.kOrder a.klOrder + 1).toNat).fxx * p.rpp)
        * (1 - (fringeSum a p.chi p.x p.y (max a.kOrder a.klOrder + 1).toNat).fyy * p.rpp)
        - (-(fringeSum a p.chi p.x p.y (max a.kOrder a.klOrder + 1).toNat).fyx * p.rpp)
        * (-(fringeSum a p.chi p.x p.y (max a.kOrder a.klOrder + 1).toNat).fxy * p.rpp) ≠ 0 := ok
    have hr : p.rpp = 1 / opdOf p.beta0 (coords p 5) := ((place_alike k rfl rfl).rpp).symm
    rw [hr] at ok'
    refine (canonical_multMap a p.chi p.beta0 (max a.kOrder a.klOrder + 1).toNat (fine_coords k) ok').congr
      (Eventually.of_forall fun z => ?_)
    exact coords_multFringe k.beta0 z a hk

end

end Verif.Symplectic
