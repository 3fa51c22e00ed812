import Verif.Frames.MisLemmas
import Verif.Energy.Spec

/-!
# Properties of drifts, rotations, shifts and misalignments (C48, C49, C50, C56)
-/

namespace Verif.Frames

noncomputable section

/-! ## The particles of the code meet the hypotheses -/

/-- The coordinates of a particle object whose energy variables describe one moving
particle (`Verif.Energy.Consistent`, established by C01-C04) satisfy `Kin`. -/
theorem kin_of_consistent {e : Energy.Part} (h : Energy.Consistent e) {p : Part}
    (hd : p.delta = e.delta) (ht : p.ptau = e.ptau) (hp : p.rpp = e.rpp) (hv : p.rvv = e.rvv)
    (hb : p.beta0 = e.beta0) : p.Kin := by
  have hm := h.mass
  have hp0 := h.p0c
  have hE : 0 < Energy.refEnergy e := Real.sqrt_pos.2 (by positivity)
  have hE2 : Energy.refEnergy e ^ 2 = e.p0c ^ 2 + e.mass0 ^ 2 := Real.sq_sqrt (by positivity)
  have hmom := h.momentum_pos
  have hen := h.energy_pos
  have hsh := h.mass_shell
  have hrpp := h.rpp
  have hrvv := h.rvv
  unfold Energy.momentumOf at hmom hsh hrpp hrvv
  unfold Energy.energyOf at hen hsh hrvv
  have hd1 : 0 < 1 + e.delta := pos_of_mul_pos_right hmom hp0.le
  have hbe := h.beta0
  have hn1 := hE.ne'
  have hn2 := hp0.ne'
  have hn3 := hen.ne'
  have hn4 := hd1.ne'
  constructor
  · rw [hb, hbe]; positivity
  · rw [hv, hrvv]; positivity
  · rw [hd]; exact hd1
  · rw [hd, ht, hb, hbe]
    have : e.p0c ^ 2 * ((1 + e.delta) ^ 2 - (1 + 2 * e.ptau * Energy.refEnergy e / e.p0c
        + e.ptau ^ 2)) = 0 := by
      field_simp
      linear_combination -hsh + hE2
    rcases mul_eq_zero.1 this with h0 | h0
    · exact absurd h0 (by positivity)
    · have e1 : 2 * e.ptau / (e.p0c / Energy.refEnergy e)
          = 2 * e.ptau * Energy.refEnergy e / e.p0c := by field_simp
      rw [e1]; linarith
  · rw [hd, hv, hb, ht, hrvv, hbe]
    have hn5 : Energy.refEnergy e + e.p0c * e.ptau ≠ 0 := by rwa [mul_comm e.p0c]
    field_simp
  · rw [hp, hd, hrpp]
    field_simp

/-! ## C50: drifts -/

/-- Exact drift: the particle flies straight, `length` further along the straight
reference path. -/
theorem C50_exact_flight {p : Part} (h : p.Forward) (length : ℝ) :
    Moves (straightRef length) length p (driftExact p length) := by
  have hz := h.pz_pos
  simp only [driftExact, pz_mul]
  refine ⟨⟨rfl, rfl, rfl, rfl, rfl, rfl⟩, rfl, ?_, ?_, length / p.pz, ?_, ?_⟩
  · ext <;> simp [straightRef, Frame.dir, Frame.shift, Part.mom, Part.pz]
  · ext <;> simp [straightRef, Frame.dir, Frame.shift, Part.spin]
  · ext <;> simp only [straightRef, Frame.point, Frame.dir, Frame.shift] <;> field_simp <;> ring
  · field_simp
    ring

/-- Two drifts in a row are one drift, both models, all particles and lengths. -/
theorem C50_compose (p : Part) (l1 l2 : ℝ) :
    driftExact (driftExact p l1) l2 = driftExact p (l1 + l2) ∧
    driftExpanded (driftExpanded p l1) l2 = driftExpanded p (l1 + l2) := by
  constructor
  · ext <;> simp only [driftExact] <;> ring
  · ext <;> simp only [driftExpanded] <;> ring

/-- Tracking a drift element and tracking it back changes nothing; the energy
variables and momenta are not touched; two drift elements with the same model are
one of the summed length. -/
theorem C50_element (useExact : Bool) (model : DriftModel) (l1 l2 : ℝ) (p : Part) :
    driftElement useExact model l1 true (driftElement useExact model l1 false p) = p ∧
    driftElement useExact model l2 false (driftElement useExact model l1 false p)
      = driftElement useExact model (l1 + l2) false p ∧
    (∀ b, let q := driftElement useExact model l1 b p
      q.px = p.px ∧ q.py = p.py ∧ q.delta = p.delta ∧ q.ptau = p.ptau ∧ q.rpp = p.rpp ∧
      q.rvv = p.rvv ∧ q.s = p.s + (if b then -l1 else l1)) := by
  have z1 : driftExact p 0 = p := by ext <;> simp [driftExact]
  have z2 : driftExpanded p 0 = p := by ext <;> simp [driftExpanded]
  have c1 := fun a b => (C50_compose p a b).1
  have c2 := fun a b => (C50_compose p a b).2
  refine ⟨?_, ?_, ?_⟩
  · cases useExact <;> cases model <;> simp [driftElement, c1, c2, z1, z2]
  · cases useExact <;> cases model <;> simp [driftElement, c1, c2]
  · intro b
    cases useExact <;> cases model <;> cases b <;>
      simp [driftElement, driftExact, driftExpanded]

/-- In the expanded drift the slopes are `px/(1+delta)` and `py/(1+delta)`, in the
exact one `px/pz` and `py/pz`; nothing else moves transversely. -/
theorem C50_slopes {p : Part} (k : p.Kin) (length : ℝ) :
    (driftExpanded p length).x = p.x + length * p.px / (1 + p.delta) ∧
    (driftExpanded p length).y = p.y + length * p.py / (1 + p.delta) ∧
    (driftExact p length).x = p.x + length * p.px / p.pz ∧
    (driftExact p length).y = p.y + length * p.py / p.pz := by
  have hr : p.rpp = 1 / (1 + p.delta) := by
    rw [eq_div_iff k.delta.ne']; exact k.rpp
  refine ⟨?_, ?_, ?_, ?_⟩
  · simp only [driftExpanded, hr]; ring
  · simp only [driftExpanded, hr]; ring
  · simp only [driftExact, pz_mul]; ring
  · simp only [driftExact, pz_mul]; ring

/-- Elementary bounds of `1 / √(1 - u)`. -/
theorem inv_sqrt_bounds {u s : ℝ} (h0 : 0 ≤ u) (h1 : u ≤ 1 / 2) (hs : 0 < s) (e : s * s = 1 - u) :
    1 + u / 2 ≤ 1 / s ∧ 1 / s ≤ 1 + u / 2 + u ^ 2 ∧ 1 / s ≤ 1 + u := by
  have key : ∀ c : ℝ, 0 < c → 1 ≤ c ^ 2 * (1 - u) → 1 / s ≤ c := by
    intro c hc h
    rw [div_le_iff₀ hs]
    have : 1 ≤ (c * s) ^ 2 := by rw [mul_pow, pow_two s, e]; exact h
    nlinarith [mul_pos hc hs]
  refine ⟨?_, key _ (by positivity) (by nlinarith [mul_nonneg h0 h0, mul_nonneg (mul_nonneg h0 h0) h0, mul_nonneg (mul_nonneg h0 h0) (sub_nonneg.2 h1), mul_nonneg (mul_nonneg (mul_nonneg h0 h0) h0) (sub_nonneg.2 h1)]), key _ (by positivity) (by nlinarith [mul_nonneg h0 h0, mul_nonneg h0 (sub_nonneg.2 h1), mul_nonneg (mul_nonneg h0 h0) (sub_nonneg.2 h1)])⟩
  rw [le_div_iff₀ hs]
  have : ((1 + u / 2) * s) ^ 2 ≤ 1 := by
    rw [mul_pow, pow_two s, e]; nlinarith [mul_nonneg h0 h0, mul_nonneg (mul_nonneg h0 h0) h0]
  nlinarith [mul_pos (by linarith : 0 < 1 + u / 2) hs]

/-- The expanded drift approximates the exact one: the positions agree up to third order in the
angles, the longitudinal coordinate up to fourth order, with explicit bounds for all angles up to
one radian over the square root of two. -/
theorem C50_expanded_error {p : Part} (k : p.Kin) (length : ℝ)
    (small : (p.px / (1 + p.delta)) ^ 2 + (p.py / (1 + p.delta)) ^ 2 ≤ 1 / 2) :
    let u := (p.px / (1 + p.delta)) ^ 2 + (p.py / (1 + p.delta)) ^ 2
    |(driftExact p length).x - (driftExpanded p length).x|
      ≤ |length * (p.px / (1 + p.delta))| * u ∧
    |(driftExact p length).y - (driftExpanded p length).y|
      ≤ |length * (p.py / (1 + p.delta))| * u ∧
    |(driftExact p length).zeta - (driftExpanded p length).zeta| ≤ |length / p.rvv| * u ^ 2 := by
  intro u
  have hd := k.delta
  have hr : p.rpp = 1 / (1 + p.delta) := by
    rw [eq_div_iff k.delta.ne']; exact k.rpp
  have hu0 : 0 ≤ u := by positivity
  obtain ⟨s, hs⟩ : ∃ s, s = Real.sqrt (1 - u) := ⟨_, rfl⟩
  have hs0 : 0 < s := hs ▸ Real.sqrt_pos.2 (by simp only [u]; linarith)
  have hss : s * s = 1 - u := hs ▸ Real.mul_self_sqrt (by simp only [u]; linarith)
  obtain ⟨b1, b2, b3⟩ := inv_sqrt_bounds hu0 small hs0 hss
  have hpz : Real.sqrt ((1 + p.delta) * (1 + p.delta) - p.px * p.px - p.py * p.py)
      = (1 + p.delta) * s := by
    rw [show (1 + p.delta) * (1 + p.delta) - p.px * p.px - p.py * p.py
      = ((1 + p.delta) * s) ^ 2 by
        rw [mul_pow, pow_two s, hss]; simp only [u]; field_simp; ring]
    exact Real.sqrt_sq (by positivity)
  have hx : (driftExact p length).x - (driftExpanded p length).x
      = length * (p.px / (1 + p.delta)) * (1 / s - 1) := by
    simp only [driftExact, driftExpanded, hpz, hr]; field_simp; ring
  have hy : (driftExact p length).y - (driftExpanded p length).y
      = length * (p.py / (1 + p.delta)) * (1 / s - 1) := by
    simp only [driftExact, driftExpanded, hpz, hr]; field_simp; ring
  have hz : (driftExact p length).zeta - (driftExpanded p length).zeta
      = length / p.rvv * (1 + u / 2 - 1 / s) := by
    simp only [driftExact, driftExpanded, hpz, hr, u]; field_simp; ring
  have a1 : |1 / s - 1| ≤ u := by rw [abs_le]; constructor <;> linarith
  have a2 : |1 + u / 2 - 1 / s| ≤ u ^ 2 := by
    rw [abs_le]; constructor <;> nlinarith [sq_nonneg u]
  rw [hx, hy, hz]
  have go : ∀ w a b : ℝ, |a| ≤ b → |w * a| ≤ |w| * b := fun w a b h => by
    rw [abs_mul]; exact mul_le_mul_of_nonneg_left h (abs_nonneg _)
  exact ⟨go _ _ _ a1, go _ _ _ a1, go _ _ _ a2⟩

/-- Polar drift: the particle flies straight while the frame follows the arc. -/
theorem C50_polar_flight {p : Part} (k : p.Kin) (h : p.Forward) {length c : ℝ} (hc : c ≠ 0)
    (hcos : Real.cos (c * length) ≠ 0) (hx : Crosses (Frame.arc (c * length) c) p)
    (hs : p.spin = ⟨0, 0, 0⟩) :
    Moves (Frame.arc (c * length) c) length p (polarDrift p length c) := by
  have hz := h.pz_pos
  have hzsq := h.pz_sq
  have hrv := k.rvv.ne'
  have hhalf : Real.cos (c * length) = 1 - 2 * Real.sin (0.5 * c * length) ^ 2 := by
    have e1 := Real.cos_two_mul (0.5 * c * length)
    have e2 := Real.sin_sq_add_cos_sq (0.5 * c * length)
    rw [show 2 * (0.5 * c * length) = c * length by ring] at e1
    rw [e1]; linear_combination 2 * e2
  have hpz : Real.sqrt ((p.delta + 1) ^ 2 - p.px ^ 2 - p.py ^ 2) = p.pz := by
    rw [Part.pz, add_comm]
  have hsp : p.spinX = 0 ∧ p.spinY = 0 ∧ p.spinZ = 0 := by
    simpa only [Part.spin, Vec.mk.injEq] using hs
  have hcs := Real.sin_sq_add_cos_sq (c * length)
  simp only [Crosses, Frame.arc] at hx
  have hx' : 0 < Real.cos (c * length) * p.pz - Real.sin (c * length) * p.px := by linarith
  have hx2 := hx'.ne'
  simp only [Frame.arc]
  generalize hq : polarDrift p length c = q
  simp only [polarDrift, hpz] at hq
  generalize Real.sin (0.5 * c * length) = sa2 at *
  generalize Real.cos (c * length) = ca at *
  generalize Real.sin (c * length) = sa at *
  have hx3 : ca - sa * (p.px * (1 / p.pz)) ≠ 0 := by
    have : ca - sa * (p.px * (1 / p.pz)) = (ca * p.pz - sa * p.px) / p.pz := by field_simp
    rw [this]; positivity
  have qz : q.pz = ca * p.pz - sa * p.px := by
    rw [Part.pz, ← Real.sqrt_sq hx'.le]
    congr 1
    subst hq
    simp only
    linear_combination hzsq * (-sa ^ 2 - ca ^ 2) + (p.py ^ 2 - (1 + p.delta) ^ 2) * hcs
  have qx : q.x + 1 / c = (p.x + 1 / c) * p.pz / (ca * p.pz - sa * p.px) := by
    rw [← hq]
    simp only
    have e : 1 / (ca - sa * (p.px * (1 / p.pz))) = p.pz / (ca * p.pz - sa * p.px) := by
      have e0 : ca - sa * (p.px * (1 / p.pz)) = (ca * p.pz - sa * p.px) / p.pz := by field_simp
      rw [e0, one_div_div]
    have e2 : 2 * sa2 * sa2 = 1 - ca := by rw [hhalf]; ring
    rw [e, e2]
    field_simp
    ring
  have hdl : (1 + p.delta) * (p.x + 1 / c) * sa / ca / p.pz / (1 - p.px * sa / ca / p.pz)
      = sa * (p.x + 1 / c) / (ca * p.pz - sa * p.px) * (1 + p.delta) := by
    have e : 1 - p.px * sa / ca / p.pz = (ca * p.pz - sa * p.px) / (ca * p.pz) := by
      field_simp
    rw [e]
    field_simp
  refine ⟨by subst hq; exact ⟨rfl, rfl, rfl, rfl, rfl, rfl⟩, by subst hq; rfl, ?_, ?_,
    sa * (p.x + 1 / c) / (ca * p.pz - sa * p.px), ?_, ?_⟩
  · have e1 : q.px = ca * p.px + sa * p.pz := by subst hq; rfl
    have e2 : q.py = p.py := by subst hq; rfl
    ext <;> simp only [Frame.dir, Part.mom, qz, e1, e2]
    · linear_combination p.px * hcs
    · ring
    · linear_combination p.pz * hcs
  · have e1 : q.spin = p.spin := by subst hq; rfl
    rw [e1, hs]
    ext <;> simp [Frame.dir]
  · have e1 : q.x = (p.x + 1 / c) * p.pz / (ca * p.pz - sa * p.px) - 1 / c := by
      rw [← qx]; ring
    have e2 : q.y = p.y + sa * (p.x + 1 / c) / (ca * p.pz - sa * p.px) * p.py := by
      subst hq
      simp only
      field_simp
    ext <;> simp only [Frame.point, Frame.dir, e1, e2]
    · field_simp
      ring
    · ring
    · field_simp
      ring
  · subst hq
    simp only
    rw [add_comm p.delta 1, hdl]
    ring


/-! ## C48: rotations and shifts -/

/-- `YRotation` describes the particle in the frame turned by the angle around the
vertical axis; tracking back undoes it. -/
theorem C48_yrotation {p : Part} (k : p.Kin) (h : p.Forward) {angle : ℝ}
    (hc : Real.cos angle ≠ 0) (hx : Crosses (Frame.yaw angle) p) :
    Same (Frame.yaw angle) p (yRotationElement angle false p) ∧
    yRotationElement angle true (yRotationElement angle false p) = p := by
  have s : Same (Frame.yaw angle) p (yRotationElement angle false p) := by
    simpa [yRotationElement] using same_yRot k h hc hx
  refine ⟨s, ?_⟩
  have f := s.forward (ortho_yaw _) hx
  have s2 : Same (Frame.yaw (-angle)) (yRotationElement angle false p)
      (yRotationElement angle true (yRotationElement angle false p)) := by
    generalize yRotationElement angle false p = q at *
    have := same_yRot (s.kind.kin k) f (t := -angle) (by rwa [Real.cos_neg]) (by
      rw [← crosses_comp (ortho_yaw _) s, yaw_cancel]
      exact crosses_id h)
    simpa [yRotationElement, Real.sin_neg, Real.cos_neg, Real.tan_neg] using this
  have s3 := s.comp s2
  rw [yaw_cancel] at s3
  exact s3.eq_of_id h

/-- `XRotation` describes the particle in the frame turned by the angle around the
horizontal axis, positive from y to s; tracking back undoes it. -/
theorem C48_xrotation {p : Part} (k : p.Kin) (h : p.Forward) {angle : ℝ}
    (hc : Real.cos angle ≠ 0) (hx : Crosses (Frame.pitch (-angle)) p) :
    Same (Frame.pitch (-angle)) p (xRotationElement angle false p) ∧
    xRotationElement angle true (xRotationElement angle false p) = p := by
  have s : Same (Frame.pitch (-angle)) p (xRotationElement angle false p) := by
    have := same_xRot k h (t := -angle) (by rwa [Real.cos_neg]) hx
    simpa [xRotationElement, Real.sin_neg, Real.cos_neg, Real.tan_neg] using this
  refine ⟨s, ?_⟩
  have f := s.forward (ortho_pitch _) hx
  have e : (Frame.pitch (-angle)).comp (Frame.pitch angle) = Frame.id := by
    have := pitch_cancel (-angle)
    rwa [neg_neg] at this
  have s2 : Same (Frame.pitch angle) (xRotationElement angle false p)
      (xRotationElement angle true (xRotationElement angle false p)) := by
    generalize xRotationElement angle false p = q at *
    have := same_xRot (s.kind.kin k) f (t := angle) hc (by
      rw [← crosses_comp (ortho_pitch _) s, e]
      exact crosses_id h)
    simpa [xRotationElement] using this
  have s3 := s.comp s2
  rw [e] at s3
  exact s3.eq_of_id h

/-- `SRotation` describes the particle in the frame rolled by the angle; tracking back
undoes it. -/
theorem C48_srotation {p : Part} (h : p.Forward) (angle : ℝ) :
    Same (Frame.roll angle) p (sRotationElement angle false p) ∧
    sRotationElement angle true (sRotationElement angle false p) = p := by
  have s : Same (Frame.roll angle) p (sRotationElement angle false p) := by
    simpa [sRotationElement] using same_sRot p angle
  refine ⟨s, ?_⟩
  have s2 : Same (Frame.roll (-angle)) (sRotationElement angle false p)
      (sRotationElement angle true (sRotationElement angle false p)) := by
    have := same_sRot (sRotationElement angle false p) (-angle)
    simpa [sRotationElement, Real.sin_neg, Real.cos_neg] using this
  have s3 := s.comp s2
  rw [roll_cancel] at s3
  exact s3.eq_of_id h

theorem ortho_axis (rs rx ry : ℝ) (a : Axis) : (axisFrame rs rx ry a).Ortho := by
  cases a
  · exact ortho_pitch _
  · exact ortho_yaw _
  · exact ortho_roll _

theorem ortho_axes (rs rx ry : ℝ) : ∀ l, (axesFrame rs rx ry l).Ortho
  | [] => ortho_id
  | a :: l => (ortho_axis rs rx ry a).comp (ortho_axes rs rx ry l)

theorem axis_cancel (rs rx ry : ℝ) (a : Axis) :
    (axisFrame rs rx ry a).comp (axisFrame (-rs) (-rx) (-ry) a) = Frame.id := by
  cases a
  · exact pitch_cancel _
  · exact yaw_cancel _
  · exact roll_cancel _

theorem same_rotStep {rs rx ry : ℝ} (hcx : Real.cos rx ≠ 0) (hcy : Real.cos ry ≠ 0) {p : Part}
    (k : p.Kin) (h : p.Forward) (a : Axis) (hx : Crosses (axisFrame rs rx ry a) p) :
    Same (axisFrame rs rx ry a) p (rotStep rs rx ry p a) := by
  cases a
  · simp only [axisFrame, rotStep] at hx ⊢
    split
    · have := same_xRot k h (t := -rx) (by rwa [Real.cos_neg]) hx
      simpa [Real.sin_neg, Real.cos_neg, Real.tan_neg] using this
    · next h0 => rw [not_not.1 h0, neg_zero, pitch_zero]; exact Same.refl p
  · simp only [axisFrame, rotStep] at hx ⊢
    split
    · exact same_yRot k h hcy hx
    · next h0 => rw [not_not.1 h0, yaw_zero]; exact Same.refl p
  · simp only [axisFrame, rotStep] at hx ⊢
    split
    · exact same_sRot p rs
    · next h0 => rw [not_not.1 h0, roll_zero]; exact Same.refl p

theorem rotSteps {rs rx ry : ℝ} (hcx : Real.cos rx ≠ 0) (hcy : Real.cos ry ≠ 0) :
    ∀ (l : List Axis) {p : Part}, p.Kin → p.Forward →
    (∀ l', l' <+: l → Crosses (axesFrame rs rx ry l') p) →
    Same (axesFrame rs rx ry l) p (l.foldl (rotStep rs rx ry) p) ∧
    l.reverse.foldl (rotStep (-rs) (-rx) (-ry)) (l.foldl (rotStep rs rx ry) p) = p := by
  intro l
  induction l with
  | nil => intro p _ _ _; exact ⟨Same.refl p, rfl⟩
  | cons a l ih =>
    intro p k h hx
    have hxa : Crosses (axisFrame rs rx ry a) p := by
      have := hx [a] (by simp)
      simpa only [axesFrame, Frame.comp_id] using this
    have s := same_rotStep hcx hcy k h a hxa
    have o := ortho_axis rs rx ry a
    have f := s.forward o hxa
    have kq := s.kind.kin k
    obtain ⟨i1, i2⟩ := ih kq f (fun l' hl' => by
      rw [← crosses_comp o s]
      exact hx (a :: l') (List.cons_prefix_cons.2 ⟨rfl, hl'⟩))
    refine ⟨?_, ?_⟩
    · simpa only [List.foldl_cons, axesFrame] using s.comp i1
    · simp only [List.foldl_cons, List.reverse_cons, List.foldl_append, List.foldl_nil]
      rw [i2]
      have s2 := same_rotStep (rs := -rs) (rx := -rx) (ry := -ry) (by rwa [Real.cos_neg])
        (by rwa [Real.cos_neg]) kq f a (by
          rw [← crosses_comp o s, axis_cancel]
          exact crosses_id h)
      have s3 := s.comp s2
      rw [axis_cancel] at s3
      exact s3.eq_of_id h

/-- `Rotation` describes the particle in the frame turned around the chosen axes in the
chosen order, whatever the order; tracking back undoes it. -/
theorem C48_rotation {rs rx ry : ℝ} (hcx : Real.cos rx ≠ 0) (hcy : Real.cos ry ≠ 0)
    (first second third : Axis) {p : Part} (k : p.Kin) (h : p.Forward)
    (hx : ∀ l, l <+: [first, second, third] → Crosses (axesFrame rs rx ry l) p) :
    Same (axesFrame rs rx ry [first, second, third]) p
      (rotationElement rs rx ry first second third false p) ∧
    rotationElement rs rx ry first second third true
      (rotationElement rs rx ry first second third false p) = p := by
  have := rotSteps hcx hcy [first, second, third] k h hx
  simpa [rotationElement] using this

/-- `Translation` describes the particle in the shifted frame, `ZetaShift` changes
`zeta` only; tracking back undoes them. -/
theorem C48_shifts (sx sy dz : ℝ) (p : Part) :
    Same (Frame.shift sx sy 0) p (translationElement sx sy false p) ∧
    translationElement sx sy true (translationElement sx sy false p) = p ∧
    zetaShiftElement dz false p = { p with zeta := p.zeta - dz } ∧
    zetaShiftElement dz true (zetaShiftElement dz false p) = p := by
  refine ⟨same_xyShift p sx sy, ?_, rfl, ?_⟩
  · ext <;> simp [translationElement, xyShift]
  · ext <;> simp [zetaShiftElement]

/-- None of these elements changes the magnitude of the momentum, the energy
variables, `s`, or the length of the spin. -/
theorem C48_conserved {F : Frame} (hF : F.Ortho) {p q : Part} (h : Same F p q) :
    q.px ^ 2 + q.py ^ 2 + q.pz ^ 2 = p.px ^ 2 + p.py ^ 2 + p.pz ^ 2 ∧
    q.spinX ^ 2 + q.spinY ^ 2 + q.spinZ ^ 2 = p.spinX ^ 2 + p.spinY ^ 2 + p.spinZ ^ 2 ∧
    q.delta = p.delta ∧ q.ptau = p.ptau ∧ q.rvv = p.rvv ∧ q.s = p.s := by
  have norm : ∀ u : Vec, (F.dir u).x ^ 2 + (F.dir u).y ^ 2 + (F.dir u).z ^ 2
      = u.x ^ 2 + u.y ^ 2 + u.z ^ 2 := by
    intro u
    simp only [Frame.dir]
    linear_combination u.x ^ 2 * hF.c11 + u.y ^ 2 * hF.c22 + u.z ^ 2 * hF.c33
      + 2 * u.x * u.y * hF.c12 + 2 * u.x * u.z * hF.c13 + 2 * u.y * u.z * hF.c23
  have h1 := norm q.mom
  have h2 := norm q.spin
  rw [h.mom] at h1
  rw [h.spin] at h2
  exact ⟨h1.symm, h2.symm, h.kind.delta, h.kind.ptau, h.kind.rvv, by rw [h.s]; ring⟩

/-! ## C49: misalignments -/

theorem sliceMis_eq (e : Placed) : sliceMis e = e.local := rfl

/-- The branch of the code which treats an element as straight. -/
theorem branch {e : Placed} (hc : e.Coherent) {angle h : ℝ} (he : e.curved = some (angle, h)) :
    (angle * e.weight = 0 ∧ (e.local.length ≠ 0 ∨ h = 0)) ↔ e.kappa = 0 := by
  have ha := hc angle h he
  have hk : e.kappa = h := by simp only [Placed.kappa, he]
  rw [hk]
  constructor
  · rintro ⟨h1, h2 | h2⟩
    · by_contra hne
      apply h2
      rw [ha] at h1
      simp only [Placed.local, Placed.len]
      rcases mul_eq_zero.1 h1 with h3 | h3
      · rw [(mul_eq_zero.1 h3).resolve_left hne]
        simp
      · rw [h3]; simp
    · exact h2
  · intro h0
    exact ⟨by rw [ha, h0]; simp, Or.inr h0⟩

theorem curvature_eq {e : Placed} (hc : e.Coherent) {angle h : ℝ}
    (he : e.curved = some (angle, h)) : curvature e.local (angle * e.weight) h = e.kappa := by
  have ha := hc angle h he
  have hk : e.kappa = h := by simp only [Placed.kappa, he]
  rw [hk]
  unfold curvature
  split
  · next hl =>
    simp only [Placed.local, Placed.len] at hl ⊢
    have ht : e.thick = true := by
      by_contra h0
      apply hl
      simp [h0]
    rw [ht] at hl ⊢
    simp only [if_true] at hl ⊢
    rw [ha, mul_assoc, mul_div_assoc, div_self hl, mul_one]
  · rfl

theorem turn_eq {e : Placed} (hc : e.Coherent) {angle h : ℝ}
    (he : e.curved = some (angle, h)) : angle * e.weight = e.turn := by
  have ha := hc angle h he
  have hk : e.kappa = h := by simp only [Placed.kappa, he]
  rw [Placed.turn, hk, ha]
  ring

theorem misalignEntry_straight {e : Placed} (hc : e.Coherent) (h0 : e.kappa = 0) (b : Bool)
    (p : Part) : misalignEntry e b p = entryStraight e.local b p := by
  unfold misalignEntry
  split
  · next angle h he =>
    unfold entryCurved
    rw [sliceMis_eq, if_pos ((branch hc he).2 h0)]
  · rfl

theorem misalignExit_straight {e : Placed} (hc : e.Coherent) (h0 : e.kappa = 0) (b : Bool)
    (p : Part) : misalignExit e b p = exitStraight e.local b p := by
  unfold misalignExit
  split
  · next angle h he =>
    unfold exitCurved
    rw [sliceMis_eq, if_pos ((branch hc he).2 h0)]
  · rfl

theorem curved_of_kappa {e : Placed} (h0 : e.kappa ≠ 0) : ∃ angle h, e.curved = some (angle, h) := by
  unfold Placed.kappa at h0
  split at h0
  · next a h he => exact ⟨a, h, he⟩
  · exact absurd rfl h0

/-- Entry of an element: the particle is described in the frame of the misaligned
element.  The frame is that of the rigid body moved and turned about its anchor,
followed back along the (straight or curved) path of the element to its entry. -/
theorem C49_entry {e : Placed} (hc : e.Coherent) {p : Part} (hp : Comes e p) :
    Same (entryFrame e) p (misalignEntry e false p) ∧
    misalignEntry e true (misalignEntry e false p) = p := by
  obtain ⟨k, f, hpi, hps⟩ := hp
  unfold entryFrame at *
  by_cases h0 : e.kappa = 0
  · rw [if_pos h0] at hps ⊢
    simp only [misalignEntry_straight hc h0]
    exact ⟨same_entryStraight k f (hpi h0) hps, entryStraight_back k f (hpi h0) hps⟩
  · rw [if_neg h0] at hps ⊢
    obtain ⟨angle, h, he⟩ := curved_of_kappa h0
    have hb : ¬ (angle * e.weight = 0 ∧ (e.local.length ≠ 0 ∨ h = 0)) := by rwa [branch hc he]
    rw [← curvature_eq hc he] at hps ⊢
    have e1 : ∀ b q, misalignEntry e b q = entryCurved e.local (angle * e.weight) h b q := by
      intro b q
      simp only [misalignEntry, he, sliceMis_eq]
    simp only [e1]
    exact ⟨same_entryCurved hb k f hps, entryCurved_back hb k f hps⟩

/-- Exit of an element: from the frame of the misaligned element to the reference frame
behind the element. -/
theorem C49_exit {e : Placed} (hc : e.Coherent) {q : Part} (hq : Leaves e q) :
    Same (exitFrame e) q (misalignExit e false q) ∧
    misalignExit e true (misalignExit e false q) = q := by
  obtain ⟨k, f, hpi, hst, hcu⟩ := hq
  unfold exitFrame at *
  by_cases h0 : e.kappa = 0
  · rw [if_pos h0]
    simp only [misalignExit_straight hc h0]
    exact ⟨same_exitStraight k f (hpi h0) (hst h0), exitStraight_back k f (hpi h0) (hst h0)⟩
  · rw [if_neg h0]
    obtain ⟨angle, h, he⟩ := curved_of_kappa h0
    have hb : ¬ (angle * e.weight = 0 ∧ (e.local.length ≠ 0 ∨ h = 0)) := by rwa [branch hc he]
    have hps := hcu h0
    rw [← curvature_eq hc he, ← turn_eq hc he] at hps ⊢
    have e1 : ∀ b q, misalignExit e b q = exitCurved e.local (angle * e.weight) h b q := by
      intro b q
      simp only [misalignExit, he, sliceMis_eq]
    simp only [e1]
    exact ⟨same_exitCurved hb k f hps, exitCurved_back hb k f hps⟩

theorem moved_inactive {m : Mis} (h : ¬ active m) : moved m = Frame.id := by
  simp only [active, not_or, not_not] at h
  obtain ⟨h1, h2, h3, h4, h5, h6, h7⟩ := h
  unfold moved
  rw [h1, h2, h3, h4, h5, h7, yaw_zero, pitch_zero, roll_zero, shift_zero]
  simp only [Frame.comp_id]

theorem inactive_straight {m : Mis} (h : ¬ active m) (b : Bool) (p : Part) :
    entryStraight m b p = p ∧ exitStraight m b p = p := by
  simp only [active, not_or, not_not] at h
  obtain ⟨h1, h2, h3, h4, h5, h6, h7⟩ := h
  constructor <;> cases b <;>
    simp [entryStraight, exitStraight, h1, h2, h3, h4, h5, h6, h7, yRotate, xRotate, sRotate, sShift,
      xyShift]

theorem angles_of_id {a : M4} (h : ofM4 a = Frame.id) :
    a 0 3 = 0 ∧ a 1 3 = 0 ∧ a 2 3 = 0 ∧ rotTheta a = 0 ∧ rotPhi a = 0 ∧ rotPsi a = 0 := by
  simp only [ofM4, Frame.id, Frame.mk.injEq] at h
  obtain ⟨h11, h12, h13, h21, h22, h23, h31, h32, h33, d1, d2, d3⟩ := h
  have e : Complex.arg ⟨1, 0⟩ = 0 := Complex.arg_one
  refine ⟨d1, d2, d3, ?_, ?_, ?_⟩
  · rw [rotTheta, atan2, h13, h33, e]
  · rw [rotPhi, atan2, h23, h21, h22]
    norm_num [e]
  · rw [rotPsi, atan2, h21, h22, e]

theorem inactive_curved {m : Mis} (h : ¬ active m) (angle c : ℝ) (b : Bool) (p : Part) :
    entryCurved m angle c b p = p ∧ exitCurved m angle c b p = p := by
  have ht : m.tilt = 0 := by
    simp only [active, not_or, not_not] at h
    exact h.2.2.2.2.2.1
  unfold entryCurved exitCurved
  split
  · exact inactive_straight h b p
  · have e1 : ofM4 (entryMatrix m angle c) = Frame.id := by
      unfold entryMatrix
      simp only
      rw [ofM4_mul_inv, ofM4_mul_mis, ofM4_part, moved_inactive h, Frame.comp_id,
        Frame.comp_inv (ortho_curvedRef _ _ _)]
    have e2 : ofM4 (exitMatrix m angle c) = Frame.id := by
      unfold exitMatrix
      simp only
      rw [ofM4_mul_part, ofM4_mul_inv, ofM4_inv, ofM4_part, ofM4_mis, moved_inactive h,
        inv_eq ortho_id (Frame.comp_id _), Frame.comp_id, Frame.inv_comp (ortho_curvedRef _ _ _)]
    obtain ⟨a1, a2, a3, a4, a5, a6⟩ := angles_of_id e1
    obtain ⟨b1, b2, b3, b4, b5, b6⟩ := angles_of_id e2
    constructor <;> cases b <;>
      simp [a1, a2, a3, a4, a5, a6, b1, b2, b3, b4, b5, b6, ht, yRotate, xRotate, sRotate, sShift,
        xyShift]

/-- Every element, whether its transformations are used or skipped, is entered and left
through the frames of its misalignment. -/
theorem C49_always (e : Placed) (body : Bool → Part → Part) (p : Part) :
    trackPlaced e body false p = misalignExit e false (body false (misalignEntry e false p)) ∧
    trackPlaced e body true p = misalignEntry e true (body true (misalignExit e true p)) := by
  by_cases h : active e.mis
  · unfold trackPlaced
    simp [h]
  · have h' : ¬ active (sliceMis e) := h
    have e1 : ∀ b q, misalignEntry e b q = q := by
      intro b q
      unfold misalignEntry
      split
      · exact (inactive_curved h' _ _ b q).1
      · exact (inactive_straight h' b q).1
    have e2 : ∀ b q, misalignExit e b q = q := by
      intro b q
      unfold misalignExit
      split
      · exact (inactive_curved h' _ _ b q).2
      · exact (inactive_straight h' b q).2
    unfold trackPlaced
    simp [h, e1, e2]

/-- Backtracking a misaligned element undoes tracking it, if this is true of its body. -/
theorem C49_backtrack {e : Placed} (hc : e.Coherent) (body : Bool → Part → Part) {p : Part}
    (hp : Comes e p) (hq : Leaves e (body false (misalignEntry e false p)))
    (hbody : ∀ q, body true (body false q) = q) :
    trackPlaced e body true (trackPlaced e body false p) = p := by
  unfold trackPlaced
  split
  · simp only [Bool.not_false, Bool.not_true, if_true, Bool.false_eq_true, if_false]
    rw [(C49_exit hc hq).2, hbody, (C49_entry hc hp).2]
  · exact hbody p

theorem arc_comp_arc (a b h : ℝ) : (Frame.arc a h).comp (Frame.arc b h) = Frame.arc (a + b) h := by
  ext <;> simp only [Frame.comp, Frame.arc, Real.cos_add, Real.sin_add] <;> ring

theorem arc_zero (h : ℝ) : Frame.arc 0 h = Frame.id := by
  ext <;> simp [Frame.arc, Frame.id]

theorem curvedRef_comp (a b h t : ℝ) :
    (curvedRef a h t).comp (curvedRef b h t) = curvedRef (a + b) h t := by
  unfold curvedRef
  have e := roll_cancel (-t)
  rw [neg_neg] at e
  simp only [Frame.comp_assoc]
  rw [comp_cancel e, ← Frame.comp_assoc (Frame.arc a h), arc_comp_arc]

theorem curvedRef_zero (h t : ℝ) : curvedRef 0 h t = Frame.id := by
  unfold curvedRef
  rw [arc_zero, Frame.id_comp, roll_cancel]

theorem curvedRef_inv (a h t : ℝ) : (curvedRef a h t).inv = curvedRef (-a) h t := by
  apply inv_eq (ortho_curvedRef _ _ _)
  rw [curvedRef_comp, add_neg_cancel, curvedRef_zero]

theorem straightRef_comp (a b : ℝ) : (straightRef a).comp (straightRef b) = straightRef (a + b) := by
  unfold straightRef
  rw [shift_comp_shift]
  simp

theorem straightRef_zero : straightRef 0 = Frame.id := shift_zero

theorem roll_straightRef (t a : ℝ) :
    (Frame.roll t).comp ((straightRef a).comp (Frame.roll (-t))) = straightRef a := by
  have e : (straightRef a).comp (Frame.roll (-t)) = (Frame.roll (-t)).comp (straightRef a) := by
    ext <;> simp [straightRef, Frame.comp, Frame.roll, Frame.shift]
  rw [e, comp_cancel (roll_cancel t)]

/-- Frames of a straight element: entry, body, exit give the reference path. -/
theorem straight_around (m : Mis) :
    (straightEntry m).comp ((straightRef m.length).comp (straightExit m)) = straightRef m.length := by
  unfold straightEntry straightExit
  simp only [Frame.comp_assoc, straightRef_inv]
  rw [show (Frame.roll m.tilt).comp ((straightRef m.length).comp ((Frame.roll (-m.tilt)).comp
      ((straightRef (-(m.length - m.anchor))).comp
        ((moved m).inv.comp (straightRef (m.length - m.anchor))))))
    = (straightRef m.length).comp ((straightRef (-(m.length - m.anchor))).comp
        ((moved m).inv.comp (straightRef (m.length - m.anchor)))) by
      rw [← Frame.comp_assoc (straightRef m.length), ← Frame.comp_assoc (Frame.roll m.tilt),
        roll_straightRef]]
  rw [← Frame.comp_assoc (straightRef m.length), straightRef_comp,
    ← Frame.comp_assoc (straightRef (-m.anchor)), straightRef_comp,
    show -m.anchor + (m.length + -(m.length - m.anchor)) = 0 by ring, straightRef_zero,
    Frame.id_comp, comp_cancel (Frame.comp_inv (ortho_moved m)), straightRef_comp]
  congr 1
  ring

/-- The same for an element with curvature `h`. -/
theorem curved_around (m : Mis) (angle h : ℝ) :
    (curvedEntry m h).comp ((Frame.arc angle h).comp (curvedExit m angle h))
      = curvedRef angle h m.tilt := by
  unfold curvedEntry curvedExit
  simp only [Frame.comp_assoc, curvedRef_inv]
  rw [show (Frame.roll m.tilt).comp ((Frame.arc angle h).comp ((Frame.roll (-m.tilt)).comp
      ((curvedRef (-(angle - h * m.anchor)) h m.tilt).comp
        ((moved m).inv.comp (curvedRef (angle - h * m.anchor) h m.tilt)))))
    = (curvedRef angle h m.tilt).comp ((curvedRef (-(angle - h * m.anchor)) h m.tilt).comp
        ((moved m).inv.comp (curvedRef (angle - h * m.anchor) h m.tilt))) by
      conv_rhs => arg 1; unfold curvedRef
      simp only [Frame.comp_assoc]]
  rw [← Frame.comp_assoc (curvedRef angle h m.tilt), curvedRef_comp,
    ← Frame.comp_assoc (curvedRef (-(m.anchor * h)) h m.tilt), curvedRef_comp,
    show -(m.anchor * h) + (angle + -(angle - h * m.anchor)) = 0 by ring, curvedRef_zero,
    Frame.id_comp, comp_cancel (Frame.comp_inv (ortho_moved m)), curvedRef_comp]
  congr 1
  ring

/-- The particle without its spin. -/
def Part.noSpin (p : Part) : Part := { p with spinX := 0, spinY := 0, spinZ := 0 }

/-- Two polar drifts in a row are one polar drift, and a polar drift of opposite length
undoes it; the spin is not turned. -/
theorem C50_polar {p : Part} (k : p.Kin) (h : p.Forward) {c l1 l2 : ℝ} (hc : c ≠ 0)
    (h1 : Real.cos (c * l1) ≠ 0) (h2 : Real.cos (c * l2) ≠ 0)
    (h12 : Real.cos (c * (l1 + l2)) ≠ 0) (hx1 : Crosses (Frame.arc (c * l1) c) p)
    (hx2 : Crosses (Frame.arc (c * (l1 + l2)) c) p) :
    polarDrift (polarDrift p l1 c) l2 c = polarDrift p (l1 + l2) c ∧
    polarDrift (polarDrift p l1 c) (-l1) c = p ∧ (polarDrift p l1 c).spin = p.spin := by
  have strip : ∀ (q : Part) (l : ℝ), (polarDrift q l c).noSpin = polarDrift q.noSpin l c :=
    fun _ _ => rfl
  have lift : ∀ q r : Part, q.noSpin = r.noSpin → q.spin = r.spin → q = r := by
    intro q r hqr hs
    simp only [Part.noSpin, Part.mk.injEq] at hqr
    simp only [Part.spin, Vec.mk.injEq] at hs
    ext <;> tauto
  have zero : ∀ q : Part, polarDrift q 0 c = q := by
    intro q
    ext <;> simp [polarDrift]
  have key : ∀ (q : Part) (a b : ℝ), q.Kin → q.Forward → q.spin = ⟨0, 0, 0⟩ →
      Real.cos (c * a) ≠ 0 → Real.cos (c * b) ≠ 0 → Real.cos (c * (a + b)) ≠ 0 →
      Crosses (Frame.arc (c * a) c) q → Crosses (Frame.arc (c * (a + b)) c) q →
      polarDrift (polarDrift q a c) b c = polarDrift q (a + b) c := by
    intro q a b kq fq hs ha hb hab hxa hxab
    have m1 := C50_polar_flight kq fq hc ha hxa hs
    have o := ortho_arc (c * a) c
    have fr := m1.forward o hxa
    have harc : (Frame.arc (c * a) c).comp (Frame.arc (c * b) c) = Frame.arc (c * (a + b)) c := by
      rw [arc_comp_arc, mul_add]
    have m2 := C50_polar_flight (m1.kind.kin kq) fr hc hb (by
      rw [← crosses_comp o m1, harc]; exact hxab) hs
    have m3 := m1.comp m2
    rw [harc] at m3
    exact m3.uniq (ortho_arc _ _) (C50_polar_flight kq fq hc hab hxab hs) hxab
  refine ⟨?_, ?_, rfl⟩
  · refine lift _ _ ?_ rfl
    rw [strip, strip, strip]
    exact key p.noSpin l1 l2 ⟨k.1, k.2, k.3, k.4, k.5, k.6⟩ h rfl h1 h2 h12 hx1 hx2
  · refine lift _ _ ?_ rfl
    rw [strip, strip]
    rw [key p.noSpin l1 (-l1) ⟨k.1, k.2, k.3, k.4, k.5, k.6⟩ h rfl h1 (by
        rw [mul_neg, Real.cos_neg]; exact h1) (by simp) hx1 (by
        rw [add_neg_cancel, mul_zero, arc_zero]; exact crosses_id h)]
    rw [add_neg_cancel, zero]

theorem ortho_entryFrame (e : Placed) : (entryFrame e).Ortho := by
  unfold entryFrame
  split
  · exact ortho_straightEntry _
  · exact ortho_curvedEntry _ _

theorem ortho_exitFrame (e : Placed) : (exitFrame e).Ortho := by
  unfold exitFrame
  split
  · exact ortho_straightExit _
  · exact ortho_curvedExit _ _ _

/-- A slice whose angle is that of its length: a thick slice, an edge, or a slice of
a straight element. -/
def Placed.Whole (e : Placed) : Prop := e.thick = true ∨ e.weight = 0 ∨ e.kappa = 0

theorem turn_whole {e : Placed} (h : e.Whole) : e.turn = e.kappa * e.len := by
  unfold Placed.turn Placed.len
  rcases h with h | h | h <;> simp [h]

/-- Entry frame, reference path of the body and exit frame compose to the reference
path: the misalignment moves the element and nothing else. -/
theorem C49_frames {e : Placed} (hw : e.Whole) :
    (entryFrame e).comp ((bodyFrame e).comp (exitFrame e)) = refFrame e := by
  unfold entryFrame bodyFrame exitFrame refFrame
  split
  · exact straight_around e.local
  · rw [turn_whole hw]
    exact curved_around e.local _ _

/-- A misaligned element whose body lets particles fly freely is transparent: the
particle behind it is the free particle seen from the reference frame at its exit. -/
theorem C49_transparent {e : Placed} (hc : e.Coherent) (hw : e.Whole)
    (body : Bool → Part → Part) {p : Part} (hp : Comes e p)
    (hbody : Moves (bodyFrame e) e.len (misalignEntry e false p)
      (body false (misalignEntry e false p)))
    (hq : Leaves e (body false (misalignEntry e false p))) :
    Moves (refFrame e) e.len p (trackPlaced e body false p) := by
  have h1 := (C49_entry hc hp).1
  have h2 := (C49_exit hc hq).1
  rw [(C49_always e body p).1]
  have := Moves.comp h1 (Moves.comp hbody h2)
  rw [C49_frames hw] at this
  simpa using this

theorem leaves_drift {e : Placed} (h0 : e.kappa = 0) {p q : Part} (hp : Comes e p)
    (hs : Same (entryFrame e) p q) : Leaves e (driftExact q e.len) := by
  have hps := hp.passes
  unfold entryFrame at hs hps
  rw [if_pos h0] at hs hps
  have o := ortho_straightEntry e.local
  have f := hs.forward o hps.plane
  have d := C50_exact_flight f e.len
  obtain ⟨c1, c2, c3⟩ := passes_straight (m := e.local) (hp.pitch h0) hps
  have hd := Moves.comp hs d
  have od : ((straightEntry e.local).comp (straightRef e.len)).Ortho := o.comp (ortho_shift _ _ _)
  have key := straight_around e.local
  rw [← Frame.comp_assoc] at key
  refine ⟨d.kind.kin (hs.kind.kin hp.kin),
    d.forward (ortho_shift _ _ _) (crosses_shift _ _ _ f), fun _ => hp.pitch h0, fun _ => ?_,
    fun h => absurd h0 h⟩
  refine ⟨c1, ?_, ?_⟩
  · rw [← crosses_comp od hd, ← Frame.comp_assoc]
    have e1 : e.local.length = e.len := rfl
    rw [e1] at key
    rw [key, straightRef, crosses_shift_comp]
    exact c2
  · rw [← crosses_comp od hd]
    have e1 : e.local.length = e.len := rfl
    rw [e1] at key
    rw [key]
    exact crosses_shift _ _ _ hp.forward

/-- A misaligned exact drift (straight element whose body is the exact drift) is the
drift without misalignment. -/
theorem C49_drift {e : Placed} (hc : e.Coherent) (h0 : e.kappa = 0) {p : Part} (hp : Comes e p) :
    trackPlaced e (fun _ q => driftExact q e.len) false p = driftExact p e.len := by
  have h1 := (C49_entry hc hp).1
  have f := h1.forward (ortho_entryFrame e) hp.passes.plane
  have hq := leaves_drift h0 hp h1
  have hb : Moves (bodyFrame e) e.len (misalignEntry e false p)
      (driftExact (misalignEntry e false p) e.len) := by
    unfold bodyFrame
    rw [if_pos h0]
    exact C50_exact_flight f e.len
  have := C49_transparent hc (Or.inr (Or.inr h0)) (fun _ q => driftExact q e.len) hp hb hq
  unfold refFrame at this
  rw [if_pos h0] at this
  exact this.uniq (ortho_shift _ _ _) (C50_exact_flight hp.forward _)
    (crosses_shift _ _ _ hp.forward)

/-- Without misalignment parameters the body is tracked and nothing else. -/
theorem C49_none (e : Placed) (h : ¬ active e.mis) (body : Bool → Part → Part) (b : Bool)
    (p : Part) : trackPlaced e body b p = body b p := by
  unfold trackPlaced
  rw [if_neg h]

theorem curvedRef_conj_shift (a h t x y z : ℝ) :
    (curvedRef a h t).comp ((Frame.shift x y z).comp (curvedRef a h t).inv)
      = Frame.shift ((curvedRef a 0 t).dir ⟨x, y, z⟩).x ((curvedRef a 0 t).dir ⟨x, y, z⟩).y
          ((curvedRef a 0 t).dir ⟨x, y, z⟩).z := by
  have o := ortho_curvedRef a h t
  have key := Frame.comp_inv o
  have e1 : (curvedRef a h t).r11 = (curvedRef a 0 t).r11 ∧
    (curvedRef a h t).r12 = (curvedRef a 0 t).r12 ∧ (curvedRef a h t).r13 = (curvedRef a 0 t).r13 ∧
    (curvedRef a h t).r21 = (curvedRef a 0 t).r21 ∧ (curvedRef a h t).r22 = (curvedRef a 0 t).r22 ∧
    (curvedRef a h t).r23 = (curvedRef a 0 t).r23 ∧ (curvedRef a h t).r31 = (curvedRef a 0 t).r31 ∧
    (curvedRef a h t).r32 = (curvedRef a 0 t).r32 ∧
    (curvedRef a h t).r33 = (curvedRef a 0 t).r33 := ⟨rfl, rfl, rfl, rfl, rfl, rfl, rfl, rfl, rfl⟩
  obtain ⟨a1, a2, a3, a4, a5, a6, a7, a8, a9⟩ := e1
  generalize curvedRef a h t = F at *
  generalize curvedRef a 0 t = G at *
  simp only [Frame.ext_iff, Frame.comp, Frame.inv, Frame.id] at key
  obtain ⟨k1, k2, k3, k4, k5, k6, k7, k8, k9, k10, k11, k12⟩ := key
  ext <;> simp only [Frame.comp, Frame.inv, Frame.shift, Frame.dir, ← a1, ← a2, ← a3, ← a4, ← a5,
    ← a6, ← a7, ← a8, ← a9]
  · linear_combination k1
  · linear_combination k2
  · linear_combination k3
  · linear_combination k4
  · linear_combination k5
  · linear_combination k6
  · linear_combination k7
  · linear_combination k8
  · linear_combination k9
  · linear_combination k10
  · linear_combination k11
  · linear_combination k12

/-- The reference frame turned by the angle `a` in the plane rolled by `t`, without
any length. -/
def thinBend (a t : ℝ) : Frame := (Frame.roll t).comp ((Frame.yaw (-a)).comp (Frame.roll (-t)))

theorem thinBend_eq (a t : ℝ) : thinBend a t = curvedRef a 0 t := by
  have e : Frame.yaw (-a) = Frame.arc a 0 := by
    ext <;> simp [Frame.yaw, Frame.arc]
  rw [thinBend, e, curvedRef]

theorem turn_shift (a t : ℝ) (v : Vec) :
    (curvedRef a 0 t).comp (Frame.shift v.x v.y v.z)
      = (Frame.shift ((curvedRef a 0 t).dir v).x ((curvedRef a 0 t).dir v).y
          ((curvedRef a 0 t).dir v).z).comp (curvedRef a 0 t) := by
  have e : (curvedRef a 0 t).d1 = 0 ∧ (curvedRef a 0 t).d2 = 0 ∧ (curvedRef a 0 t).d3 = 0 := by
    refine ⟨?_, ?_, ?_⟩ <;> simp [curvedRef, Frame.comp, Frame.roll, Frame.arc]
  generalize curvedRef a 0 t = F at *
  obtain ⟨e1, e2, e3⟩ := e
  ext <;> simp [Frame.comp, Frame.shift, Frame.dir, e1, e2, e3]

/-- Thin slices of bends, which turn the frame without length, with shifts only
(rotations are refused by the code): entry, turn and exit compose to the turn of the
reference frame. -/
theorem C49_thin_bend {m : Mis} (h1 : m.theta = 0) (h2 : m.phi = 0) (h3 : m.psi = 0)
    (angle h : ℝ) :
    (curvedEntry m h).comp ((Frame.yaw (-angle)).comp (curvedExit m angle h))
      = thinBend angle m.tilt := by
  have hm : moved m = Frame.shift m.dx m.dy m.ds := by
    unfold moved
    rw [h1, h2, h3, yaw_zero, pitch_zero, roll_zero]
    simp only [Frame.comp_id]
  have hmi : (Frame.shift m.dx m.dy m.ds).inv = Frame.shift (-m.dx) (-m.dy) (-m.ds) := by
    apply inv_eq (ortho_shift _ _ _)
    rw [shift_comp_shift]
    simp [shift_zero]
  unfold curvedEntry curvedExit thinBend
  rw [hm, hmi, curvedRef_conj_shift]
  have e2 := curvedRef_conj_shift (-(angle - h * m.anchor)) h m.tilt (-m.dx) (-m.dy) (-m.ds)
  rw [curvedRef_inv, neg_neg] at e2
  rw [curvedRef_inv, e2]
  have e3 := thinBend_eq angle m.tilt
  unfold thinBend at e3
  simp only [Frame.comp_assoc]
  rw [← Frame.comp_assoc (Frame.yaw (-angle)), ← Frame.comp_assoc (Frame.roll m.tilt), e3,
    turn_shift, ← dir_comp, curvedRef_comp, ← Frame.comp_assoc, shift_comp_shift,
    show angle + -(angle - h * m.anchor) = m.anchor * h by ring]
  have e4 : ∀ F : Frame, F.dir ⟨-m.dx, -m.dy, -m.ds⟩
      = ⟨-(F.dir ⟨m.dx, m.dy, m.ds⟩).x, -(F.dir ⟨m.dx, m.dy, m.ds⟩).y,
        -(F.dir ⟨m.dx, m.dy, m.ds⟩).z⟩ := by
    intro F
    ext <;> simp only [Frame.dir] <;> ring
  rw [e4]
  simp only [add_neg_cancel]
  rw [shift_zero, Frame.id_comp]

/-- The same for a placed thin slice. -/
theorem C49_thin_slice {e : Placed} (hk : e.kappa ≠ 0) (h1 : e.mis.theta = 0)
    (h2 : e.mis.phi = 0) (h3 : e.mis.psi = 0) :
    (entryFrame e).comp ((Frame.yaw (-e.turn)).comp (exitFrame e)) = thinBend e.turn e.mis.tilt := by
  unfold entryFrame exitFrame
  rw [if_neg hk, if_neg hk]
  exact C49_thin_bend (m := e.local) h1 h2 h3 e.turn e.kappa

/-! ## C56: slices of misaligned elements -/

/-- The exit frame of a piece and the entry frame of the piece behind it cancel. -/
theorem C56_joint {e1 e2 : Placed} (hm : e2.mis = e1.mis) (hcv : e2.curved = e1.curved)
    (hw : e1.Whole) (ho : e2.sliceOffset = e1.sliceOffset + e1.len) :
    (exitFrame e1).comp (entryFrame e2) = Frame.id := by
  have hk : e2.kappa = e1.kappa := by unfold Placed.kappa; rw [hcv]
  have ht : e2.local.tilt = e1.local.tilt := by simp only [Placed.local, hm]
  have hmo : moved e2.local = moved e1.local := by simp only [moved, Placed.local, hm]
  have ha : e2.local.anchor = e1.local.anchor - e1.len := by
    simp only [Placed.local, hm, ho]; ring
  have hl : e1.local.length = e1.len := rfl
  have er := roll_cancel (-e1.local.tilt)
  rw [neg_neg] at er
  unfold exitFrame entryFrame
  rw [hk]
  split
  · unfold straightExit straightEntry
    rw [ht, hmo, ha, hl]
    simp only [Frame.comp_assoc, straightRef_inv]
    rw [← Frame.comp_assoc (straightRef (e1.len - _)), straightRef_comp,
      show e1.len - e1.local.anchor + (e1.local.anchor - e1.len) = 0 by ring, straightRef_zero,
      Frame.id_comp, comp_cancel (Frame.inv_comp (ortho_moved _)),
      ← Frame.comp_assoc (straightRef _) (straightRef _), straightRef_comp,
      show -(e1.len - e1.local.anchor) + -(e1.local.anchor - e1.len) = 0 by ring, straightRef_zero,
      Frame.id_comp, er]
  · unfold curvedExit curvedEntry
    rw [ht, hmo, ha, turn_whole hw]
    simp only [Frame.comp_assoc, curvedRef_inv]
    rw [← Frame.comp_assoc (curvedRef (e1.kappa * e1.len - _) _ _), curvedRef_comp,
      show e1.kappa * e1.len - e1.kappa * e1.local.anchor + (e1.local.anchor - e1.len) * e1.kappa
        = 0 by ring, curvedRef_zero,
      Frame.id_comp, comp_cancel (Frame.inv_comp (ortho_moved _)),
      ← Frame.comp_assoc (curvedRef _ _ _) (curvedRef _ _ _), curvedRef_comp,
      show -(e1.kappa * e1.len - e1.kappa * e1.local.anchor)
        + -((e1.local.anchor - e1.len) * e1.kappa) = 0 by ring, curvedRef_zero,
      Frame.id_comp, er]

theorem leaves_crosses {e : Placed} {q : Part} (h : Leaves e q) : Crosses (exitFrame e) q := by
  unfold exitFrame
  split
  · next h0 => exact (h.straight h0).plane
  · next h0 =>
    obtain ⟨q1, hs, hp⟩ := h.curved h0
    have := hp.plane
    rw [← crosses_comp (ortho_roll _) hs] at this
    have er := roll_cancel (-e.local.tilt)
    rw [neg_neg] at er
    rwa [comp_cancel er] at this

/-- Leaving a piece and entering the next one changes nothing. -/
theorem C56_between {e1 e2 : Placed} (hc1 : e1.Coherent) (hc2 : e2.Coherent)
    (hm : e2.mis = e1.mis) (hcv : e2.curved = e1.curved) (hw : e1.Whole)
    (ho : e2.sliceOffset = e1.sliceOffset + e1.len) {q r : Part} (hq : Leaves e1 q)
    (hr : Same (exitFrame e1) q r) (hcr : Comes e2 r) :
    misalignEntry e2 false (misalignExit e1 false q) = q := by
  have s1 := (C49_exit hc1 hq).1
  have er : r = misalignExit e1 false q := hr.uniq (ortho_exitFrame _) s1 (leaves_crosses hq)
  rw [← er]
  have s2 := hr.comp (C49_entry hc2 hcr).1
  rw [C56_joint hm hcv hw ho] at s2
  exact s2.eq_of_id hq.forward

theorem entry_congr {e : Placed} (hc : e.Coherent) (off w w' : ℝ) (t t' : Bool) (b : Bool)
    (p : Part) : misalignEntry (e.sliceAt off w t) b p = misalignEntry (e.sliceAt off w' t') b p := by
  by_cases h0 : e.kappa = 0
  · rw [misalignEntry_straight (e := e.sliceAt off w t) hc h0,
      misalignEntry_straight (e := e.sliceAt off w' t') hc h0]
    rfl
  · obtain ⟨angle, h, he⟩ := curved_of_kappa h0
    have key : ∀ (w : ℝ) (t : Bool), misalignEntry (e.sliceAt off w t) b p
        = entryCurved (e.sliceAt off w t).local (angle * w) h b p := by
      intro w t
      simp only [misalignEntry, Placed.sliceAt, he]
      rfl
    have hb : ∀ (w : ℝ) (t : Bool),
        ¬ (angle * w = 0 ∧ ((e.sliceAt off w t).local.length ≠ 0 ∨ h = 0)) := by
      intro w t
      have := branch (e := e.sliceAt off w t) hc he
      rw [show (e.sliceAt off w t).weight = w from rfl] at this
      rw [this]
      exact h0
    have hcu : ∀ (w : ℝ) (t : Bool),
        curvature (e.sliceAt off w t).local (angle * w) h = e.kappa := by
      intro w t
      exact curvature_eq (e := e.sliceAt off w t) hc he
    rw [key, key]
    unfold entryCurved
    rw [if_neg (hb _ _), if_neg (hb _ _)]
    have hmat : entryMatrix (e.sliceAt off w t).local (angle * w) h
        = entryMatrix (e.sliceAt off w' t').local (angle * w') h := by
      unfold entryMatrix
      rw [hcu, hcu]
      rfl
    rw [hmat]
    rfl

theorem exit_congr {e : Placed} (hc : e.Coherent) {off off' w w' : ℝ} {t t' : Bool}
    (hw : (e.sliceAt off w t).Whole) (hw' : (e.sliceAt off' w' t').Whole)
    (hl : off + (e.sliceAt off w t).len = off' + (e.sliceAt off' w' t').len) (b : Bool)
    (p : Part) :
    misalignExit (e.sliceAt off w t) b p = misalignExit (e.sliceAt off' w' t') b p := by
  by_cases h0 : e.kappa = 0
  · rw [misalignExit_straight (e := e.sliceAt off w t) hc h0,
      misalignExit_straight (e := e.sliceAt off' w' t') hc h0]
    have hn : (e.sliceAt off w t).local.anchor - (e.sliceAt off w t).local.length
        = (e.sliceAt off' w' t').local.anchor - (e.sliceAt off' w' t').local.length := by
      simp only [Placed.local]
      simp only [Placed.sliceAt] at hl ⊢
      linarith
    unfold exitStraight
    rw [hn]
    rfl
  · obtain ⟨angle, h, he⟩ := curved_of_kappa h0
    have key : ∀ (off w : ℝ) (t : Bool), misalignExit (e.sliceAt off w t) b p
        = exitCurved (e.sliceAt off w t).local (angle * w) h b p := by
      intro off w t
      simp only [misalignExit, Placed.sliceAt, he]
      rfl
    have hb : ∀ (off w : ℝ) (t : Bool),
        ¬ (angle * w = 0 ∧ ((e.sliceAt off w t).local.length ≠ 0 ∨ h = 0)) := by
      intro off w t
      have := branch (e := e.sliceAt off w t) hc he
      rw [show (e.sliceAt off w t).weight = w from rfl] at this
      rw [this]
      exact h0
    have hcu : ∀ (off w : ℝ) (t : Bool),
        curvature (e.sliceAt off w t).local (angle * w) h = e.kappa := by
      intro off w t
      exact curvature_eq (e := e.sliceAt off w t) hc he
    have htu : ∀ (off w : ℝ) (t : Bool), (e.sliceAt off w t).Whole →
        angle * w = e.kappa * (e.sliceAt off w t).len := by
      intro off w t hw
      have h1 := turn_eq (e := e.sliceAt off w t) hc he
      rw [turn_whole hw] at h1
      exact h1
    rw [key, key]
    unfold exitCurved
    rw [if_neg (hb _ _ _), if_neg (hb _ _ _)]
    have hmat : exitMatrix (e.sliceAt off w t).local (angle * w) h
        = exitMatrix (e.sliceAt off' w' t').local (angle * w') h := by
      unfold exitMatrix
      rw [hcu, hcu]
      simp only
      have : angle * w - e.kappa * (e.sliceAt off w t).local.anchor
          = angle * w' - e.kappa * (e.sliceAt off' w' t').local.anchor := by
        rw [htu _ _ _ hw, htu _ _ _ hw']
        have e1 : (e.sliceAt off w t).local.anchor = e.mis.anchor - off := rfl
        have e2 : (e.sliceAt off' w' t').local.anchor = e.mis.anchor - off' := rfl
        rw [e1, e2]
        linear_combination e.kappa * hl
      rw [this]
      rfl
    rw [hmat]
    rfl

theorem run_eq {e : Placed} (hc : e.Coherent) (ha : active e.mis) :
    ∀ (rest : List Slice) (sl : Slice) (off offE w : ℝ) (p : Part),
    (∀ x ∈ sl :: rest, (e.sliceAt 0 x.weight x.thick).Whole) →
    offE + (e.sliceAt offE w true).len = off + lenSlices e (sl :: rest) →
    RunsThrough e off (sl :: rest) (misalignEntry (e.sliceAt off sl.weight sl.thick) false p) →
    runSlices e off (sl :: rest) p = misalignExit (e.sliceAt offE w true) false
      (runBodies (sl :: rest) (misalignEntry (e.sliceAt off sl.weight sl.thick) false p)) := by
  intro rest
  induction rest with
  | nil =>
    intro sl off offE w p hwh hl _
    simp only [runSlices, runBodies, trackPlaced]
    rw [if_pos (show active (e.sliceAt off sl.weight sl.thick).mis from ha)]
    simp only [Bool.not_false, if_true]
    refine exit_congr hc (off := off) (hwh sl (by simp)) (Or.inl rfl) ?_ _ _
    rw [hl]
    simp only [lenSlices, add_zero]
    rfl
  | cons nxt rest ih =>
    intro sl off offE w p hwh hl hr
    obtain ⟨h1, ⟨r, hr1, hr2⟩, h3⟩ := hr
    have hbet := C56_between (e1 := e.sliceAt off sl.weight sl.thick)
      (e2 := e.sliceAt (off + (e.sliceAt off sl.weight sl.thick).len) nxt.weight nxt.thick)
      hc hc rfl rfl (hwh sl (by simp)) rfl h1 hr1 hr2
    rw [runSlices]
    simp only [trackPlaced]
    rw [if_pos (show active (e.sliceAt off sl.weight sl.thick).mis from ha)]
    simp only [Bool.not_false, if_true]
    rw [ih nxt (off + (e.sliceAt off sl.weight sl.thick).len) offE w _
      (fun x hx => hwh x (List.mem_cons_of_mem _ hx)) (by
        rw [hl, lenSlices, ← add_assoc]; rfl) (by rw [hbet]; exact h3)]
    rw [hbet]
    rfl

theorem run_inactive {e : Placed} (ha : ¬ active e.mis) :
    ∀ (ws : List Slice) (off : ℝ) (p : Part), runSlices e off ws p = runBodies ws p := by
  intro ws
  induction ws with
  | nil => intro _ _; rfl
  | cons sl rest ih =>
    intro off p
    rw [runSlices, runBodies, ih, C49_none _ (show ¬ active (e.sliceAt off sl.weight sl.thick).mis from ha)]

/-- Tracking through the slices of a misaligned element is tracking through the
element, with the bodies of the slices one after the other as body: the misalignment
acts once at the entry and once at the exit, however the element is sliced. -/
theorem C56_slices {e : Placed} (hc : e.Coherent) (sl : Slice) (rest : List Slice)
    (hwh : ∀ x ∈ sl :: rest, (e.sliceAt 0 x.weight x.thick).Whole)
    (hlen : lenSlices e (sl :: rest) = e.mis.length) (p : Part)
    (hr : active e.mis → RunsThrough e 0 (sl :: rest)
      (misalignEntry (e.sliceAt 0 sl.weight sl.thick) false p)) :
    runSlices e 0 (sl :: rest) p
      = trackPlaced (e.sliceAt 0 1 true) (fun _ => runBodies (sl :: rest)) false p := by
  by_cases ha : active e.mis
  · rw [run_eq hc ha rest sl 0 0 1 p hwh (by
      rw [hlen]; simp [Placed.len, Placed.sliceAt]) (hr ha)]
    unfold trackPlaced
    rw [if_pos (show active (e.sliceAt 0 1 true).mis from ha)]
    simp only [Bool.not_false, if_true]
    rw [entry_congr hc 0 sl.weight 1 sl.thick true]
  · rw [run_inactive ha, C49_none _ (show ¬ active (e.sliceAt 0 1 true).mis from ha)]

/-- What thin slicing makes of a straight element: kicks with the transformations of
the parent, and drifts without (`slice_elements_drift.py`). -/
inductive Thin where
  | kick (w : ℝ) (body : Part → Part)
  | drift (w : ℝ)

/-- Track through them; the drifts are exact. -/
def runThin (e : Placed) : ℝ → List Thin → Part → Part
  | _, [], p => p
  | off, .kick w body :: rest, p =>
    runThin e off rest (trackPlaced (e.sliceAt off w false) (fun _ => body) false p)
  | off, .drift w :: rest, p =>
    runThin e (off + e.mis.length * w) rest (driftExact p (e.mis.length * w))

/-- The same with drifts inside of the misaligned element. -/
def Thin.slice (e : Placed) : Thin → Slice
  | .kick w body => ⟨w, false, body⟩
  | .drift w => ⟨w, true, fun q => driftExact q (e.mis.length * w)⟩

theorem thin_eq {e : Placed} (hc : e.Coherent) (h0 : e.kappa = 0) (ha : active e.mis) :
    ∀ (rest : List Thin) (it : Thin) (off : ℝ) (p : Part),
    Comes (e.sliceAt off (it.slice e).weight (it.slice e).thick) p →
    RunsThrough e off ((it :: rest).map (Thin.slice e))
      (misalignEntry (e.sliceAt off (it.slice e).weight (it.slice e).thick) false p) →
    runThin e off (it :: rest) p = runSlices e off ((it :: rest).map (Thin.slice e)) p := by
  have step : ∀ (it : Thin) (rest : List Thin) (off : ℝ) (p : Part),
      Comes (e.sliceAt off (it.slice e).weight (it.slice e).thick) p →
      runThin e off (it :: rest) p
        = runThin e (off + (e.sliceAt off (it.slice e).weight (it.slice e).thick).len) rest
          (trackPlaced (e.sliceAt off (it.slice e).weight (it.slice e).thick)
            (fun _ => (it.slice e).body) false p) := by
    intro it rest off p hp
    cases it with
    | kick w body =>
      simp [runThin, Thin.slice, Placed.len, Placed.sliceAt]
    | drift w =>
      have hd := C49_drift (e := e.sliceAt off w true) hc h0 hp
      have hl : (e.sliceAt off w true).len = e.mis.length * w := by
        simp [Placed.len, Placed.sliceAt]
      rw [hl] at hd
      simp only [runThin, Thin.slice]
      rw [hl, hd]
  intro rest
  induction rest with
  | nil =>
    intro it off p hp _
    rw [step it [] off p hp]
    simp [runThin, runSlices]
  | cons nxt rest ih =>
    intro it off p hp hr
    rw [step it _ off p hp]
    rw [List.map_cons, List.map_cons] at hr
    obtain ⟨h1, ⟨r, hr1, hr2⟩, h3⟩ := hr
    have hbet := C56_between (e1 := e.sliceAt off (it.slice e).weight (it.slice e).thick)
      (e2 := e.sliceAt (off + (e.sliceAt off (it.slice e).weight (it.slice e).thick).len)
        (nxt.slice e).weight (nxt.slice e).thick)
      hc hc rfl rfl (Or.inr (Or.inr h0)) rfl h1 hr1 hr2
    have htr : trackPlaced (e.sliceAt off (it.slice e).weight (it.slice e).thick)
        (fun _ => (it.slice e).body) false p
        = misalignExit (e.sliceAt off (it.slice e).weight (it.slice e).thick) false
          ((it.slice e).body
            (misalignEntry (e.sliceAt off (it.slice e).weight (it.slice e).thick) false p)) := by
      unfold trackPlaced
      rw [if_pos (show active (e.sliceAt off _ _).mis from ha)]
      rfl
    have er : r = trackPlaced (e.sliceAt off (it.slice e).weight (it.slice e).thick)
        (fun _ => (it.slice e).body) false p := by
      rw [htr]
      exact hr1.uniq (ortho_exitFrame _)
        (C49_exit (e := e.sliceAt off (it.slice e).weight (it.slice e).thick) hc h1).1
        (leaves_crosses h1)
    rw [ih nxt _ _ (by rw [← er]; exact hr2) (by
      rw [htr, hbet]
      exact h3)]
    rfl

/-- Thin slicing of a misaligned straight element, with exact drifts: the kicks and
drifts which stand for it in the line are the misaligned element whose body is these
kicks and drifts. -/
theorem C56_thin {e : Placed} (hc : e.Coherent) (h0 : e.kappa = 0) (ha : active e.mis)
    (it : Thin) (rest : List Thin)
    (hlen : lenSlices e ((it :: rest).map (Thin.slice e)) = e.mis.length) (p : Part)
    (hp : Comes (e.sliceAt 0 (it.slice e).weight (it.slice e).thick) p)
    (hr : RunsThrough e 0 ((it :: rest).map (Thin.slice e))
      (misalignEntry (e.sliceAt 0 (it.slice e).weight (it.slice e).thick) false p)) :
    runThin e 0 (it :: rest) p = trackPlaced (e.sliceAt 0 1 true)
      (fun _ => runBodies ((it :: rest).map (Thin.slice e))) false p := by
  rw [thin_eq hc h0 ha rest it 0 p hp hr]
  exact C56_slices hc (it.slice e) (rest.map (Thin.slice e))
    (fun x _ => Or.inr (Or.inr h0)) hlen p (fun _ => hr)

/-! ## Concrete cases which meet the hypotheses -/

/-- A particle which flies sideways, with spin. -/
def exPart : Part :=
  { x := 1, px := 3 / 5, y := 2, py := 0, zeta := 0, s := 0, delta := 0, ptau := 0, rpp := 1,
    rvv := 1, beta0 := 1 / 2, chi := 1, spinX := 0, spinY := 1, spinZ := 0 }

theorem exPart_kin : exPart.Kin := by
  constructor <;> norm_num [exPart]

theorem exPart_forward : exPart.Forward := by
  norm_num [exPart, Part.Forward]

/-- The hypothesis of `C50_expanded_error` holds for it. -/
example : (exPart.px / (1 + exPart.delta)) ^ 2 + (exPart.py / (1 + exPart.delta)) ^ 2 ≤ 1 / 2 := by
  norm_num [exPart]

theorem exPart_pz : exPart.pz = 4 / 5 := by
  rw [Part.pz, show (1 + exPart.delta) ^ 2 - exPart.px ^ 2 - exPart.py ^ 2 = (4 / 5) ^ 2 by
    norm_num [exPart]]
  exact Real.sqrt_sq (by norm_num)

/-- C48: a yaw of 60 degrees. -/
example : Real.cos (Real.pi / 3) ≠ 0 ∧ Crosses (Frame.yaw (Real.pi / 3)) exPart := by
  refine ⟨by rw [Real.cos_pi_div_three]; norm_num, ?_⟩
  simp only [Crosses, Frame.yaw, exPart_pz, Real.cos_pi_div_three, Real.sin_pi_div_three]
  simp only [exPart]
  positivity

/-- C48: and with a pitch and a roll behind it. -/
example : ∀ l, l <+: [Axis.y, Axis.x, Axis.s] →
    Crosses (axesFrame 1 (Real.pi / 6) (Real.pi / 3) l) exPart := by
  have h3 : (0 : ℝ) < √3 := by positivity
  intro l hl
  have : l = [] ∨ l = [Axis.y] ∨ l = [Axis.y, Axis.x] ∨ l = [Axis.y, Axis.x, Axis.s] := by
    rcases l with _ | ⟨a, _ | ⟨b, _ | ⟨c, _ | ⟨d, l⟩⟩⟩⟩ <;>
      simp_all [List.cons_prefix_cons]
  rcases this with h | h | h | h <;> subst h <;>
    simp only [axesFrame, axisFrame, Crosses, Frame.comp, Frame.yaw, Frame.pitch, Frame.roll,
      Frame.id, exPart_pz, Real.cos_pi_div_three, Real.sin_pi_div_three, Real.cos_neg, Real.sin_neg,
      Real.cos_pi_div_six, Real.sin_pi_div_six] <;>
    simp only [exPart] <;> ring_nf <;> positivity

/-- C50: polar drifts of curvature 1 over 30 and 30 degrees. -/
example : Real.cos (1 * (Real.pi / 6)) ≠ 0 ∧ Real.cos (1 * (Real.pi / 6 + Real.pi / 6)) ≠ 0 ∧
    Crosses (Frame.arc (1 * (Real.pi / 6)) 1) { exPart with px := -3 / 5 } ∧
    Crosses (Frame.arc (1 * (Real.pi / 6 + Real.pi / 6)) 1) { exPart with px := -3 / 5 } := by
  have hz : Part.pz { exPart with px := -3 / 5 } = 4 / 5 := by
    rw [← exPart_pz]
    simp only [Part.pz, exPart]
    norm_num
  have h3 : (0 : ℝ) < √3 := by positivity
  have e : Real.pi / 6 + Real.pi / 6 = Real.pi / 3 := by ring
  rw [one_mul, one_mul, e]
  simp only [Crosses, Frame.arc, hz, Real.cos_pi_div_three, Real.sin_pi_div_three,
    Real.cos_pi_div_six, Real.sin_pi_div_six]
  refine ⟨by positivity, by norm_num, ?_, ?_⟩ <;> ring_nf <;> positivity

/-- A quadrupole of 2 m, moved, turned around all axes about a point which is not its
centre, and tilted. -/
def exQuad : Placed :=
  { mis := { dx := 1, dy := -1, ds := 1 / 2, theta := Real.pi / 3, phi := Real.pi / 6, psi := 1,
             anchor := 1 / 2, length := 2, tilt := 1 }
    weight := 1, sliceOffset := 0, thick := true, curved := none }

theorem exQuad_active : active exQuad.mis := by
  left; norm_num [exQuad]

theorem exQuad_kappa : exQuad.kappa = 0 := rfl

theorem exQuad_coherent : exQuad.Coherent := by
  intro _ _ h
  simp [exQuad] at h

theorem exQuad_frame (off w : ℝ) (t : Bool) :
    (entryFrame (exQuad.sliceAt off w t)).r33 = Real.cos (Real.pi / 6) * Real.cos (Real.pi / 3) ∧
    (entryFrame (exQuad.sliceAt off w t)).r13 = Real.cos (Real.pi / 6) * Real.sin (Real.pi / 3) ∧
    (entryFrame (exQuad.sliceAt off w t)).r23 = Real.sin (Real.pi / 6) := by
  have h0 : (exQuad.sliceAt off w t).kappa = 0 := rfl
  unfold entryFrame
  rw [if_pos h0, straightEntry_eq]
  simp only [turned, Frame.comp, Frame.shift, Frame.yaw, Frame.pitch, Frame.roll]
  refine ⟨?_, ?_, ?_⟩ <;> simp only [Placed.local, Placed.sliceAt, exQuad] <;> ring

theorem exQuad_comes (off w : ℝ) (t : Bool) {p : Part} (k : p.Kin) (h : p.Forward)
    (hx : 0 < p.px) (hy : p.py = 0) : Comes (exQuad.sliceAt off w t) p := by
  have hz := h.pz_pos
  have h3 : (0 : ℝ) < √3 := by positivity
  obtain ⟨e1, e2, e3⟩ := exQuad_frame off w t
  refine ⟨k, h, fun _ => ?_, ⟨?_, ?_, ?_⟩⟩
  · simp only [Placed.sliceAt, exQuad, Real.cos_pi_div_six]; positivity
  · rw [e1, Real.cos_pi_div_six, Real.cos_pi_div_three]; positivity
  · rw [e1, e2, Real.cos_pi_div_six, Real.cos_pi_div_three, Real.sin_pi_div_three]; positivity
  · simp only [Crosses]
    rw [e1, e2, e3, Real.cos_pi_div_six, Real.cos_pi_div_three, Real.sin_pi_div_three, hy]
    have : 0 < √3 / 2 * (√3 / 2) * p.px + √3 / 2 * (1 / 2) * p.pz := by positivity
    linarith

/-- C49: entry and exit of the quadrupole. -/
example : Comes exQuad exPart ∧ ∃ q, Leaves exQuad q := by
  have h := exQuad_comes 0 1 true exPart_kin exPart_forward (by norm_num [exPart]) rfl
  exact ⟨h, _, leaves_drift exQuad_kappa h (C49_entry exQuad_coherent h).1⟩

/-- C56: the quadrupole in three slices of different weights. -/
def exSlices : List Slice :=
  [⟨1 / 2, true, fun q => driftExact q 1⟩, ⟨1 / 3, true, fun q => driftExact q (2 / 3)⟩,
   ⟨1 / 6, true, fun q => driftExact q (1 / 3)⟩]

example : lenSlices exQuad exSlices = exQuad.mis.length := by
  norm_num [lenSlices, exSlices, Placed.len, Placed.sliceAt, exQuad]

theorem exQuad_next {off w off2 w2 l : ℝ} (hl : (exQuad.sliceAt off w true).len = l) {p : Part}
    (k : p.Kin) (h : p.Forward) (hx : 0 < p.px) (hy : p.py = 0) :
    Leaves (exQuad.sliceAt off w true)
      (driftExact (misalignEntry (exQuad.sliceAt off w true) false p) l) ∧
    Same (exitFrame (exQuad.sliceAt off w true))
      (driftExact (misalignEntry (exQuad.sliceAt off w true) false p) l) (driftExact p l) ∧
    Comes (exQuad.sliceAt off2 w2 true) (driftExact p l) := by
  subst hl
  have hc : (exQuad.sliceAt off w true).Coherent := exQuad_coherent
  have hp := exQuad_comes off w true k h hx hy
  have h1 := leaves_drift (e := exQuad.sliceAt off w true) exQuad_kappa hp (C49_entry hc hp).1
  refine ⟨h1, ?_, ?_⟩
  · have e := C49_drift (e := exQuad.sliceAt off w true) hc exQuad_kappa hp
    unfold trackPlaced at e
    rw [if_pos (show active (exQuad.sliceAt off w true).mis from exQuad_active)] at e
    simp only [Bool.not_false, if_true] at e
    rw [← e]
    exact (C49_exit hc h1).1
  · have d := C50_exact_flight h (exQuad.sliceAt off w true).len
    exact exQuad_comes _ _ _ (d.kind.kin k) (d.forward (ortho_shift _ _ _) (crosses_shift _ _ _ h))
      hx hy

example : RunsThrough exQuad 0 exSlices
    (misalignEntry (exQuad.sliceAt 0 (1 / 2) true) false exPart) := by
  have l1 : (exQuad.sliceAt 0 (1 / 2) true).len = 1 := by
    norm_num [Placed.len, Placed.sliceAt, exQuad]
  have l2 : (exQuad.sliceAt 1 (1 / 3) true).len = 2 / 3 := by
    norm_num [Placed.len, Placed.sliceAt, exQuad]
  have hx : 0 < exPart.px := by norm_num [exPart]
  obtain ⟨a1, a2, a3⟩ := exQuad_next (off2 := 1) (w2 := 1 / 3) l1 exPart_kin exPart_forward hx rfl
  have b1 : driftExact (misalignEntry (exQuad.sliceAt 0 (1 / 2) true) false exPart) 1
      = misalignEntry (exQuad.sliceAt 1 (1 / 3) true) false (driftExact exPart 1) := by
    have := C56_between (e1 := exQuad.sliceAt 0 (1 / 2) true)
      (e2 := exQuad.sliceAt 1 (1 / 3) true) exQuad_coherent exQuad_coherent rfl rfl (Or.inl rfl)
      (by rw [l1]; simp [Placed.sliceAt]) a1 a2 a3
    have e := a2.uniq (ortho_exitFrame _) 
      (C49_exit (e := exQuad.sliceAt 0 (1 / 2) true) exQuad_coherent a1).1 (leaves_crosses a1)
    rw [e]; exact this.symm
  obtain ⟨c1, c2, c3⟩ := exQuad_next (off2 := 1 + 2 / 3) (w2 := 1 / 6) l2 a3.kin a3.forward hx rfl
  refine ⟨a1, ⟨_, a2, ?_⟩, ?_⟩
  · rw [l1]; simpa using a3
  · rw [l1, zero_add]
    show RunsThrough exQuad 1 _
      (driftExact (misalignEntry (exQuad.sliceAt 0 (1 / 2) true) false exPart) 1)
    rw [b1]
    refine ⟨c1, ⟨_, c2, ?_⟩, trivial⟩
    simp only
    rw [l2]
    exact c3

/-- A bend of 60 degrees and curvature 1, moved and turned about its entry. -/
def exBend : Placed :=
  { mis := { dx := 1, dy := -1, ds := 1 / 2, theta := Real.pi / 6, phi := 0, psi := 0,
             anchor := 0, length := Real.pi / 3, tilt := 0 }
    weight := 1, sliceOffset := 0, thick := true, curved := some (Real.pi / 3, 1) }

/-- C49: entry and exit of the bend. -/
example : exBend.Coherent ∧ exBend.Whole ∧ Comes exBend exPart ∧ ∃ q, Leaves exBend q := by
  have h3 : (0 : ℝ) < √3 := by positivity
  have hk : exBend.kappa = 1 := rfl
  have hk' : exBend.kappa ≠ 0 := by rw [hk]; norm_num
  have er : ∀ a : ℝ, curvedRef a 1 0 = Frame.arc a 1 := by
    intro a; rw [curvedRef, neg_zero, roll_zero, Frame.id_comp, Frame.comp_id]
  refine ⟨?_, Or.inl rfl, ⟨exPart_kin, exPart_forward, fun h => absurd h hk', ?_⟩, ?_⟩
  · intro angle h he
    simp only [exBend, Option.some.injEq, Prod.mk.injEq] at he ⊢
    rw [← he.1, ← he.2]; ring
  · have ef : entryFrame exBend = moved exBend.local := by
      unfold entryFrame
      rw [if_neg hk', hk, curvedEntry]
      rw [show exBend.local.anchor * 1 = 0 by simp [Placed.local, exBend],
        show exBend.local.tilt = 0 from rfl, er, arc_zero, roll_zero, Frame.comp_id, Frame.id_comp,
        inv_eq ortho_id (Frame.comp_id _), Frame.comp_id]
    rw [ef]
    constructor
    all_goals
      simp only [Crosses, moved, Placed.local, exBend, Frame.comp, Frame.shift, Frame.yaw,
        Frame.pitch, Frame.roll, Real.cos_zero, Real.sin_zero, Real.cos_pi_div_six,
        Real.sin_pi_div_six, exPart_pz]
      try simp only [exPart]
      ring_nf
      positivity
  · refine ⟨{ exPart with px := 0 }, ?_, ?_, fun h => absurd h hk', fun h => absurd h hk', fun _ => ?_⟩
    · constructor <;> norm_num [exPart]
    · norm_num [Part.Forward, exPart]
    · have hf : Part.Forward { exPart with px := 0 } := by norm_num [Part.Forward, exPart]
      have hz := hf.pz_pos
      refine ⟨{ exPart with px := 0 }, ?_, ?_⟩
      · rw [show exBend.local.tilt = 0 from rfl, neg_zero, roll_zero]; exact Same.refl _
      · have ht : exBend.turn = Real.pi / 3 := by
          simp [Placed.turn, Placed.kappa, exBend]
        rw [show exBend.local.tilt = 0 from rfl, roll_zero, Frame.id_comp, hk, ht, curvedExit,
          show exBend.local.tilt = 0 from rfl, neg_zero, roll_zero, Frame.id_comp,
          show Real.pi / 3 - 1 * exBend.local.anchor = Real.pi / 3 by simp [Placed.local, exBend],
          er]
        have e33 : ((Frame.arc (Real.pi / 3) 1).inv.comp ((moved exBend.local).inv.comp
            (Frame.arc (Real.pi / 3) 1))).r33 = √3 / 2 := by
          have h33 : √3 * √3 = (3 : ℝ) := Real.mul_self_sqrt (by norm_num)
          simp only [moved, Placed.local, exBend, Frame.comp, Frame.shift, Frame.yaw,
            Frame.inv, Frame.arc,
            Frame.pitch, Frame.roll, Real.cos_zero, Real.sin_zero, Real.cos_pi_div_six,
            Real.sin_pi_div_six, Real.cos_pi_div_three, Real.sin_pi_div_three]
          linear_combination √3 / 8 * h33
        refine ⟨?_, ?_, ?_⟩
        · rw [e33]; positivity
        · rw [e33]
          simp only [mul_zero, zero_add]
          positivity
        · unfold Crosses
          rw [e33]
          simp only [mul_zero, zero_add, show exPart.py = 0 from rfl]
          positivity

end

end Verif.Frames
