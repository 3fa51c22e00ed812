import Verif.Frames.Lemmas

namespace Verif.Frames

noncomputable section

/-! ## Crossing planes -/

theorem crosses_comp {F : Frame} (hF : F.Ortho) {a : ℝ} {p q : Part} (h : Moves F a p q)
    (G : Frame) :
    Crosses (F.comp G) p ↔ Crosses G q := by
  have e := (h.inv hF).mom
  simp only [Frame.dir, Frame.inv, Part.mom, Vec.mk.injEq] at e
  obtain ⟨e1, e2, e3⟩ := e
  have : (F.comp G).r13 * p.px + (F.comp G).r23 * p.py + (F.comp G).r33 * p.pz
      = G.r13 * q.px + G.r23 * q.py + G.r33 * q.pz := by
    rw [← e1, ← e2, ← e3]
    simp only [Frame.comp]
    ring
  unfold Crosses
  rw [this]

theorem crosses_shift_comp (a b c : ℝ) (G : Frame) (p : Part) :
    Crosses ((Frame.shift a b c).comp G) p ↔ Crosses G p := by
  simp only [Crosses, Frame.comp, Frame.shift]
  ring_nf

theorem crosses_comp_shift (a b c : ℝ) (G : Frame) (p : Part) :
    Crosses (G.comp (Frame.shift a b c)) p ↔ Crosses G p := by
  simp only [Crosses, Frame.comp, Frame.shift]
  ring_nf

theorem crosses_comp_roll (t : ℝ) (G : Frame) (p : Part) :
    Crosses (G.comp (Frame.roll t)) p ↔ Crosses G p := by
  simp only [Crosses, Frame.comp, Frame.roll]
  ring_nf

theorem crosses_shift (a b c : ℝ) {p : Part} (h : p.Forward) : Crosses (Frame.shift a b c) p := by
  have := h.pz_pos
  simpa [Crosses, Frame.shift] using this

theorem crosses_roll (t : ℝ) {p : Part} (h : p.Forward) : Crosses (Frame.roll t) p := by
  have := h.pz_pos
  simpa [Crosses, Frame.roll] using this

theorem forward_xyShift {p : Part} (h : p.Forward) (a b : ℝ) : (xyShift p a b).Forward := h

theorem forward_sShift {p : Part} (h : p.Forward) (a : ℝ) : (sShift p a).Forward :=
  (same_sShift h a).forward (ortho_shift _ _ _) (crosses_shift _ _ _ h)

theorem forward_sRotate {p : Part} (h : p.Forward) (a : ℝ) : (sRotate p a).Forward :=
  (same_sRotate p a).forward (ortho_roll _) (crosses_roll _ h)

/-! ## Frame algebra -/

theorem shift_comp_shift (a b c a' b' c' : ℝ) :
    (Frame.shift a b c).comp (Frame.shift a' b' c') = Frame.shift (a + a') (b + b') (c + c') := by
  ext <;> simp only [Frame.comp, Frame.shift] <;> ring

theorem yaw_comp_yaw (a b : ℝ) : (Frame.yaw a).comp (Frame.yaw b) = Frame.yaw (a + b) := by
  ext <;> simp only [Frame.comp, Frame.yaw, Real.sin_add, Real.cos_add] <;> ring

theorem pitch_comp_pitch (a b : ℝ) :
    (Frame.pitch a).comp (Frame.pitch b) = Frame.pitch (a + b) := by
  ext <;> simp only [Frame.comp, Frame.pitch, Real.sin_add, Real.cos_add] <;> ring

theorem roll_comp_roll (a b : ℝ) : (Frame.roll a).comp (Frame.roll b) = Frame.roll (a + b) := by
  ext <;> simp only [Frame.comp, Frame.roll, Real.sin_add, Real.cos_add] <;> ring

theorem yaw_cancel (a : ℝ) : (Frame.yaw a).comp (Frame.yaw (-a)) = Frame.id := by
  rw [yaw_comp_yaw, add_neg_cancel, yaw_zero]

theorem pitch_cancel (a : ℝ) : (Frame.pitch a).comp (Frame.pitch (-a)) = Frame.id := by
  rw [pitch_comp_pitch, add_neg_cancel, pitch_zero]

theorem roll_cancel (a : ℝ) : (Frame.roll a).comp (Frame.roll (-a)) = Frame.id := by
  rw [roll_comp_roll, add_neg_cancel, roll_zero]

theorem shift_zero : Frame.shift 0 0 0 = Frame.id := rfl

/-- Cancellation inside a product. -/
theorem comp_cancel {F G : Frame} (h : F.comp G = Frame.id) (H : Frame) :
    F.comp (G.comp H) = H := by
  rw [← Frame.comp_assoc, h, Frame.id_comp]

theorem inv_eq {F G : Frame} (hF : F.Ortho) (h : F.comp G = Frame.id) : F.inv = G := by
  have := congrArg (fun H => F.inv.comp H) h
  simp only [Frame.comp_id] at this
  rw [← Frame.comp_assoc, Frame.inv_comp hF, Frame.id_comp] at this
  exact this.symm

/-! ## Chains of primitives -/

/-- Frame reached by shifting and then turning around y, x and s. -/
def turned (x y s theta phi psi : ℝ) : Frame :=
  (Frame.shift x y s).comp ((Frame.yaw theta).comp ((Frame.pitch phi).comp (Frame.roll psi)))

theorem ortho_turned (x y s theta phi psi : ℝ) : (turned x y s theta phi psi).Ortho :=
  (ortho_shift _ _ _).comp ((ortho_yaw _).comp ((ortho_pitch _).comp (ortho_roll _)))

/-- Shift, yaw, pitch, roll as the code applies them. -/
theorem same_chain {p : Part} (k : p.Kin) (h : p.Forward) (x y s : ℝ) {theta phi psi : ℝ}
    (hc : Real.cos theta ≠ 0) (hd : Real.cos phi ≠ 0) (h1 : Crosses (Frame.yaw theta) p)
    (h2 : Crosses ((Frame.yaw theta).comp (Frame.pitch phi)) p) :
    Same (turned x y s theta phi psi) p
      (sRotate (xRotate (yRotate (sShift (xyShift p x y) s) theta) phi) psi) := by
  have s1 := same_xyShift p x y
  have s2 := s1.comp (same_sShift (forward_xyShift h x y) s)
  have o2 := (ortho_shift x y 0).comp (ortho_shift 0 0 s)
  rw [shift_comp_shift] at s2 o2
  simp only [add_zero, zero_add] at s2 o2
  have k2 := s2.kind.kin k
  have f2 := s2.forward o2 (crosses_shift _ _ _ h)
  have c2 : Crosses (Frame.yaw theta) (sShift (xyShift p x y) s) :=
    (crosses_comp o2 s2 _).1 ((crosses_shift_comp _ _ _ _ _).2 h1)
  have s3' := same_yRotate k2 f2 hc c2
  have s3 := s2.comp s3'
  have o3 := o2.comp (ortho_yaw theta)
  have k3 := s3.kind.kin k
  have f3 := s3'.forward (ortho_yaw _) c2
  have c3 : Crosses (Frame.pitch phi) (yRotate (sShift (xyShift p x y) s) theta) :=
    (crosses_comp o3 s3 _).1 (by
      rw [Frame.comp_assoc]; exact (crosses_shift_comp _ _ _ _ _).2 h2)
  have s4 := s3.comp (same_xRotate k3 f3 hd c3)
  have s5 := s4.comp (same_sRotate _ psi)
  rw [Frame.comp_assoc, Frame.comp_assoc] at s5
  exact s5

theorem chain_crosses {p : Part} (x y s : ℝ) {theta phi psi : ℝ} :
    Crosses (turned x y s theta phi psi) p ↔
      Crosses ((Frame.yaw theta).comp (Frame.pitch phi)) p := by
  unfold turned
  rw [crosses_shift_comp, ← Frame.comp_assoc, crosses_comp_roll]

/-- The reverse order: roll, pitch, yaw, shift. -/
theorem same_unchain {p q : Part} (k : p.Kin) (hp : p.Forward) (hq : q.Forward)
    (x y s : ℝ) {theta phi psi : ℝ}
    (hc : Real.cos theta ≠ 0) (hd : Real.cos phi ≠ 0) (h1 : Crosses (Frame.yaw theta) p)
    {x' y' s' : ℝ} (hs : Same (turned x' y' s' theta phi psi) p q) :
    Same (Frame.shift (x' + x) (y' + y) (s' + s)) p
      (xyShift (sShift (yRotate (xRotate (sRotate q (-psi)) (-phi)) (-theta)) s) x y) := by
  have o := ortho_turned x' y' s' theta phi psi
  have s1 := hs.comp (same_sRotate q (-psi))
  have o1 := o.comp (ortho_roll (-psi))
  have e1 : (turned x' y' s' theta phi psi).comp (Frame.roll (-psi))
      = (Frame.shift x' y' s').comp ((Frame.yaw theta).comp (Frame.pitch phi)) := by
    unfold turned
    rw [Frame.comp_assoc, Frame.comp_assoc, Frame.comp_assoc, roll_cancel, Frame.comp_id]
  rw [e1] at s1 o1
  have f1 := forward_sRotate hq (-psi)
  have k1 := s1.kind.kin k
  have e2 : ((Frame.shift x' y' s').comp ((Frame.yaw theta).comp (Frame.pitch phi))).comp
      (Frame.pitch (-phi)) = (Frame.shift x' y' s').comp (Frame.yaw theta) := by
    rw [Frame.comp_assoc, Frame.comp_assoc, pitch_cancel, Frame.comp_id]
  have c1 : Crosses (Frame.pitch (-phi)) (sRotate q (-psi)) :=
    (crosses_comp o1 s1 _).1 (by rw [e2]; exact (crosses_shift_comp _ _ _ _ _).2 h1)
  have s2' := same_xRotate k1 f1 (by rw [Real.cos_neg]; exact hd) c1
  have s2 := s1.comp s2'
  have o2 := o1.comp (ortho_pitch (-phi))
  rw [e2] at s2 o2
  have f2 := s2'.forward (ortho_pitch _) c1
  have k2 := s2.kind.kin k
  have e3 : ((Frame.shift x' y' s').comp (Frame.yaw theta)).comp (Frame.yaw (-theta))
      = Frame.shift x' y' s' := by
    rw [Frame.comp_assoc, yaw_cancel, Frame.comp_id]
  have c2 : Crosses (Frame.yaw (-theta)) (xRotate (sRotate q (-psi)) (-phi)) :=
    (crosses_comp o2 s2 _).1 (by rw [e3]; exact crosses_shift _ _ _ hp)
  have s3' := same_yRotate k2 f2 (by rw [Real.cos_neg]; exact hc) c2
  have s3 := s2.comp s3'
  rw [e3] at s3
  have f3 := s3'.forward (ortho_yaw _) c2
  have s4 := s3.comp (same_sShift f3 s)
  have s5 := s4.comp (same_xyShift _ x y)
  rw [shift_comp_shift, shift_comp_shift] at s5
  simp only [add_zero] at s5
  exact s5

/-! ## Matrices of the code -/

/-- The frame described by a matrix of the code. -/
def ofM4 (a : M4) : Frame :=
  ⟨a 0 0, a 0 1, a 0 2, a 1 0, a 1 1, a 1 2, a 2 0, a 2 1, a 2 2, a 0 3, a 1 3, a 2 3⟩

theorem ofM4_mul {a b : M4} (h0 : b 3 0 = 0) (h1 : b 3 1 = 0) (h2 : b 3 2 = 0) (h3 : b 3 3 = 1) :
    ofM4 (mul4 a b) = (ofM4 a).comp (ofM4 b) := by
  ext <;> simp only [ofM4, mul4, Frame.comp, h0, h1, h2, h3] <;> ring

theorem ofM4_lit (a00 a01 a02 a03 a10 a11 a12 a13 a20 a21 a22 a23 : ℝ) :
    ofM4 (lit4 a00 a01 a02 a03 a10 a11 a12 a13 a20 a21 a22 a23)
      = ⟨a00, a01, a02, a10, a11, a12, a20, a21, a22, a03, a13, a23⟩ := rfl

theorem ofM4_inv (a : M4) : ofM4 (inv4 a) = (ofM4 a).inv := by
  unfold inv4
  rw [ofM4_lit]
  ext <;> simp only [ofM4, Frame.inv] <;> ring

theorem ofM4_mis (m : Mis) : ofM4 (misMatrix m) = moved m := by
  unfold misMatrix
  simp only
  rw [ofM4_lit]
  ext <;> simp only [moved, Frame.comp, Frame.shift, Frame.yaw, Frame.pitch, Frame.roll] <;> ring

theorem ofM4_part (a h t : ℝ) : ofM4 (partMatrix a h t) = curvedRef a h t := by
  have hcs := Real.sin_sq_add_cos_sq t
  unfold partMatrix
  simp only
  rw [ofM4_lit]
  ext <;> simp only [curvedRef, Frame.comp, Frame.arc, Frame.roll, Real.sin_neg, Real.cos_neg]
  · linear_combination -hcs
  · ring
  · ring
  · ring
  · linear_combination -hcs
  · ring
  · ring
  · ring
  · ring
  · ring
  · ring
  · ring

theorem cos_atan2 {y x : ℝ} (h : 0 < x ^ 2 + y ^ 2) :
    Real.cos (atan2 y x) = x / Real.sqrt (x ^ 2 + y ^ 2) := by
  unfold atan2
  have hx : (⟨x, y⟩ : ℂ) ≠ 0 := by
    intro h0
    have h1 := congrArg Complex.re h0
    have h2 := congrArg Complex.im h0
    simp only [Complex.zero_re, Complex.zero_im] at h1 h2
    rw [h1, h2] at h
    simp at h
  rw [Complex.cos_arg hx, Complex.norm_def, Complex.normSq_apply]
  simp only [sq]

theorem sin_atan2 (y x : ℝ) :
    Real.sin (atan2 y x) = y / Real.sqrt (x ^ 2 + y ^ 2) := by
  unfold atan2
  rw [Complex.sin_arg, Complex.norm_def, Complex.normSq_apply]
  simp only [sq]

/-- Reading yaw, pitch and roll off the matrix of a rigid motion gives the motion back. -/
theorem euler {a : M4} (ho : (ofM4 a).Ortho) (hne : a 2 2 ≠ 0) :
    ofM4 a = turned (a 0 3) (a 1 3) (a 2 3) (rotTheta a) (rotPhi a) (rotPsi a) ∧
    (∃ n : ℝ, 0 < n ∧ Real.sin (rotTheta a) = a 0 2 / n ∧ Real.cos (rotTheta a) = a 2 2 / n) ∧
    0 < Real.cos (rotPhi a) := by
  obtain ⟨q11, q12, q13, q21, q22, q23, q31, q32, q33⟩ := ho.cof
  have hi := ho.inv
  have row2 := hi.c22
  have col3 := ho.c33
  have c13 := ho.c13
  have c23 := ho.c23
  simp only [ofM4, Frame.inv] at row2 col3 c13 c23 q11 q12 q13 q21 q22 q23 q31 q32 q33
  have hpos : 0 < a 2 2 ^ 2 + a 0 2 ^ 2 := by positivity
  have hsum : a 1 1 ^ 2 + a 1 0 ^ 2 = a 2 2 ^ 2 + a 0 2 ^ 2 := by
    linear_combination row2 - col3
  have hpos' : 0 < a 1 1 ^ 2 + a 1 0 ^ 2 := by rw [hsum]; exact hpos
  generalize hn : Real.sqrt (a 2 2 ^ 2 + a 0 2 ^ 2) = n
  have hn0 : 0 < n := by rw [← hn]; exact Real.sqrt_pos.2 hpos
  have hn2 : n ^ 2 = a 2 2 ^ 2 + a 0 2 ^ 2 := by rw [← hn]; exact Real.sq_sqrt hpos.le
  have hn' : Real.sqrt (a 1 0 * a 1 0 + a 1 1 * a 1 1) = n := by
    rw [← hn, ← hsum]; congr 1; ring
  have hone : n ^ 2 + a 1 2 ^ 2 = 1 := by rw [hn2]; linear_combination col3
  have st : Real.sin (rotTheta a) = a 0 2 / n := by
    unfold rotTheta; rw [sin_atan2, hn]
  have ct : Real.cos (rotTheta a) = a 2 2 / n := by
    unfold rotTheta; rw [cos_atan2 hpos, hn]
  have sp : Real.sin (rotPhi a) = a 1 2 := by
    unfold rotPhi; rw [sin_atan2, hn', hone, Real.sqrt_one, div_one]
  have cp : Real.cos (rotPhi a) = n := by
    unfold rotPhi
    rw [cos_atan2 (by rw [hn', hone]; exact one_pos), hn', hone, Real.sqrt_one, div_one]
  have ss : Real.sin (rotPsi a) = a 1 0 / n := by
    unfold rotPsi; rw [sin_atan2, hsum, hn]
  have cs : Real.cos (rotPsi a) = a 1 1 / n := by
    unfold rotPsi; rw [cos_atan2 hpos', hsum, hn]
  have hnn : n ≠ 0 := hn0.ne'
  refine ⟨?_, ⟨n, hn0, st, ct⟩, by rw [cp]; exact hn0⟩
  ext <;> simp only [turned, ofM4, Frame.comp, Frame.shift, Frame.yaw, Frame.pitch, Frame.roll,
    st, ct, sp, cp, ss, cs]
  · field_simp
    linear_combination (a 0 0) * hn2 - a 2 2 * q22 + a 0 2 * c13
  · field_simp
    linear_combination (a 0 1) * hn2 + a 2 2 * q21 + a 0 2 * c23
  · field_simp; ring
  · field_simp; ring
  · field_simp; ring
  · ring
  · field_simp
    linear_combination (a 2 0) * hn2 + a 0 2 * q22 + a 2 2 * c13
  · field_simp
    linear_combination (a 2 1) * hn2 - a 0 2 * q21 + a 2 2 * c23
  · field_simp; ring
  · ring
  · ring
  · ring

/-! ## Any frame which the particle crosses can be reached -/

theorem exists_same {F : Frame} (hF : F.Ortho) {p : Part} (h : p.Forward) (hc : Crosses F p) :
    ∃ q : Part, Same F p q := by
  have hz := h.pz_pos
  have hzsq := h.pz_sq
  have hi := hF.inv
  unfold Crosses at hc
  have e11 := hi.c11
  have e22 := hi.c22
  have e33 := hi.c33
  have e12 := hi.c12
  have e13 := hi.c13
  have e23 := hi.c23
  simp only [Frame.inv] at e11 e22 e33 e12 e13 e23
  generalize hP : F.r13 * p.px + F.r23 * p.py + F.r33 * p.pz = P at hc
  generalize hl : (F.r13 * (F.d1 - p.x) + F.r23 * (F.d2 - p.y) + F.r33 * F.d3) / P = l
  have hl' : l * P = F.r13 * (F.d1 - p.x) + F.r23 * (F.d2 - p.y) + F.r33 * F.d3 := by
    rw [← hl]; field_simp
  generalize hu : p.x + l * p.px - F.d1 = u
  generalize hv : p.y + l * p.py - F.d2 = v
  generalize hw : l * p.pz - F.d3 = w
  have hperp : F.r13 * u + F.r23 * v + F.r33 * w = 0 := by
    rw [← hu, ← hv, ← hw]
    linear_combination hl' + l * hP
  have hq : ∃ q : Part, q = { p with
      x := F.r11 * u + F.r21 * v + F.r31 * w
      y := F.r12 * u + F.r22 * v + F.r32 * w
      px := F.r11 * p.px + F.r21 * p.py + F.r31 * p.pz
      py := F.r12 * p.px + F.r22 * p.py + F.r32 * p.pz
      zeta := p.zeta - l * (1 + p.delta) / p.rvv
      spinX := F.r11 * p.spinX + F.r21 * p.spinY + F.r31 * p.spinZ
      spinY := F.r12 * p.spinX + F.r22 * p.spinY + F.r32 * p.spinZ
      spinZ := F.r13 * p.spinX + F.r23 * p.spinY + F.r33 * p.spinZ } := ⟨_, rfl⟩
  obtain ⟨q, hq⟩ := hq
  have hqz : q.pz = P := by
    rw [Part.pz, hq]
    simp only
    rw [Real.sqrt_eq_iff_mul_self_eq_of_pos hc, ← hP]
    linear_combination p.px ^ 2 * e11 + p.py ^ 2 * e22 + p.pz ^ 2 * e33 +
      2 * p.px * p.py * e12 + 2 * p.px * p.pz * e13 + 2 * p.py * p.pz * e23 + hzsq
  refine ⟨q, by subst hq; exact ⟨rfl, rfl, rfl, rfl, rfl, rfl⟩, by subst hq; simp, ?_, ?_, l, ?_, ?_⟩
  · ext <;> simp only [Frame.dir, Part.mom, hqz, ← hP] <;> subst hq <;> simp only
    · linear_combination p.px * e11 + p.py * e12 + p.pz * e13
    · linear_combination p.px * e12 + p.py * e22 + p.pz * e23
    · linear_combination p.px * e13 + p.py * e23 + p.pz * e33
  · subst hq
    ext <;> simp only [Frame.dir, Part.spin]
    · linear_combination p.spinX * e11 + p.spinY * e12 + p.spinZ * e13
    · linear_combination p.spinX * e12 + p.spinY * e22 + p.spinZ * e23
    · linear_combination p.spinX * e13 + p.spinY * e23 + p.spinZ * e33
  · subst hq
    ext <;> simp only [Frame.point, Frame.dir]
    · linear_combination u * e11 + v * e12 + w * e13 - F.r13 * hperp - hu
    · linear_combination u * e12 + v * e22 + w * e23 - F.r23 * hperp - hv
    · linear_combination u * e13 + v * e23 + w * e33 - F.r33 * hperp - hw
  · subst hq
    simp only
    ring

/-! ## Straight elements -/

/-- Shifts of the entry of a straight element as the code computes them. -/
theorem straightEntry_eq (m : Mis) : straightEntry m =
    (turned (m.dx - m.anchor * Real.cos m.phi * Real.sin m.theta)
      (m.dy - m.anchor * Real.sin m.phi)
      (m.ds - m.anchor * (Real.cos m.phi * Real.cos m.theta - 1)) m.theta m.phi m.psi).comp
      (Frame.roll m.tilt) := by
  unfold straightEntry
  congr 1
  ext <;> simp only [straightRef, moved, turned, Frame.comp, Frame.shift, Frame.yaw, Frame.pitch,
    Frame.roll] <;> ring

theorem ortho_moved (m : Mis) : (moved m).Ortho := ortho_turned _ _ _ _ _ _

theorem ortho_straightEntry (m : Mis) : (straightEntry m).Ortho := by
  rw [straightEntry_eq]; exact (ortho_turned _ _ _ _ _ _).comp (ortho_roll _)

theorem moved_inv (m : Mis) : (moved m).inv = (Frame.roll (-m.psi)).comp
    ((Frame.pitch (-m.phi)).comp ((Frame.yaw (-m.theta)).comp
      (Frame.shift (-m.dx) (-m.dy) (-m.ds)))) := by
  apply inv_eq (ortho_moved m)
  unfold moved
  simp only [Frame.comp_assoc]
  rw [comp_cancel (roll_cancel _), comp_cancel (pitch_cancel _), comp_cancel (yaw_cancel _),
    shift_comp_shift]
  simp only [add_neg_cancel]
  rfl

theorem straightRef_inv (a : ℝ) : (straightRef a).inv = straightRef (-a) := by
  ext <;> simp [straightRef, Frame.inv, Frame.shift]

/-- Turning after a translation is translating in the turned direction. -/
theorem comp_shift (F : Frame) (a b c : ℝ) : F.comp (Frame.shift a b c) =
    (Frame.shift (F.dir ⟨a, b, c⟩).x (F.dir ⟨a, b, c⟩).y (F.dir ⟨a, b, c⟩).z).comp F := by
  ext <;> simp only [Frame.comp, Frame.shift, Frame.dir] <;> ring

theorem moved_eq (m : Mis) : moved m =
    (Frame.shift m.dx m.dy m.ds).comp (turned 0 0 0 m.theta m.phi m.psi) := by
  unfold moved turned
  rw [shift_zero, Frame.id_comp]

/-- Shifts of the exit of a straight element as the code computes them. -/
theorem straightExit_eq (m : Mis) : straightExit m =
    (Frame.roll (-m.tilt)).comp ((turned 0 0 0 m.theta m.phi m.psi).inv.comp
      (Frame.shift ((m.anchor - m.length) * Real.cos m.phi * Real.sin m.theta - m.dx)
        ((m.anchor - m.length) * Real.sin m.phi - m.dy)
        ((m.anchor - m.length) * (Real.cos m.phi * Real.cos m.theta - 1) - m.ds))) := by
  have o := ortho_turned 0 0 0 m.theta m.phi m.psi
  unfold straightExit
  congr 1
  have hinv : (moved m).inv = (turned 0 0 0 m.theta m.phi m.psi).inv.comp
      (Frame.shift (-m.dx) (-m.dy) (-m.ds)) := by
    apply inv_eq (ortho_moved m)
    rw [moved_eq, Frame.comp_assoc, comp_cancel (Frame.comp_inv o), shift_comp_shift]
    simp only [add_neg_cancel]
    rfl
  have hT : (turned 0 0 0 m.theta m.phi m.psi).dir ⟨0, 0, -(m.length - m.anchor)⟩ =
      ⟨-(m.length - m.anchor) * (Real.cos m.phi * Real.sin m.theta),
       -(m.length - m.anchor) * Real.sin m.phi,
       -(m.length - m.anchor) * (Real.cos m.phi * Real.cos m.theta)⟩ := by
    ext <;> simp only [turned, Frame.comp, Frame.shift, Frame.yaw, Frame.pitch, Frame.roll,
      Frame.dir] <;> ring
  have hc := comp_shift (turned 0 0 0 m.theta m.phi m.psi) 0 0 (-(m.length - m.anchor))
  rw [hT] at hc
  simp only at hc
  have key : (straightRef (-(m.length - m.anchor))).comp (turned 0 0 0 m.theta m.phi m.psi).inv =
      (turned 0 0 0 m.theta m.phi m.psi).inv.comp
        (Frame.shift (-(m.length - m.anchor) * (Real.cos m.phi * Real.sin m.theta))
          (-(m.length - m.anchor) * Real.sin m.phi)
          (-(m.length - m.anchor) * (Real.cos m.phi * Real.cos m.theta))) := by
    have e : (straightRef (-(m.length - m.anchor))).comp (turned 0 0 0 m.theta m.phi m.psi).inv =
        (turned 0 0 0 m.theta m.phi m.psi).inv.comp
          (((turned 0 0 0 m.theta m.phi m.psi).comp (straightRef (-(m.length - m.anchor)))).comp
            (turned 0 0 0 m.theta m.phi m.psi).inv) := by
      rw [Frame.comp_assoc, comp_cancel (Frame.inv_comp o)]
    rw [e]
    unfold straightRef
    rw [hc, Frame.comp_assoc, Frame.comp_inv o, Frame.comp_id]
  rw [straightRef_inv, hinv, Frame.comp_assoc, ← Frame.comp_assoc (straightRef _), key,
    Frame.comp_assoc]
  congr 1
  unfold straightRef
  rw [shift_comp_shift, shift_comp_shift]
  congr 1 <;> ring

theorem ortho_straightExit (m : Mis) : (straightExit m).Ortho := by
  rw [straightExit_eq]
  exact (ortho_roll _).comp ((ortho_turned _ _ _ _ _ _).inv.comp (ortho_shift _ _ _))

/-- What `Passes` says in terms of the angles of a straight element. -/
theorem passes_straight {m : Mis} {p : Part} (hc : 0 < Real.cos m.phi)
    (h : Passes (straightEntry m) p) : Real.cos m.theta ≠ 0 ∧ Crosses (Frame.yaw m.theta) p ∧
      Crosses ((Frame.yaw m.theta).comp (Frame.pitch m.phi)) p := by
  obtain ⟨h1, h2, h3⟩ := h
  have e1 : (straightEntry m).r33 = Real.cos m.phi * Real.cos m.theta := by
    rw [straightEntry_eq]
    simp only [turned, Frame.comp, Frame.shift, Frame.yaw, Frame.pitch, Frame.roll]
    ring
  have e2 : (straightEntry m).r13 = Real.cos m.phi * Real.sin m.theta := by
    rw [straightEntry_eq]
    simp only [turned, Frame.comp, Frame.shift, Frame.yaw, Frame.pitch, Frame.roll]
    ring
  rw [e1] at h1
  rw [e1, e2] at h2
  refine ⟨fun h0 => h1 (by rw [h0]; simp), ?_, ?_⟩
  · have : 0 < Real.cos m.phi * (Real.sin m.theta * p.px + Real.cos m.theta * p.pz) := by
      linarith
    have := pos_of_mul_pos_right this hc.le
    simp only [Crosses, Frame.yaw]
    linarith
  · rw [straightEntry_eq, crosses_comp_roll, chain_crosses] at h3
    exact h3

theorem same_entryStraight {m : Mis} {p : Part} (k : p.Kin) (h : p.Forward)
    (hc : 0 < Real.cos m.phi) (hp : Passes (straightEntry m) p) :
    Same (straightEntry m) p (entryStraight m false p) := by
  obtain ⟨h1, h2, h3⟩ := passes_straight hc hp
  rw [straightEntry_eq]
  exact (same_chain k h _ _ _ h1 hc.ne' h2 h3).comp (same_sRotate _ _)

theorem same_exitStraight {m : Mis} {q : Part} (k : q.Kin) (h : q.Forward)
    (hc : 0 < Real.cos m.phi) (hp : PassesBack m q) :
    Same (straightExit m) q (exitStraight m false q) := by
  obtain ⟨h1, h2, h3⟩ := hp
  have o := ortho_turned 0 0 0 m.theta m.phi m.psi
  have s1 := same_sRotate q (-m.tilt)
  have f1 := forward_sRotate h (-m.tilt)
  rw [straightExit_eq] at h2 h3 ⊢
  have h3' : Crosses (turned 0 0 0 m.theta m.phi m.psi).inv (sRotate q (-m.tilt)) := by
    rw [crosses_comp (ortho_roll _) s1, crosses_comp_shift] at h3
    exact h3
  obtain ⟨v, hv⟩ := exists_same o.inv f1 h3'
  have hvi := hv.inv o.inv
  rw [Frame.inv_inv o] at hvi
  have hvi' : Same (turned 0 0 0 m.theta m.phi m.psi) v (sRotate q (-m.tilt)) :=
    hvi.same (by simp)
  have kv : v.Kin := hv.kind.kin (s1.kind.kin k)
  have fv : v.Forward := hv.forward o.inv h3'
  have cv : Crosses (Frame.yaw m.theta) v := by
    rw [Frame.comp_assoc, crosses_comp (ortho_roll _) s1, Frame.comp_assoc,
      crosses_comp o.inv hv, crosses_shift_comp] at h2
    exact h2
  have := same_unchain kv fv f1
    ((m.anchor - m.length) * Real.cos m.phi * Real.sin m.theta - m.dx)
    ((m.anchor - m.length) * Real.sin m.phi - m.dy)
    ((m.anchor - m.length) * (Real.cos m.phi * Real.cos m.theta - 1) - m.ds) h1 hc.ne' cv hvi'
  simp only [zero_add] at this
  exact s1.comp (hv.comp this)

theorem entryStraight_back {m : Mis} {p : Part} (k : p.Kin) (h : p.Forward)
    (hc : 0 < Real.cos m.phi) (hp : Passes (straightEntry m) p) :
    entryStraight m true (entryStraight m false p) = p := by
  obtain ⟨h1, h2, h3⟩ := passes_straight hc hp
  have s := same_entryStraight k h hc hp
  have f := s.forward (ortho_straightEntry m) hp.plane
  have s1 := s.comp (same_sRotate _ (-m.tilt))
  rw [straightEntry_eq, Frame.comp_assoc, roll_cancel, Frame.comp_id] at s1
  have s2 := same_unchain k h (forward_sRotate f _)
    (-(m.dx - m.anchor * Real.cos m.phi * Real.sin m.theta))
    (-(m.dy - m.anchor * Real.sin m.phi))
    (-(m.ds - m.anchor * (Real.cos m.phi * Real.cos m.theta - 1))) h1 hc.ne' h2 s1
  simp only [add_neg_cancel] at s2
  exact Moves.uniq ortho_id s2 (Same.refl p) (crosses_id h)

theorem exitStraight_back {m : Mis} {q : Part} (k : q.Kin) (h : q.Forward)
    (hc : 0 < Real.cos m.phi) (hp : PassesBack m q) :
    exitStraight m true (exitStraight m false q) = q := by
  have s := same_exitStraight k h hc hp
  have o := ortho_straightExit m
  have f := s.forward o hp.plane
  have c1 : Crosses (Frame.yaw m.theta) (exitStraight m false q) :=
    (crosses_comp o s _).1 hp.yawed
  have ht := ortho_turned 0 0 0 m.theta m.phi m.psi
  have e : (straightExit m).comp ((turned
      (-((m.anchor - m.length) * Real.cos m.phi * Real.sin m.theta - m.dx))
      (-((m.anchor - m.length) * Real.sin m.phi - m.dy))
      (-((m.anchor - m.length) * (Real.cos m.phi * Real.cos m.theta - 1) - m.ds))
      m.theta m.phi m.psi).comp (Frame.roll m.tilt)) = Frame.id := by
    rw [straightExit_eq]
    have e1 : ∀ a b c : ℝ, turned a b c m.theta m.phi m.psi
        = (Frame.shift a b c).comp (turned 0 0 0 m.theta m.phi m.psi) := by
      intro a b c
      unfold turned
      rw [shift_zero, Frame.id_comp]
    rw [e1 (-_) (-_) (-_)]
    simp only [Frame.comp_assoc]
    rw [← Frame.comp_assoc (Frame.shift _ _ _), shift_comp_shift]
    simp only [add_neg_cancel]
    rw [shift_zero, Frame.id_comp, comp_cancel (Frame.inv_comp ht)]
    have := roll_cancel (-m.tilt)
    rwa [neg_neg] at this
  have c2 : Crosses ((Frame.yaw m.theta).comp (Frame.pitch m.phi)) (exitStraight m false q) := by
    rw [← chain_crosses (-((m.anchor - m.length) * Real.cos m.phi * Real.sin m.theta - m.dx))
      (-((m.anchor - m.length) * Real.sin m.phi - m.dy))
      (-((m.anchor - m.length) * (Real.cos m.phi * Real.cos m.theta - 1) - m.ds))
      (psi := m.psi), ← crosses_comp_roll m.tilt, ← crosses_comp o s, e]
    exact crosses_id h
  have s2 := s.comp ((same_chain (s.kind.kin k) f
    (-((m.anchor - m.length) * Real.cos m.phi * Real.sin m.theta - m.dx))
    (-((m.anchor - m.length) * Real.sin m.phi - m.dy))
    (-((m.anchor - m.length) * (Real.cos m.phi * Real.cos m.theta - 1) - m.ds))
    hp.side hc.ne' c1 c2 (psi := m.psi)).comp (same_sRotate _ m.tilt))
  rw [e] at s2
  exact Moves.uniq ortho_id s2 (Same.refl q) (crosses_id h)

/-! ## Matrices applied to a particle -/

theorem passes_matrix {a : M4} (ho : (ofM4 a).Ortho) {p : Part} (hp : Passes (ofM4 a) p) :
    Real.cos (rotTheta a) ≠ 0 ∧ 0 < Real.cos (rotPhi a) ∧ Crosses (Frame.yaw (rotTheta a)) p ∧
      Crosses ((Frame.yaw (rotTheta a)).comp (Frame.pitch (rotPhi a))) p := by
  obtain ⟨h1, h2, h3⟩ := hp
  obtain ⟨e, ⟨n, hn, hs, hc⟩, hphi⟩ := euler ho h1
  refine ⟨?_, hphi, ?_, ?_⟩
  · rw [hc]
    exact div_ne_zero h1 hn.ne'
  · simp only [Crosses, Frame.yaw, hs, hc]
    have : 0 < (a 0 2 * p.px + a 2 2 * p.pz) / n := div_pos h2 hn
    have e : a 0 2 / n * p.px + 0 * p.py + a 2 2 / n * p.pz = (a 0 2 * p.px + a 2 2 * p.pz) / n := by
      ring
    rw [e]; exact this
  · rw [e, chain_crosses] at h3
    exact h3

theorem same_matrix {a : M4} (ho : (ofM4 a).Ortho) {p : Part} (k : p.Kin) (h : p.Forward)
    (hp : Passes (ofM4 a) p) :
    Same (ofM4 a) p (sRotate (xRotate (yRotate (sShift (xyShift p (a 0 3) (a 1 3)) (a 2 3))
      (rotTheta a)) (rotPhi a)) (rotPsi a)) := by
  obtain ⟨h1, h2, h3, h4⟩ := passes_matrix ho hp
  have := same_chain k h (a 0 3) (a 1 3) (a 2 3) h1 h2.ne' h3 h4 (psi := rotPsi a)
  rw [← (euler ho hp.side).1] at this
  exact this

theorem back_matrix {a : M4} (ho : (ofM4 a).Ortho) {p q : Part} (k : p.Kin) (h : p.Forward)
    (hp : Passes (ofM4 a) p) (hs : Same (ofM4 a) p q) :
    xyShift (sShift (yRotate (xRotate (sRotate q (-rotPsi a)) (-rotPhi a)) (-rotTheta a))
      (-a 2 3)) (-a 0 3) (-a 1 3) = p := by
  obtain ⟨h1, h2, h3, h4⟩ := passes_matrix ho hp
  have f := hs.forward ho hp.plane
  rw [(euler ho hp.side).1] at hs
  have := same_unchain k h f (-a 0 3) (-a 1 3) (-a 2 3) h1 h2.ne' h3 hs
  simp only [add_neg_cancel] at this
  exact Moves.uniq ortho_id this (Same.refl p) (crosses_id h)

/-! ## Curved elements -/

theorem ortho_curvedRef (a h t : ℝ) : (curvedRef a h t).Ortho :=
  (ortho_roll _).comp ((ortho_arc _ _).comp (ortho_roll _))

theorem lit_last {a00 a01 a02 a03 a10 a11 a12 a13 a20 a21 a22 a23 : ℝ} :
    let l := lit4 a00 a01 a02 a03 a10 a11 a12 a13 a20 a21 a22 a23
    l 3 0 = 0 ∧ l 3 1 = 0 ∧ l 3 2 = 0 ∧ l 3 3 = 1 := ⟨rfl, rfl, rfl, rfl⟩

theorem ofM4_mul_inv (a b : M4) : ofM4 (mul4 a (inv4 b)) = (ofM4 a).comp (ofM4 b).inv := by
  rw [ofM4_mul rfl rfl rfl rfl, ofM4_inv]

theorem ofM4_mul_mis (a : M4) (m : Mis) : ofM4 (mul4 a (misMatrix m)) = (ofM4 a).comp (moved m) := by
  rw [ofM4_mul rfl rfl rfl rfl, ofM4_mis]

theorem ofM4_mul_part (a : M4) (x h t : ℝ) :
    ofM4 (mul4 a (partMatrix x h t)) = (ofM4 a).comp (curvedRef x h t) := by
  rw [ofM4_mul rfl rfl rfl rfl, ofM4_part]

theorem ofM4_entry (m : Mis) (angle h : ℝ) : (ofM4 (entryMatrix m angle h)).comp (Frame.roll m.tilt)
    = curvedEntry m (curvature m angle h) := by
  unfold entryMatrix curvedEntry
  simp only
  rw [ofM4_mul_inv, ofM4_mul_mis, ofM4_part, Frame.comp_assoc (curvedRef _ _ _)]

theorem ofM4_exit (m : Mis) (angle h : ℝ) :
    (Frame.roll (-m.tilt)).comp (ofM4 (exitMatrix m angle h))
    = curvedExit m angle (curvature m angle h) := by
  unfold exitMatrix curvedExit
  simp only
  rw [ofM4_mul_part, ofM4_mul_inv, ofM4_inv, ofM4_part, ofM4_mis, Frame.comp_assoc]

theorem ortho_entryMatrix (m : Mis) (angle h : ℝ) : (ofM4 (entryMatrix m angle h)).Ortho := by
  unfold entryMatrix
  simp only
  rw [ofM4_mul_inv, ofM4_mul_mis, ofM4_part]
  exact ((ortho_curvedRef _ _ _).comp (ortho_moved m)).comp (ortho_curvedRef _ _ _).inv

theorem ortho_exitMatrix (m : Mis) (angle h : ℝ) : (ofM4 (exitMatrix m angle h)).Ortho := by
  unfold exitMatrix
  simp only
  rw [ofM4_mul_part, ofM4_mul_inv, ofM4_inv, ofM4_part, ofM4_mis]
  exact ((ortho_curvedRef _ _ _).inv.comp (ortho_moved m).inv).comp (ortho_curvedRef _ _ _)

theorem ortho_curvedEntry (m : Mis) (h : ℝ) : (curvedEntry m h).Ortho :=
  ((ortho_curvedRef _ _ _).comp ((ortho_moved m).comp (ortho_curvedRef _ _ _).inv)).comp
    (ortho_roll _)

theorem ortho_curvedExit (m : Mis) (angle h : ℝ) : (curvedExit m angle h).Ortho :=
  (ortho_roll _).comp
    ((ortho_curvedRef _ _ _).inv.comp ((ortho_moved m).inv.comp (ortho_curvedRef _ _ _)))

theorem passes_comp_roll {F : Frame} {t : ℝ} {p : Part} :
    Passes (F.comp (Frame.roll t)) p ↔ Passes F p := by
  have e1 : (F.comp (Frame.roll t)).r33 = F.r33 := by simp [Frame.comp, Frame.roll]
  have e2 : (F.comp (Frame.roll t)).r13 = F.r13 := by simp [Frame.comp, Frame.roll]
  constructor
  · intro ⟨h1, h2, h3⟩
    rw [e1] at h1
    rw [e1, e2] at h2
    exact ⟨h1, h2, (crosses_comp_roll _ _ _).1 h3⟩
  · intro ⟨h1, h2, h3⟩
    exact ⟨by rwa [e1], by rwa [e1, e2], (crosses_comp_roll _ _ _).2 h3⟩

theorem same_entryCurved {m : Mis} {angle h : ℝ} (hb : ¬ (angle = 0 ∧ (m.length ≠ 0 ∨ h = 0)))
    {p : Part} (k : p.Kin) (hf : p.Forward)
    (hp : Passes (curvedEntry m (curvature m angle h)) p) :
    Same (curvedEntry m (curvature m angle h)) p (entryCurved m angle h false p) := by
  unfold entryCurved
  rw [if_neg hb, ← ofM4_entry]
  rw [← ofM4_entry, passes_comp_roll] at hp
  exact (same_matrix (ortho_entryMatrix m angle h) k hf hp).comp (same_sRotate _ _)

theorem entryCurved_back {m : Mis} {angle h : ℝ} (hb : ¬ (angle = 0 ∧ (m.length ≠ 0 ∨ h = 0)))
    {p : Part} (k : p.Kin) (hf : p.Forward)
    (hp : Passes (curvedEntry m (curvature m angle h)) p) :
    entryCurved m angle h true (entryCurved m angle h false p) = p := by
  have s := same_entryCurved hb k hf hp
  rw [← ofM4_entry, passes_comp_roll] at hp
  have s1 := s.comp (same_sRotate _ (-m.tilt))
  rw [← ofM4_entry, Frame.comp_assoc, roll_cancel, Frame.comp_id] at s1
  have := back_matrix (ortho_entryMatrix m angle h) k hf hp s1
  unfold entryCurved at this ⊢
  rw [if_neg hb] at this ⊢
  rw [if_neg hb]
  exact this

theorem exit_unroll (m : Mis) (angle h : ℝ) :
    (Frame.roll m.tilt).comp (curvedExit m angle (curvature m angle h))
      = ofM4 (exitMatrix m angle h) := by
  rw [← ofM4_exit]
  exact comp_cancel (roll_cancel _) _

theorem unroll_unique {t : ℝ} {q q1 : Part} (h : q.Forward) (hs : Same (Frame.roll t) q q1) :
    q1 = sRotate q t :=
  hs.uniq (ortho_roll _) (same_sRotate q t) (crosses_roll _ h)

theorem same_exitCurved {m : Mis} {angle h : ℝ} (hb : ¬ (angle = 0 ∧ (m.length ≠ 0 ∨ h = 0)))
    {q : Part} (k : q.Kin) (hf : q.Forward) (hp : PassesCurved m angle (curvature m angle h) q) :
    Same (curvedExit m angle (curvature m angle h)) q (exitCurved m angle h false q) := by
  obtain ⟨q1, hs, hp⟩ := hp
  have e := unroll_unique hf hs
  subst e
  rw [exit_unroll] at hp
  unfold exitCurved
  rw [if_neg hb, ← ofM4_exit]
  exact hs.comp (same_matrix (ortho_exitMatrix m angle h) (hs.kind.kin k)
    (forward_sRotate hf _) hp)

theorem exitCurved_back {m : Mis} {angle h : ℝ} (hb : ¬ (angle = 0 ∧ (m.length ≠ 0 ∨ h = 0)))
    {q : Part} (k : q.Kin) (hf : q.Forward) (hp : PassesCurved m angle (curvature m angle h) q) :
    exitCurved m angle h true (exitCurved m angle h false q) = q := by
  obtain ⟨q1, hs, hp⟩ := hp
  have e := unroll_unique hf hs
  subst e
  rw [exit_unroll] at hp
  have k1 := hs.kind.kin k
  have f1 := forward_sRotate hf (-m.tilt)
  have s := same_matrix (ortho_exitMatrix m angle h) k1 f1 hp
  have := back_matrix (ortho_exitMatrix m angle h) k1 f1 hp s
  unfold exitCurved
  rw [if_neg hb, if_neg hb]
  simp only [Bool.not_false, Bool.not_true, if_true, Bool.false_eq_true, if_false]
  rw [this]
  have s2 := hs.comp (same_sRotate (sRotate q (-m.tilt)) m.tilt)
  have e := roll_cancel (-m.tilt)
  rw [neg_neg] at e
  rw [e] at s2
  exact Moves.uniq ortho_id s2 (Same.refl q) (crosses_id hf)

end

end Verif.Frames
