import Verif.Magnets.BendFields
import Verif.Magnets.BodyRef

/-!
# C63: angle, length, curvature and dipole strength of bends agree after any history of assignments

The specification `BendSpec` keeps only what the user assigned last.
-/

namespace Verif.Magnets

open Frames

noncomputable section

/-! ## Bend -/

/-- The values that the user wanted: the last angle, the last length, and the last statement about `k0`.  Switching `k0_from_h` off
leaves `k0` zero. -/
structure BendSpec where
  angle : ℝ
  length : ℝ
  k0 : K0

/-- Nothing assigned. -/
def BendSpec.init : BendSpec := ⟨0, 0, .fromH⟩

/-- The effect of an assignment on the wish. -/
def BendSpec.step (s : BendSpec) : BendOp → BendSpec
  | .angle v => { s with angle := v }
  | .length v => { s with length := v }
  | .k0 v => { s with k0 := v }
  | .fromH true => { s with k0 := .fromH }
  | .fromH false => match s.k0 with
    | .fromH => { s with k0 := .num 0 }
    | .num _ => s

/-- The curvature of an arc. -/
def curvatureOf (angle length : ℝ) : ℝ := if length = 0 then 0 else angle / length

/-- The element fulfils the wish. -/
structure BendState.Fulfils (b : BendState) (s : BendSpec) : Prop where
  angle : b.angle = s.angle
  length : b.length = s.length
  h : b.h = curvatureOf s.angle s.length
  /-- what is read back -/
  read : b.getK0 = s.k0
  /-- what tracking uses -/
  used : b.k0 = match s.k0 with
    | .fromH => curvatureOf s.angle s.length
    | .num v => v

theorem Fulfils.step {b : BendState} {s : BendSpec} (f : b.Fulfils s) (op : BendOp) : (b.step op).Fulfils (s.step op) := by
  obtain ⟨a, l, h, k, q⟩ := b
  obtain ⟨a', l', k'⟩ := s
  obtain ⟨f1, f2, f3, f4, f5⟩ := f
  simp only at f1 f2 f3 f5
  subst f1 f2 f3
  cases op with
  | angle v =>
    by_cases hl : l = 0
    · cases q <;> cases k' <;>
        simp_all [BendState.step, BendState.setAngle, BendSpec.step, BendState.getK0, curvatureOf] <;>
        constructor <;> simp_all [BendState.getK0, curvatureOf]
    · cases q <;> cases k' <;>
        simp_all [BendState.step, BendState.setAngle, BendSpec.step, BendState.getK0, curvatureOf] <;>
        constructor <;> simp_all [BendState.getK0, curvatureOf]
  | length v =>
    by_cases hl : v = 0 <;> cases q <;> cases k' <;>
      simp_all [BendState.step, BendState.setLength, BendSpec.step, BendState.getK0, curvatureOf] <;>
      constructor <;> simp_all [BendState.getK0, curvatureOf]
  | k0 v =>
    cases v <;> cases q <;> cases k' <;>
      constructor <;> simp_all [BendState.step, BendState.setK0, BendState.setFromH, BendSpec.step, BendState.getK0]
  | fromH v =>
    cases v <;> cases q <;> cases k' <;>
      constructor <;> simp_all [BendState.step, BendState.setFromH, BendSpec.step, BendState.getK0]

theorem Fulfils.run {b : BendState} {s : BendSpec} (f : b.Fulfils s) (ops : List BendOp) :
    (b.run ops).Fulfils (ops.foldl BendSpec.step s) := by
  induction ops generalizing b s with
  | nil => exact f
  | cons op ops ih => exact ih (Fulfils.step f op)

theorem init_fulfils : BendState.init.Fulfils BendSpec.init := by
  constructor <;> simp [BendState.init, BendSpec.init, BendState.getK0, curvatureOf]

/-- C63: after any history of assignments the curvature is angle over length, and the dipole strength used in tracking is the curvature
or the number assigned last. -/
theorem C63_bend (ops : List BendOp) : (BendState.init.run ops).Fulfils (ops.foldl BendSpec.step BendSpec.init) :=
  Fulfils.run init_fulfils ops

/-- The state is a function of the wish: the order of the assignments does not matter otherwise. -/
theorem C63_bend_order (ops ops' : List BendOp)
    (h : ops.foldl BendSpec.step BendSpec.init = ops'.foldl BendSpec.step BendSpec.init) :
    BendState.init.run ops = BendState.init.run ops' := by
  have f := C63_bend ops
  have f' := C63_bend ops'
  rw [← h] at f'
  have e1 := f.angle.trans f'.angle.symm
  have e2 := f.length.trans f'.length.symm
  have e3 := f.h.trans f'.h.symm
  have e4 := f.used.trans f'.used.symm
  have e5 := f.read.trans f'.read.symm
  generalize BendState.init.run ops = b at *
  generalize BendState.init.run ops' = b' at *
  obtain ⟨a, l, h, k, q⟩ := b
  obtain ⟨a', l', h', k', q'⟩ := b'
  simp only at e1 e2 e3 e4
  subst e1 e2 e3 e4
  cases q <;> cases q' <;> simp_all [BendState.getK0]

theorem make_eq (length angle : Option ℝ) (fromH : Option Bool) (k0 : Option K0) :
    Bend.make length angle fromH k0 = BendState.init.run ((length.map BendOp.length).toList ++ (angle.map BendOp.angle).toList ++
      (fromH.map BendOp.fromH).toList ++ (k0.map BendOp.k0).toList) := by
  cases length <;> cases angle <;> cases fromH <;> cases k0 <;> rfl

/-- The bend of a dictionary is the bend from which it was made. -/
theorem C63_bend_dict (ops : List BendOp) :
    Bend.fromDict (BendState.init.run ops).toDict = BendState.init.run ops := by
  unfold Bend.fromDict
  rw [make_eq]
  apply C63_bend_order
  have f := C63_bend ops
  generalize ops.foldl BendSpec.step BendSpec.init = s at *
  simp only [BendState.toDict, Option.map_some, Option.map_none, Option.toList_some, Option.toList_none, f.angle, f.length, f.read]
  rfl

/-- A dictionary of an old version, with the curvature instead of the angle, gives the bend of that curvature. -/
theorem C63_bend_old (length h k0 : ℝ) (fromH : Bool) (hl : length ≠ 0) :
    Bend.fromOldDict length h fromH k0 = ⟨h * length, length, h, if fromH then h else k0, fromH⟩ := by
  cases fromH <;>
    simp [Bend.fromOldDict, Bend.make, BendState.setLength, BendState.setAngle, BendState.setFromH, BendState.setK0, BendState.init, hl]

/-- Angle 0.1, then length 2: curvature 0.05 = dipole strength; then `k0 = 7`; then length 4. -/
example : BendState.init.run [.angle 0.1, .length 2] = ⟨0.1, 2, 0.05, 0.05, true⟩ ∧
    BendState.init.run [.angle 0.1, .length 2, .k0 (.num 7), .length 4] = ⟨0.1, 4, 0.025, 7, false⟩ := by
  constructor <;>
    norm_num [BendState.run, BendState.init, BendState.step, BendState.setAngle, BendState.setLength, BendState.setK0,
      BendState.setFromH]

/-! ## RBend -/

/-- The wish for a rectangular bend. -/
structure RBendSpec where
  angle : ℝ
  lengthStraight : ℝ
  angleDiff : ℝ
  k0 : K0

/-- Nothing assigned. -/
def RBendSpec.init : RBendSpec := ⟨0, 0, 0, .fromH⟩

/-- The effect of an assignment on the wish. -/
def RBendSpec.step (s : RBendSpec) : RBendOp → RBendSpec
  | .angle v => { s with angle := v }
  | .lengthStraight v => { s with lengthStraight := v }
  | .angleDiff v => { s with angleDiff := v }
  | .k0 v => { s with k0 := v }
  | .fromH true => { s with k0 := .fromH }
  | .fromH false => match s.k0 with
    | .fromH => { s with k0 := .num 0 }
    | .num _ => s

/-- A circular arc, of curvature `h` and length `l`, turns by `angle`, and its ends, whose directions are turned by `tin` and `tout` from
the straight axis, are `ls` apart along that axis; or a straight line. -/
def ArcOver (angle ls tin tout h l : ℝ) : Prop :=
  (angle ≠ 0 ∧ h * l = angle ∧ h * ls = Real.sin tin + Real.sin tout) ∨ (angle = 0 ∧ h = 0 ∧ l = ls)

/-- The element fulfils the wish.  Angles below 1e-10 count as zero. -/
structure RBendState.Fulfils (b : RBendState) (s : RBendSpec) : Prop where
  angle : b.angle = s.angle
  lengthStraight : b.lengthStraight = s.lengthStraight
  angleDiff : b.angleDiff = s.angleDiff
  read : b.getK0 = s.k0
  used : b.k0 = match s.k0 with
    | .fromH => b.h
    | .num v => v
  h : b.h = rbendH s.angle s.lengthStraight s.angleDiff
  length : b.length = rbendLength s.angle s.lengthStraight s.angleDiff

theorem rbend_step {b : RBendState} {s : RBendSpec} (f : b.Fulfils s) (op : RBendOp) : (b.step op).Fulfils (s.step op) := by
  obtain ⟨a, ls, d, l, h, k, q⟩ := b
  obtain ⟨a', ls', d', k'⟩ := s
  obtain ⟨f1, f2, f3, f4, f5, f6, f7⟩ := f
  simp only at f1 f2 f3 f5 f6 f7
  subst f1 f2 f3 f6 f7
  cases op with
  | angle v => cases q <;> cases k' <;> constructor <;>
      simp_all [RBendState.step, RBendState.update, RBendSpec.step, RBendState.getK0]
  | lengthStraight v => cases q <;> cases k' <;> constructor <;>
      simp_all [RBendState.step, RBendState.update, RBendSpec.step, RBendState.getK0]
  | angleDiff v => cases q <;> cases k' <;> constructor <;>
      simp_all [RBendState.step, RBendState.update, RBendSpec.step, RBendState.getK0]
  | k0 v => cases v <;> cases q <;> cases k' <;> constructor <;>
      simp_all [RBendState.step, RBendState.setK0, RBendState.setFromH, RBendSpec.step, RBendState.getK0]
  | fromH v => cases v <;> cases q <;> cases k' <;> constructor <;>
      simp_all [RBendState.step, RBendState.setFromH, RBendSpec.step, RBendState.getK0]

theorem rbend_run {b : RBendState} {s : RBendSpec} (f : b.Fulfils s) (ops : List RBendOp) :
    (b.run ops).Fulfils (ops.foldl RBendSpec.step s) := by
  induction ops generalizing b s with
  | nil => exact f
  | cons op ops ih => exact ih (rbend_step f op)

theorem rbend_fulfils (ops : List RBendOp) : (RBendState.init.run ops).Fulfils (ops.foldl RBendSpec.step RBendSpec.init) := by
  apply rbend_run
  constructor <;> simp [RBendState.init, RBendSpec.init, RBendState.getK0, rbendH, rbendLength]

/-- The sum of the sines is not zero for angles below a half turn. -/
theorem sines_ne_zero {a d : ℝ} (ha : a ≠ 0) (h1 : |a| < 2 * Real.pi) (h2 : |d| < Real.pi) :
    Real.sin (0.5 * a - d / 2) + Real.sin (0.5 * a + d / 2) ≠ 0 := by
  have e : Real.sin (0.5 * a - d / 2) + Real.sin (0.5 * a + d / 2) = 2 * Real.sin (a / 2) * Real.cos (d / 2) := by
    rw [show (0.5 : ℝ) * a = a / 2 by ring, Real.sin_sub, Real.sin_add]
    ring
  rw [e]
  have pi := Real.pi_pos
  obtain ⟨a1, a2⟩ := abs_lt.1 h1
  obtain ⟨d1, d2⟩ := abs_lt.1 h2
  have c : Real.cos (d / 2) ≠ 0 := (Real.cos_pos_of_mem_Ioo ⟨by linarith, by linarith⟩).ne'
  have s : Real.sin (a / 2) ≠ 0 := by
    intro h0
    rw [Real.sin_eq_zero_iff_of_lt_of_lt (by linarith) (by linarith)] at h0
    exact ha (by linarith)
  exact mul_ne_zero (mul_ne_zero two_ne_zero s) c

/-- C63 for rectangular bends: after any history of assignments, curvature and length of the arc fit to the straight length and the
angles assigned last (for angles below a half turn at each end and a straight length that is not tiny), and `k0` is read back and used as
for `Bend`. -/
theorem C63_rbend (ops : List RBendOp) (s : RBendSpec) (hs : ops.foldl RBendSpec.step RBendSpec.init = s)
    (ha : s.angle = 0 ∨ 1e-10 ≤ |s.angle|) (hl : s.angle = 0 ∨ 1e-10 ≤ |s.lengthStraight|)
    (h1 : |s.angle| < 2 * Real.pi) (h2 : |s.angleDiff| < Real.pi) :
    let b := RBendState.init.run ops
    b.angle = s.angle ∧ b.lengthStraight = s.lengthStraight ∧ b.angleDiff = s.angleDiff ∧ b.getK0 = s.k0 ∧
    (b.k0 = match s.k0 with | .fromH => b.h | .num v => v) ∧
    ArcOver s.angle s.lengthStraight ((s.angle - s.angleDiff) / 2) ((s.angle + s.angleDiff) / 2) b.h b.length := by
  have f := rbend_fulfils ops
  rw [hs] at f
  refine ⟨f.angle, f.lengthStraight, f.angleDiff, f.read, f.used, ?_⟩
  rw [f.h, f.length]
  by_cases a0 : s.angle = 0
  · right
    have : |s.angle| < 1e-10 := by
      rw [a0]
      norm_num
    refine ⟨a0, ?_, ?_⟩
    · simp only [rbendH, this, if_true]
    · simp only [rbendLength, this, if_true]
  · left
    have c1 : ¬ |s.angle| < 1e-10 := not_lt.2 (ha.resolve_left a0)
    have c2' := hl.resolve_left a0
    have c2 : ¬ |s.lengthStraight| < 1e-10 := not_lt.2 c2'
    have l0 : s.lengthStraight ≠ 0 := by
      intro h
      rw [h] at c2'
      norm_num at c2'
    have n := sines_ne_zero a0 h1 h2
    have e : rbendH s.angle s.lengthStraight s.angleDiff =
        (Real.sin (0.5 * s.angle - s.angleDiff / 2) + Real.sin (0.5 * s.angle + s.angleDiff / 2)) / s.lengthStraight := by
      simp [rbendH, c1, c2]
    refine ⟨a0, ?_, ?_⟩
    · have h0 : rbendH s.angle s.lengthStraight s.angleDiff ≠ 0 := by
        rw [e]
        exact div_ne_zero n l0
      simp only [rbendLength, c1, c2, if_false]
      field_simp
    · rw [e, show (s.angle - s.angleDiff) / 2 = 0.5 * s.angle - s.angleDiff / 2 by ring,
        show (s.angle + s.angleDiff) / 2 = 0.5 * s.angle + s.angleDiff / 2 by ring]
      field_simp

/-- The order of the assignments does not matter. -/
theorem C63_rbend_order (ops ops' : List RBendOp)
    (h : ops.foldl RBendSpec.step RBendSpec.init = ops'.foldl RBendSpec.step RBendSpec.init) :
    RBendState.init.run ops = RBendState.init.run ops' := by
  have f := rbend_fulfils ops
  have f' := rbend_fulfils ops'
  rw [← h] at f'
  have e1 := f.angle.trans f'.angle.symm
  have e2 := f.lengthStraight.trans f'.lengthStraight.symm
  have e3 := f.angleDiff.trans f'.angleDiff.symm
  have e4 := f.h.trans f'.h.symm
  have e5 := f.length.trans f'.length.symm
  have e6 := f.read.trans f'.read.symm
  have e7 := f.used
  have e8 := f'.used
  rw [← e4] at e8
  have e9 := e7.trans e8.symm
  clear e7 e8
  generalize RBendState.init.run ops = b at *
  generalize RBendState.init.run ops' = b' at *
  obtain ⟨a, ls, d, l, h, k, q⟩ := b
  obtain ⟨a', ls', d', l', h', k', q'⟩ := b'
  simp only at e1 e2 e3 e4 e5 e9
  subst e1 e2 e3 e4 e5 e9
  cases q <;> cases q' <;> simp_all [RBendState.getK0]

/-- The rectangular bend of a dictionary is the one from which it was made. -/
theorem C63_rbend_dict (ops : List RBendOp) : RBend.fromDict (RBendState.init.run ops).toDict = RBendState.init.run ops := by
  apply C63_rbend_order
  have f := rbend_fulfils ops
  generalize ops.foldl RBendSpec.step RBendSpec.init = s at *
  simp only [RBendState.toDict, f.angle, f.lengthStraight, f.angleDiff, f.read]
  rfl

/-- The magnet that is tracked has the fields of the element. -/
def Uses (m : Magnet) (b : RBendState) : Prop :=
  m.h = b.h ∧ m.length = b.length ∧ m.lengthStraight = b.lengthStraight ∧ m.rbendAngleDiff = b.angleDiff ∧ m.k0 = b.k0

/-- Every rectangular bend that is made through the interface, with `k0` from the curvature, keeps the reference particle: the condition
on the straight length in `C62_rbend` holds. -/
theorem C63_rbend_reference (ops : List RBendOp) (s : RBendSpec) (hs : ops.foldl RBendSpec.step RBendSpec.init = s)
    (ha : 1e-10 < |s.angle|) (hl : 1e-10 ≤ |s.lengthStraight|) (h1 : |(s.angle - s.angleDiff) / 2| < Real.pi / 2)
    (h2 : |(s.angle + s.angleDiff) / 2| < Real.pi / 2) (hk : s.k0 = .fromH) (m : Magnet) (u : Uses m (RBendState.init.run ops)) :
    m.h * m.length = s.angle ∧ m.k0 = m.h ∧ m.h * m.lengthStraight =
      Real.sin ((m.h * m.length - m.rbendAngleDiff) / 2) + Real.sin ((m.h * m.length + m.rbendAngleDiff) / 2) := by
  obtain ⟨a1, a2⟩ := abs_lt.1 h1
  obtain ⟨b1, b2⟩ := abs_lt.1 h2
  have pi := Real.pi_pos
  have a0 : s.angle ≠ 0 := by
    intro h
    rw [h] at ha
    norm_num at ha
  obtain ⟨_, e2, e3, _, e5, e6⟩ := C63_rbend ops s hs (Or.inr ha.le) (Or.inr hl) (abs_lt.2 ⟨by linarith, by linarith⟩)
    (abs_lt.2 ⟨by linarith, by linarith⟩)
  obtain ⟨u1, u2, u3, u4, u5⟩ := u
  rw [hk] at e5
  obtain ⟨_, e6, e7⟩ | ⟨h, _⟩ := e6
  · refine ⟨by rw [u1, u2, e6], by rw [u1, u5, e5], ?_⟩
    rw [u1, u2, u3, u4, e6, e2, e3, e7]
  · exact absurd h a0

/-- The offsets of the axis which Python calculates for the slices of the edges are those which the C code uses when it tracks the whole
magnet. -/
theorem C63_rbend_offsets (ops : List RBendOp) (s : RBendSpec) (hs : ops.foldl RBendSpec.step RBendSpec.init = s)
    (ha : 1e-10 < |s.angle|) (hl : 1e-10 ≤ |s.lengthStraight|) (h1 : |(s.angle - s.angleDiff) / 2| < Real.pi / 2)
    (h2 : |(s.angle + s.angleDiff) / 2| < Real.pi / 2)
    (tin : s.angle - s.angleDiff = 0 ∨ 1e-10 < |(s.angle - s.angleDiff) / 2|)
    (tout : s.angle + s.angleDiff = 0 ∨ 1e-10 < |(s.angle + s.angleDiff) / 2|)
    (m : Magnet) (u : Uses m (RBendState.init.run ops)) (hr : m.rbendModel = 2) :
    (geometry m).tin.x0 = (RBendState.init.run ops).x0In m.rbendShift m.compensateSagitta ∧
    (geometry m).tout.x0 = (RBendState.init.run ops).x0Out m.rbendShift m.compensateSagitta := by
  obtain ⟨a1, a2⟩ := abs_lt.1 h1
  obtain ⟨b1, b2⟩ := abs_lt.1 h2
  have pi := Real.pi_pos
  have a0 : s.angle ≠ 0 := by
    intro h
    rw [h] at ha
    norm_num at ha
  obtain ⟨e1, e2, e3, _, _, e6⟩ := C63_rbend ops s hs (Or.inr ha.le) (Or.inr hl) (abs_lt.2 ⟨by linarith, by linarith⟩)
    (abs_lt.2 ⟨by linarith, by linarith⟩)
  obtain ⟨_, e6, e7⟩ | ⟨h, _⟩ := e6
  swap
  · exact absurd h a0
  obtain ⟨u1, u2, u3, u4, _⟩ := u
  have sc : ∀ t : ℝ, t = 0 ∨ 1e-10 < |t| → (sincos t).2 = Real.cos t := by
    intro t ht
    unfold sincos
    obtain rfl | ht := ht
    · simp
    · rw [if_pos ht]
  generalize RBendState.init.run ops = b at *
  have t1 : (0.5 : ℝ) * s.angle - s.angleDiff / 2 = (s.angle - s.angleDiff) / 2 := by ring
  have t2 : (0.5 : ℝ) * s.angle + s.angleDiff / 2 = (s.angle + s.angleDiff) / 2 := by ring
  have hm : x0Mid m = b.x0Mid m.rbendShift m.compensateSagitta := by
    simp only [x0Mid, RBendState.x0Mid, u1, u2, e6, e1]
    by_cases c : m.compensateSagitta = true <;> simp [c, ha]
  have hin := sc ((s.angle - s.angleDiff) / 2) (tin.imp (fun h => by rw [h]; norm_num) id)
  have hout := sc ((s.angle + s.angleDiff) / 2) (tout.imp (fun h => by rw [h]; norm_num) id)
  constructor
  · simp only [geometry, hr, RBendState.x0In, u1, u2, e6, e1, hm, u4, e3, sqrtMid, t1, hin, u3]
    norm_num [ha]
  · have sq : (Real.sin ((s.angle + s.angleDiff) / 2) - b.h * b.lengthStraight / 2) ^ 2 =
        (Real.sin ((s.angle - s.angleDiff) / 2) - b.h * b.lengthStraight / 2) ^ 2 := by
      rw [e2, e7]
      ring
    simp only [geometry, hr, RBendState.x0Out, u1, u2, e6, e1, hm, u4, e3, sqrtMid, t2, hout, u3, sq]
    norm_num [ha]

/-- A rectangular bend whose straight length is zero reports the angle that was assigned, but neither its arc nor its dipole strength
bends anything. -/
theorem C63_thin_rbend_violated : ∃ ops : List RBendOp, (RBendState.init.run ops).angle = 1 ∧
    (RBendState.init.run ops).getK0 = .fromH ∧ (RBendState.init.run ops).h * (RBendState.init.run ops).length = 0 ∧
    (RBendState.init.run ops).k0 = 0 := by
  refine ⟨[.angle 1], ?_, ?_, ?_, ?_⟩ <;>
    norm_num [RBendState.run, RBendState.init, RBendState.step, RBendState.update, RBendState.getK0, rbendH, rbendLength]

/-- The hypotheses of `C63_rbend_reference` hold for a bend made with the angle first, then changed in length. -/
example : ∃ (ops : List RBendOp) (s : RBendSpec), ops.foldl RBendSpec.step RBendSpec.init = s ∧ 1e-10 < |s.angle| ∧
    1e-10 ≤ |s.lengthStraight| ∧ |(s.angle - s.angleDiff) / 2| < Real.pi / 2 ∧ |(s.angle + s.angleDiff) / 2| < Real.pi / 2 ∧
    s.k0 = .fromH := by
  refine ⟨[.angle 1, .lengthStraight 3, .k0 (.num 2), .angleDiff 0.5, .k0 .fromH, .lengthStraight 2], _, rfl, ?_, ?_, ?_, ?_, rfl⟩
  · norm_num [RBendSpec.step]
  · norm_num [RBendSpec.step]
  · have := Real.pi_gt_three
    simp only [RBendSpec.step, List.foldl]
    rw [abs_lt]
    constructor <;> linarith
  · have := Real.pi_gt_three
    simp only [RBendSpec.step, List.foldl]
    rw [abs_lt]
    constructor <;> linarith

end

end Verif.Magnets
