import Verif.Frames.Spec
import Mathlib.Tactic.Ring
import Mathlib.Tactic.Linarith
import Mathlib.Tactic.FieldSimp
import Mathlib.Tactic.LinearCombination
import Mathlib.Tactic.Positivity
import Mathlib.Tactic.Push

namespace Verif.Frames

noncomputable section

/-! ## Frames -/

theorem Frame.comp_assoc (F G H : Frame) : (F.comp G).comp H = F.comp (G.comp H) := by
  ext <;> simp only [Frame.comp] <;> ring

theorem Frame.id_comp (F : Frame) : Frame.id.comp F = F := by
  ext <;> simp only [Frame.comp, Frame.id] <;> ring

theorem Frame.comp_id (F : Frame) : F.comp Frame.id = F := by
  ext <;> simp only [Frame.comp, Frame.id] <;> ring

theorem Frame.inv_comp {F : Frame} (h : F.Ortho) : F.inv.comp F = Frame.id := by
  ext <;> simp only [Frame.comp, Frame.id, Frame.inv]
  · linear_combination h.c11
  · linear_combination h.c12
  · linear_combination h.c13
  · linear_combination h.c12
  · linear_combination h.c22
  · linear_combination h.c23
  · linear_combination h.c13
  · linear_combination h.c23
  · linear_combination h.c33
  · ring
  · ring
  · ring

/-- Rows of an orthonormal right-handed frame: each entry is its cofactor. -/
theorem Frame.Ortho.cof {F : Frame} (h : F.Ortho) :
    F.r11 = F.r22 * F.r33 - F.r23 * F.r32 ∧ F.r12 = F.r23 * F.r31 - F.r21 * F.r33 ∧
    F.r13 = F.r21 * F.r32 - F.r22 * F.r31 ∧
    F.r21 = F.r13 * F.r32 - F.r12 * F.r33 ∧ F.r22 = F.r11 * F.r33 - F.r13 * F.r31 ∧
    F.r23 = F.r12 * F.r31 - F.r11 * F.r32 ∧
    F.r31 = F.r12 * F.r23 - F.r13 * F.r22 ∧ F.r32 = F.r13 * F.r21 - F.r11 * F.r23 ∧
    F.r33 = F.r11 * F.r22 - F.r12 * F.r21 := by
  obtain ⟨c11, c22, c33, c12, c13, c23, det⟩ := h
  refine ⟨?_, ?_, ?_, ?_, ?_, ?_, ?_, ?_, ?_⟩
  · linear_combination (-F.r11) * det + (F.r22 * F.r33 - F.r23 * F.r32) * c11 +
      (F.r23 * F.r31 - F.r21 * F.r33) * c12 + (F.r21 * F.r32 - F.r22 * F.r31) * c13
  · linear_combination (-F.r12) * det + (F.r22 * F.r33 - F.r23 * F.r32) * c12 +
      (F.r23 * F.r31 - F.r21 * F.r33) * c22 + (F.r21 * F.r32 - F.r22 * F.r31) * c23
  · linear_combination (-F.r13) * det + (F.r22 * F.r33 - F.r23 * F.r32) * c13 +
      (F.r23 * F.r31 - F.r21 * F.r33) * c23 + (F.r21 * F.r32 - F.r22 * F.r31) * c33
  · linear_combination (-F.r21) * det + (F.r13 * F.r32 - F.r12 * F.r33) * c11 + (F.r11 * F.r33 - F.r13 * F.r31) * c12 + (F.r12 * F.r31 - F.r11 * F.r32) * c13
  · linear_combination (-F.r22) * det + (F.r13 * F.r32 - F.r12 * F.r33) * c12 + (F.r11 * F.r33 - F.r13 * F.r31) * c22 + (F.r12 * F.r31 - F.r11 * F.r32) * c23
  · linear_combination (-F.r23) * det + (F.r13 * F.r32 - F.r12 * F.r33) * c13 + (F.r11 * F.r33 - F.r13 * F.r31) * c23 + (F.r12 * F.r31 - F.r11 * F.r32) * c33
  · linear_combination (-F.r31) * det + (F.r12 * F.r23 - F.r13 * F.r22) * c11 + (F.r13 * F.r21 - F.r11 * F.r23) * c12 + (F.r11 * F.r22 - F.r12 * F.r21) * c13
  · linear_combination (-F.r32) * det + (F.r12 * F.r23 - F.r13 * F.r22) * c12 + (F.r13 * F.r21 - F.r11 * F.r23) * c22 + (F.r11 * F.r22 - F.r12 * F.r21) * c23
  · linear_combination (-F.r33) * det + (F.r12 * F.r23 - F.r13 * F.r22) * c13 + (F.r13 * F.r21 - F.r11 * F.r23) * c23 + (F.r11 * F.r22 - F.r12 * F.r21) * c33

theorem Frame.Ortho.inv {F : Frame} (h : F.Ortho) : F.inv.Ortho := by
  obtain ⟨a11, a12, a13, a21, a22, a23, a31, a32, a33⟩ := h.cof
  have hd := h.det
  constructor <;> simp only [Frame.inv]
  · linear_combination hd + F.r11 * a11 + F.r12 * a12 + F.r13 * a13
  · linear_combination hd + F.r21 * a21 + F.r22 * a22 + F.r23 * a23
  · linear_combination hd + F.r31 * a31 + F.r32 * a32 + F.r33 * a33
  · linear_combination F.r11 * a21 + F.r12 * a22 + F.r13 * a23
  · linear_combination F.r11 * a31 + F.r12 * a32 + F.r13 * a33
  · linear_combination F.r21 * a31 + F.r22 * a32 + F.r23 * a33
  · linear_combination hd

theorem Frame.inv_inv {F : Frame} (h : F.Ortho) : F.inv.inv = F := by
  have hi := h.inv
  have e1 := hi.c11
  have e2 := hi.c22
  have e3 := hi.c33
  have e4 := hi.c12
  have e5 := hi.c13
  have e6 := hi.c23
  simp only [Frame.inv] at e1 e2 e3 e4 e5 e6
  ext <;> simp only [Frame.inv]
  · linear_combination F.d1 * e1 + F.d2 * e4 + F.d3 * e5
  · linear_combination F.d1 * e4 + F.d2 * e2 + F.d3 * e6
  · linear_combination F.d1 * e5 + F.d2 * e6 + F.d3 * e3

theorem Frame.comp_inv {F : Frame} (h : F.Ortho) : F.comp F.inv = Frame.id := by
  have := Frame.inv_comp h.inv
  rwa [Frame.inv_inv h] at this

theorem Frame.Ortho.comp {F G : Frame} (hF : F.Ortho) (hG : G.Ortho) : (F.comp G).Ortho := by
  obtain ⟨c11, c22, c33, c12, c13, c23, det⟩ := hF
  obtain ⟨g11, g22, g33, g12, g13, g23, gdet⟩ := hG
  constructor <;> simp only [Frame.comp]
  · linear_combination g11 + G.r11 ^ 2 * c11 + G.r21 ^ 2 * c22 + G.r31 ^ 2 * c33 +
      2 * G.r11 * G.r21 * c12 + 2 * G.r11 * G.r31 * c13 + 2 * G.r21 * G.r31 * c23
  · linear_combination g22 + G.r12 ^ 2 * c11 + G.r22 ^ 2 * c22 + G.r32 ^ 2 * c33 +
      2 * G.r12 * G.r22 * c12 + 2 * G.r12 * G.r32 * c13 + 2 * G.r22 * G.r32 * c23
  · linear_combination g33 + G.r13 ^ 2 * c11 + G.r23 ^ 2 * c22 + G.r33 ^ 2 * c33 +
      2 * G.r13 * G.r23 * c12 + 2 * G.r13 * G.r33 * c13 + 2 * G.r23 * G.r33 * c23
  · linear_combination g12 + G.r11 * G.r12 * c11 + G.r21 * G.r22 * c22 + G.r31 * G.r32 * c33 +
      (G.r11 * G.r22 + G.r21 * G.r12) * c12 + (G.r11 * G.r32 + G.r31 * G.r12) * c13 +
      (G.r21 * G.r32 + G.r31 * G.r22) * c23
  · linear_combination g13 + G.r11 * G.r13 * c11 + G.r21 * G.r23 * c22 + G.r31 * G.r33 * c33 +
      (G.r11 * G.r23 + G.r21 * G.r13) * c12 + (G.r11 * G.r33 + G.r31 * G.r13) * c13 +
      (G.r21 * G.r33 + G.r31 * G.r23) * c23
  · linear_combination g23 + G.r12 * G.r13 * c11 + G.r22 * G.r23 * c22 + G.r32 * G.r33 * c33 +
      (G.r12 * G.r23 + G.r22 * G.r13) * c12 + (G.r12 * G.r33 + G.r32 * G.r13) * c13 +
      (G.r22 * G.r33 + G.r32 * G.r23) * c23
  · linear_combination det * (G.r11 * (G.r22 * G.r33 - G.r23 * G.r32) -
      G.r12 * (G.r21 * G.r33 - G.r23 * G.r31) + G.r13 * (G.r21 * G.r32 - G.r22 * G.r31)) + gdet

theorem ortho_id : Frame.id.Ortho := by constructor <;> simp [Frame.id]
theorem ortho_shift (a b c : ℝ) : (Frame.shift a b c).Ortho := by
  constructor <;> simp [Frame.shift]
theorem ortho_yaw (t : ℝ) : (Frame.yaw t).Ortho := by
  have := Real.sin_sq_add_cos_sq t
  constructor <;> simp only [Frame.yaw] <;> first | ring1 | linear_combination this
theorem ortho_pitch (t : ℝ) : (Frame.pitch t).Ortho := by
  have := Real.sin_sq_add_cos_sq t
  constructor <;> simp only [Frame.pitch] <;> first | ring1 | linear_combination this
theorem ortho_roll (t : ℝ) : (Frame.roll t).Ortho := by
  have := Real.sin_sq_add_cos_sq t
  constructor <;> simp only [Frame.roll] <;> first | ring1 | linear_combination this
theorem ortho_arc (a h : ℝ) : (Frame.arc a h).Ortho := by
  have := Real.sin_sq_add_cos_sq a
  constructor <;> simp only [Frame.arc] <;> first | ring1 | linear_combination this

/-! ## The same particle in several frames -/

theorem Part.Forward.pz_pos {p : Part} (h : p.Forward) : 0 < p.pz := Real.sqrt_pos.2 h

theorem Part.Forward.pz_sq {p : Part} (h : p.Forward) :
    p.pz ^ 2 = (1 + p.delta) ^ 2 - p.px ^ 2 - p.py ^ 2 := Real.sq_sqrt h.le

theorem Part.forward_of_pz {p : Part} (h : 0 < p.pz) : p.Forward := Real.sqrt_pos.1 h

theorem SameKind.refl (p : Part) : SameKind p p := ⟨rfl, rfl, rfl, rfl, rfl, rfl⟩

theorem SameKind.symm {p q : Part} (h : SameKind p q) : SameKind q p :=
  ⟨h.delta.symm, h.ptau.symm, h.rpp.symm, h.rvv.symm, h.beta0.symm, h.chi.symm⟩

theorem SameKind.trans {p q r : Part} (h : SameKind p q) (k : SameKind q r) : SameKind p r :=
  ⟨k.delta.trans h.delta, k.ptau.trans h.ptau, k.rpp.trans h.rpp,
    k.rvv.trans h.rvv, k.beta0.trans h.beta0, k.chi.trans h.chi⟩

theorem SameKind.kin {p q : Part} (h : SameKind p q) (k : p.Kin) : q.Kin := by
  obtain ⟨k1, k2, k3, k4, k5, k6⟩ := k
  constructor <;> simp only [h.beta0, h.rvv, h.delta, h.ptau, h.rpp] <;> assumption

theorem dir_comp (F G : Frame) (q : Vec) : (F.comp G).dir q = F.dir (G.dir q) := by
  ext <;> simp only [Frame.comp, Frame.dir] <;> ring

theorem point_comp (F G : Frame) (q : Vec) : (F.comp G).point q = F.point (G.point q) := by
  ext <;> simp only [Frame.comp, Frame.dir, Frame.point] <;> ring

theorem dir_id (q : Vec) : Frame.id.dir q = q := by
  ext <;> simp [Frame.id, Frame.dir]

theorem point_id (q : Vec) : Frame.id.point q = q := by
  ext <;> simp [Frame.id, Frame.dir, Frame.point]

theorem Same.refl (p : Part) : Same Frame.id p p :=
  ⟨SameKind.refl p, by simp, dir_id _, dir_id _, 0, by rw [point_id]; ext <;> simp, by simp⟩

theorem Moves.comp {F G : Frame} {a b : ℝ} {p q r : Part} (h : Moves F a p q)
    (k : Moves G b q r) : Moves (F.comp G) (a + b) p r := by
  obtain ⟨l, hl, hz⟩ := h.line
  obtain ⟨m, hm, hy⟩ := k.line
  refine ⟨h.kind.trans k.kind, by rw [k.s, h.s]; ring, ?_, ?_, l + m, ?_, ?_⟩
  · rw [dir_comp, k.mom, h.mom]
  · rw [dir_comp, k.spin, h.spin]
  · rw [point_comp, hm]
    have e := h.mom
    simp only [Frame.point, Frame.dir, Vec.mk.injEq, Part.mom] at hl e ⊢
    obtain ⟨l1, l2, l3⟩ := hl
    obtain ⟨e1, e2, e3⟩ := e
    refine ⟨?_, ?_, ?_⟩
    · linear_combination l1 + m * e1
    · linear_combination l2 + m * e2
    · linear_combination l3 + m * e3
  · rw [hy, hz, h.kind.delta, h.kind.rvv]
    ring

theorem Moves.same {F : Frame} {a : ℝ} {p q : Part} (h : Moves F a p q) (e : a = 0) :
    Same F p q := by
  subst e; exact h

theorem Same.comp {F G : Frame} {p q r : Part} (h : Same F p q) (k : Same G q r) :
    Same (F.comp G) p r := (Moves.comp h k).same (by simp)

theorem Moves.inv {F : Frame} (hF : F.Ortho) {a : ℝ} {p q : Part} (h : Moves F a p q) :
    Moves F.inv (-a) q p := by
  obtain ⟨l, hl, hz⟩ := h.line
  have inv (u v : Vec) (e : F.dir u = v) : F.inv.dir v = u := by
    have := congrArg (fun G => Frame.dir G u) (Frame.inv_comp hF)
    simp only [dir_comp, dir_id, e] at this
    exact this
  have invp (u v : Vec) (e : F.point u = v) : F.inv.point v = u := by
    have := congrArg (fun G => Frame.point G u) (Frame.inv_comp hF)
    simp only [point_comp, point_id, e] at this
    exact this
  refine ⟨h.kind.symm, by rw [h.s]; ring, inv _ _ h.mom, inv _ _ h.spin, -l, ?_, ?_⟩
  · have e1 := invp _ _ hl
    have e2 := inv _ _ h.mom
    simp only [Frame.point, Frame.dir, Vec.mk.injEq, Part.mom] at e1 e2 ⊢
    obtain ⟨l1, l2, l3⟩ := e1
    obtain ⟨m1, m2, m3⟩ := e2
    refine ⟨?_, ?_, ?_⟩
    · linear_combination l1 - l * m1
    · linear_combination l2 - l * m2
    · linear_combination l3 - l * m3
  · rw [hz, h.kind.delta, h.kind.rvv]
    ring

/-- The longitudinal momentum in the new frame. -/
theorem Moves.pz {F : Frame} (hF : F.Ortho) {a : ℝ} {p q : Part} (h : Moves F a p q) :
    q.pz = F.r13 * p.px + F.r23 * p.py + F.r33 * p.pz := by
  have e := (h.inv hF).mom
  have := congrArg Vec.z e
  simp only [Frame.dir, Frame.inv, Part.mom] at this
  exact this.symm

theorem Moves.forward {F : Frame} (hF : F.Ortho) {a : ℝ} {p q : Part} (h : Moves F a p q)
    (c : Crosses F p) : q.Forward := Part.forward_of_pz (by rw [h.pz hF]; exact c)

/-- The coordinates in a frame are determined. -/
theorem Moves.uniq {F : Frame} (hF : F.Ortho) {a : ℝ} {p q r : Part} (h : Moves F a p q)
    (k : Moves F a p r)
    (c : Crosses F p) : q = r := by
  have hi := h.inv hF
  have ki := k.inv hF
  have hz : 0 < q.pz := by rw [h.pz hF]; exact c
  have e1 : q.mom = r.mom := by rw [← hi.mom, ← ki.mom]
  have e2 : q.spin = r.spin := by rw [← hi.spin, ← ki.spin]
  have lines : ∀ q : Part, Moves F a p q → ∃ l : ℝ,
      F.inv.point ⟨p.x, p.y, 0⟩ = ⟨q.x - l * q.px, q.y - l * q.py, -(l * q.pz)⟩ ∧
      q.zeta = p.zeta + a - l * (1 + p.delta) / p.rvv := by
    intro q h
    obtain ⟨l, hl, hz⟩ := (h.inv hF).line
    refine ⟨-l, ?_, ?_⟩
    · rw [hl]; ext <;> simp
    · rw [hz, h.kind.delta, h.kind.rvv]; ring
  obtain ⟨l, hl, hzl⟩ := lines q h
  obtain ⟨m, hm, hzm⟩ := lines r k
  have e3 := hl.symm.trans hm
  simp only [Part.mom, Part.spin, Vec.mk.injEq] at e1 e2 e3
  obtain ⟨p1, p2, p3⟩ := e1
  obtain ⟨s1, s2, s3⟩ := e2
  obtain ⟨x1, x2, x3⟩ := e3
  have elm : l = m := by
    rw [← p3] at x3
    have : (l - m) * q.pz = 0 := by linear_combination -x3
    rcases mul_eq_zero.1 this with h0 | h0
    · linarith
    · exact absurd h0 hz.ne'
  subst elm
  ext
  · rw [← p1] at x1; linarith
  · exact p1
  · rw [← p2] at x2; linarith
  · exact p2
  · rw [hzl, hzm]
  · rw [h.s, k.s]
  · rw [h.kind.delta, k.kind.delta]
  · rw [h.kind.ptau, k.kind.ptau]
  · rw [h.kind.rpp, k.kind.rpp]
  · rw [h.kind.rvv, k.kind.rvv]
  · rw [h.kind.beta0, k.kind.beta0]
  · rw [h.kind.chi, k.kind.chi]
  · exact s1
  · exact s2
  · exact s3

theorem crosses_id {p : Part} (h : p.Forward) : Crosses Frame.id p := by
  have := h.pz_pos
  simpa [Crosses, Frame.id] using this

theorem Same.eq_of_id {p q : Part} (h : Same Frame.id p q) (c : p.Forward) : q = p :=
  h.uniq ortho_id (Same.refl p) (crosses_id c)

/-! ## The primitives -/

theorem same_xyShift (p : Part) (dx dy : ℝ) : Same (Frame.shift dx dy 0) p (xyShift p dx dy) := by
  refine ⟨⟨rfl, rfl, rfl, rfl, rfl, rfl⟩, by simp [xyShift], ?_, ?_, 0, ?_, ?_⟩
  · ext <;> simp [Frame.dir, Frame.shift, Part.mom, xyShift, Part.pz]
  · ext <;> simp [Frame.dir, Frame.shift, Part.spin, xyShift]
  · ext <;> simp [Frame.point, Frame.dir, Frame.shift, xyShift]
  · simp [xyShift]

/-- Longitudinal momentum as the drifts of the code compute it. -/
theorem pz_mul (p : Part) :
    Real.sqrt ((1 + p.delta) * (1 + p.delta) - p.px * p.px - p.py * p.py) = p.pz := by
  rw [Part.pz]; congr 1; ring

theorem same_sShift {p : Part} (h : p.Forward) (ds : ℝ) :
    Same (Frame.shift 0 0 ds) p (sShift p ds) := by
  unfold sShift
  split
  · simp only [driftExact, pz_mul]
    have hz := h.pz_pos
    refine ⟨⟨rfl, rfl, rfl, rfl, rfl, rfl⟩, by simp, ?_, ?_, ds / p.pz, ?_, ?_⟩
    · ext <;> simp [Frame.dir, Frame.shift, Part.mom, Part.pz]
    · ext <;> simp [Frame.dir, Frame.shift, Part.spin]
    · ext <;> simp only [Frame.point, Frame.dir, Frame.shift] <;> field_simp <;> ring
    · field_simp
      ring
  · next h0 =>
    have : ds = 0 := not_not.1 h0
    subst this
    exact Same.refl p

/-- Longitudinal momentum as the rotations of the code compute it. -/
theorem pz_rot {p : Part} (k : p.Kin) :
    Real.sqrt (1 + 2 * p.ptau / p.beta0 + p.ptau * p.ptau - p.px * p.px - p.py * p.py)
      = p.pz := by
  rw [Part.pz, k.shell]
  congr 1
  ring

theorem Part.Kin.energy' {p : Part} (k : p.Kin) : (1 + p.delta) / p.rvv = 1 + p.beta0 * p.ptau := by
  have := k.rvv.ne'
  rw [k.energy]
  field_simp

theorem same_yRot {p : Part} (k : p.Kin) (h : p.Forward) {t : ℝ} (hc : Real.cos t ≠ 0)
    (hx : Crosses (Frame.yaw t) p) :
    Same (Frame.yaw t) p (yRot p (Real.sin t) (Real.cos t) (Real.tan t)) := by
  have hz := h.pz_pos
  have hzsq := h.pz_sq
  have hb := k.beta0.ne'
  have hpt : p.ptau / p.beta0 * p.beta0 = p.ptau := by field_simp
  have hcs := Real.sin_sq_add_cos_sq t
  simp only [Crosses, Frame.yaw] at hx
  have hx' : 0 < Real.sin t * p.px + Real.cos t * p.pz := by linarith
  have hden : Real.cos t * (1 + Real.tan t * p.px / p.pz) * p.pz
      = Real.sin t * p.px + Real.cos t * p.pz := by
    rw [Real.tan_eq_sin_div_cos]; field_simp; ring
  have hptt : (1 + Real.tan t * p.px / p.pz) ≠ 0 := by
    intro h0; rw [h0] at hden; simp at hden; linarith
  have hpz' : Real.sqrt ((1 + p.delta) ^ 2 - (Real.cos t * p.px - Real.sin t * p.pz) ^ 2
      - p.py ^ 2) = Real.sin t * p.px + Real.cos t * p.pz := by
    rw [Real.sqrt_eq_iff_mul_self_eq_of_pos hx']
    linear_combination (p.px ^ 2 + p.pz ^ 2) * hcs + hzsq
  have hq : ∀ q : Part, q.delta = p.delta → q.px = Real.cos t * p.px - Real.sin t * p.pz →
      q.py = p.py → q.pz = Real.sin t * p.px + Real.cos t * p.pz := by
    intro q e1 e2 e3
    rw [Part.pz, e1, e2, e3]
    exact hpz'
  have hx2 : Real.sin t * p.px + Real.cos t * p.pz ≠ 0 := hx'.ne'
  have hxn : p.x / (Real.cos t * (1 + Real.tan t * p.px / p.pz))
      = p.x * p.pz / (Real.sin t * p.px + Real.cos t * p.pz) := by
    rw [← hden]; field_simp
  have hl : Real.tan t * p.x / (p.pz * (1 + Real.tan t * p.px / p.pz))
      = Real.sin t * p.x / (Real.sin t * p.px + Real.cos t * p.pz) := by
    rw [← hden, Real.tan_eq_sin_div_cos]; field_simp
  unfold yRot
  simp only [hpt, pz_rot k]
  have hyn : p.y - Real.tan t * p.x * p.py / (p.pz * (1 + Real.tan t * p.px / p.pz))
      = p.y - Real.sin t * p.x / (Real.sin t * p.px + Real.cos t * p.pz) * p.py := by
    rw [← hl]; ring
  have htn : (p.zeta / p.beta0 + Real.tan t * p.x * (1 / p.beta0 + p.ptau) /
        (p.pz * (1 + Real.tan t * p.px / p.pz))) * p.beta0
      = p.zeta + Real.sin t * p.x / (Real.sin t * p.px + Real.cos t * p.pz)
        * ((1 + p.delta) / p.rvv) := by
    rw [← hl, k.energy']; field_simp
  rw [hxn, hyn, htn]
  have hspin : ∀ q : Part, q = { p with
        x := p.x * p.pz / (Real.sin t * p.px + Real.cos t * p.pz)
        px := Real.cos t * p.px - Real.sin t * p.pz
        y := p.y - Real.sin t * p.x / (Real.sin t * p.px + Real.cos t * p.pz) * p.py
        zeta := p.zeta + Real.sin t * p.x / (Real.sin t * p.px + Real.cos t * p.pz)
          * ((1 + p.delta) / p.rvv)
        spinX := Real.cos t * p.spinX - Real.sin t * p.spinZ
        spinZ := Real.sin t * p.spinX + Real.cos t * p.spinZ } → Same (Frame.yaw t) p q := by
    intro q e
    have hq' := hq q (by rw [e]) (by rw [e]) (by rw [e])
    refine ⟨by subst e; exact ⟨rfl, rfl, rfl, rfl, rfl, rfl⟩, by subst e; simp, ?_, ?_,
      -(Real.sin t * p.x / (Real.sin t * p.px + Real.cos t * p.pz)), ?_, ?_⟩
    · ext <;> simp only [Frame.dir, Frame.yaw, Part.mom, hq'] <;> subst e <;> simp only
      · linear_combination p.px * hcs
      · ring
      · linear_combination p.pz * hcs
    · subst e
      ext <;> simp only [Frame.dir, Frame.yaw, Part.spin]
      · linear_combination p.spinX * hcs
      · ring
      · linear_combination p.spinZ * hcs
    · subst e
      ext <;> simp only [Frame.dir, Frame.yaw, Frame.point]
      · field_simp; ring
      · ring
      · field_simp; ring
    · subst e
      simp only; ring
  split
  · exact hspin _ rfl
  · next h0 =>
    push Not at h0
    apply hspin
    ext <;> simp [h0.1, h0.2]

theorem same_xRot {p : Part} (k : p.Kin) (h : p.Forward) {t : ℝ} (hc : Real.cos t ≠ 0)
    (hx : Crosses (Frame.pitch t) p) :
    Same (Frame.pitch t) p (xRot p (-Real.sin t) (Real.cos t) (-Real.tan t)) := by
  have hz := h.pz_pos
  have hzsq := h.pz_sq
  have hb := k.beta0.ne'
  have hpt : p.ptau / p.beta0 * p.beta0 = p.ptau := by field_simp
  have hcs := Real.sin_sq_add_cos_sq t
  simp only [Crosses, Frame.pitch] at hx
  have hx' : 0 < Real.sin t * p.py + Real.cos t * p.pz := by linarith
  have hden : Real.cos t * (1 + Real.tan t * p.py / p.pz) * p.pz
      = Real.sin t * p.py + Real.cos t * p.pz := by
    rw [Real.tan_eq_sin_div_cos]; field_simp; ring
  have hptt : (1 + Real.tan t * p.py / p.pz) ≠ 0 := by
    intro h0; rw [h0] at hden; simp at hden; linarith
  have hpz' : Real.sqrt ((1 + p.delta) ^ 2 - p.px ^ 2 - (Real.cos t * p.py - Real.sin t * p.pz) ^ 2
      ) = Real.sin t * p.py + Real.cos t * p.pz := by
    rw [Real.sqrt_eq_iff_mul_self_eq_of_pos hx']
    linear_combination (p.py ^ 2 + p.pz ^ 2) * hcs + hzsq
  have hq : ∀ q : Part, q.delta = p.delta → q.px = p.px →
      q.py = Real.cos t * p.py - Real.sin t * p.pz → q.pz = Real.sin t * p.py + Real.cos t * p.pz := by
    intro q e1 e2 e3
    rw [Part.pz, e1, e2, e3]
    exact hpz'
  have hx2 : Real.sin t * p.py + Real.cos t * p.pz ≠ 0 := hx'.ne'
  have hxn : p.y / (Real.cos t * (1 + Real.tan t * p.py / p.pz))
      = p.y * p.pz / (Real.sin t * p.py + Real.cos t * p.pz) := by
    rw [← hden]; field_simp
  have hl : Real.tan t * p.y / (p.pz * (1 + Real.tan t * p.py / p.pz))
      = Real.sin t * p.y / (Real.sin t * p.py + Real.cos t * p.pz) := by
    rw [← hden, Real.tan_eq_sin_div_cos]; field_simp
  unfold xRot
  simp only [hpt, pz_rot k, sub_neg_eq_add, neg_mul, neg_div, neg_neg, ← sub_eq_add_neg]
  have hyn : p.x - Real.tan t * p.y * p.px / (p.pz * (1 + Real.tan t * p.py / p.pz))
      = p.x - Real.sin t * p.y / (Real.sin t * p.py + Real.cos t * p.pz) * p.px := by
    rw [← hl]; ring
  have htn : (p.zeta / p.beta0 + Real.tan t * p.y * (1 / p.beta0 + p.ptau) /
        (p.pz * (1 + Real.tan t * p.py / p.pz))) * p.beta0
      = p.zeta + Real.sin t * p.y / (Real.sin t * p.py + Real.cos t * p.pz)
        * ((1 + p.delta) / p.rvv) := by
    rw [← hl, k.energy']; field_simp
  rw [hxn, hyn, htn]
  have hspin : ∀ q : Part, q = { p with
        y := p.y * p.pz / (Real.sin t * p.py + Real.cos t * p.pz)
        py := Real.cos t * p.py - Real.sin t * p.pz
        x := p.x - Real.sin t * p.y / (Real.sin t * p.py + Real.cos t * p.pz) * p.px
        zeta := p.zeta + Real.sin t * p.y / (Real.sin t * p.py + Real.cos t * p.pz)
          * ((1 + p.delta) / p.rvv)
        spinY := Real.cos t * p.spinY - Real.sin t * p.spinZ
        spinZ := Real.sin t * p.spinY + Real.cos t * p.spinZ } → Same (Frame.pitch t) p q := by
    intro q e
    have hq' := hq q (by rw [e]) (by rw [e]) (by rw [e])
    refine ⟨by subst e; exact ⟨rfl, rfl, rfl, rfl, rfl, rfl⟩, by subst e; simp, ?_, ?_,
      -(Real.sin t * p.y / (Real.sin t * p.py + Real.cos t * p.pz)), ?_, ?_⟩
    · ext <;> simp only [Frame.dir, Frame.pitch, Part.mom, hq'] <;> subst e <;> simp only
      · ring
      · linear_combination p.py * hcs
      · linear_combination p.pz * hcs
    · subst e
      ext <;> simp only [Frame.dir, Frame.pitch, Part.spin]
      · ring
      · linear_combination p.spinY * hcs
      · linear_combination p.spinZ * hcs
    · subst e
      ext <;> simp only [Frame.dir, Frame.pitch, Frame.point]
      · ring
      · field_simp; ring
      · field_simp; ring
    · subst e
      simp only; ring
  split
  · exact hspin _ rfl
  · next h0 =>
    push Not at h0
    apply hspin
    ext <;> simp [h0.1, h0.2]


theorem same_sRot (p : Part) (t : ℝ) :
    Same (Frame.roll t) p (sRot p (Real.sin t) (Real.cos t)) := by
  have hcs := Real.sin_sq_add_cos_sq t
  have hspin : ∀ q : Part, q = { p with
        x := Real.cos t * p.x + Real.sin t * p.y
        y := -Real.sin t * p.x + Real.cos t * p.y
        px := Real.cos t * p.px + Real.sin t * p.py
        py := -Real.sin t * p.px + Real.cos t * p.py
        spinX := Real.cos t * p.spinX + Real.sin t * p.spinY
        spinY := -Real.sin t * p.spinX + Real.cos t * p.spinY } → Same (Frame.roll t) p q := by
    intro q e
    have hq : q.pz = p.pz := by
      subst e
      simp only [Part.pz]
      congr 1
      linear_combination -(p.px ^ 2 + p.py ^ 2) * hcs
    refine ⟨by subst e; exact ⟨rfl, rfl, rfl, rfl, rfl, rfl⟩, by subst e; simp, ?_, ?_, 0, ?_, ?_⟩
    · ext <;> simp only [Frame.dir, Frame.roll, Part.mom, hq] <;> subst e <;> simp only
      · linear_combination p.px * hcs
      · linear_combination p.py * hcs
      · ring
    · subst e
      ext <;> simp only [Frame.dir, Frame.roll, Part.spin]
      · linear_combination p.spinX * hcs
      · linear_combination p.spinY * hcs
      · ring
    · subst e
      ext <;> simp only [Frame.dir, Frame.roll, Frame.point]
      · linear_combination p.x * hcs
      · linear_combination p.y * hcs
      · ring
    · subst e
      simp
  unfold sRot
  split
  · exact hspin _ rfl
  · next h0 =>
    push Not at h0
    apply hspin
    ext <;> simp [h0.1, h0.2]

theorem yaw_zero : Frame.yaw 0 = Frame.id := by ext <;> simp [Frame.yaw, Frame.id]
theorem pitch_zero : Frame.pitch 0 = Frame.id := by ext <;> simp [Frame.pitch, Frame.id]
theorem roll_zero : Frame.roll 0 = Frame.id := by ext <;> simp [Frame.roll, Frame.id]

theorem same_yRotate {p : Part} (k : p.Kin) (h : p.Forward) {t : ℝ} (hc : Real.cos t ≠ 0)
    (hx : Crosses (Frame.yaw t) p) : Same (Frame.yaw t) p (yRotate p t) := by
  unfold yRotate
  split
  · exact same_yRot k h hc hx
  · next h0 => rw [not_not.1 h0, yaw_zero]; exact Same.refl p

theorem same_xRotate {p : Part} (k : p.Kin) (h : p.Forward) {t : ℝ} (hc : Real.cos t ≠ 0)
    (hx : Crosses (Frame.pitch t) p) : Same (Frame.pitch t) p (xRotate p t) := by
  unfold xRotate
  split
  · exact same_xRot k h hc hx
  · next h0 => rw [not_not.1 h0, pitch_zero]; exact Same.refl p

theorem same_sRotate (p : Part) (t : ℝ) : Same (Frame.roll t) p (sRotate p t) := by
  unfold sRotate
  split
  · exact same_sRot p t
  · next h0 => rw [not_not.1 h0, roll_zero]; exact Same.refl p

end

end Verif.Frames
