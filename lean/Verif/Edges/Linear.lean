import Verif.Edges.Props

/-! # The linear edge, the full edge and the element `DipoleEdge`: C72 and C73 -/

namespace Verif.Edges

open Frames Magnets

noncomputable section

/-! ## The linear edge -/

/-- What a linear edge does to a particle: the field of a dipole which ends at a face turned by `e`, to first order, is that of a
quadrupole; it is weaker in the vertical plane by a gap of half height `g` with fringe integral `f`, and `d` is the angle of the orbit
there. -/
structure LinearEdge (k e d g f : ℝ) (p q : Part) : Prop where
  px : q.px = p.px + p.chi * (k * Real.tan e * p.x)
  py : q.py = p.py - p.chi * (k * Real.tan (e + d - 2 * k * g * f * (1 + Real.sin (e + d) ^ 2) / Real.cos (e + d)) * p.y)
  rest : q = { p with px := q.px, py := q.py }

/-- The field of an edge without gap and orbit angle, as seen by the particles, comes from a potential in vacuum: a quadrupole of
integrated strength `-k tan e`. -/
theorem LinearEdge.vacuum {k e : ℝ} {p q : Part} {g f : ℝ} (h : LinearEdge k e 0 g f p q) (hg : g * f = 0) :
    q.px - p.px = p.chi * (k * Real.tan e) * p.x ∧ q.py - p.py = -(p.chi * (k * Real.tan e) * p.y) := by
  have := h.py
  rw [show (2 : ℝ) * k * g * f = 2 * k * (g * f) by ring, hg] at this
  simp only [add_zero, mul_zero, zero_mul, zero_div, sub_zero] at this
  constructor
  · rw [h.px]; ring
  · rw [this]; ring

/-- A magnet of which only the entry, or only the exit, is active, both with linear edges. -/
def edgeOnly (m : Magnet) (isExit : Bool) : Magnet :=
  { m with bodyActive := false, entry := { m.entry with active := !isExit, model := 0 }, exit := { m.exit with active := isExit, model := 0 } }

/-- The dipole field at the edge: the strength of the magnet plus the integrated components over the length. -/
def dipoleAt (m : Magnet) (k : ℝ) : Prop :=
  1e-10 < |m.length| ∧ k * m.length = m.k0 * m.length + m.knl 0 + m.relRef * m.knlRel 0

theorem edgeK0_eq {m : Magnet} {k : ℝ} (h : dipoleAt m k) : edgeK0 m m.length = k := by
  have h0 : m.length ≠ 0 := by
    intro e
    have := h.1
    rw [e] at this
    norm_num at this
  unfold edgeK0
  rw [if_pos h.1]
  have := h.2
  field_simp
  linarith

theorem linearEdge_of {m : Magnet} {e : Edge} {isExit : Bool} {k : ℝ} {p : Part} (hm : e.model = 0) (hk : dipoleAt m k)
    (F : Bool → Part → Part) :
    ∃ q, edge m F m.length e isExit false p = some q ∧ LinearEdge k e.angle e.fdown e.hgap e.fint p q := by
  refine ⟨_, by unfold edge; rw [if_pos hm], ?_, ?_, rfl⟩
  · simp only [edgeKick, edgeCoefs, edgeK0_eq hk]
    norm_num
    ring
  · simp only [edgeKick, edgeCoefs, edgeK0_eq hk]
    norm_num
    rw [show e.angle + e.fdown - 2 * k * e.hgap * e.fint * (1 + Real.sin (e.angle + e.fdown) ^ 2) / Real.cos (e.angle + e.fdown)
      = e.angle + e.fdown - 2 * k * e.hgap * e.fint / Real.cos (e.angle + e.fdown) *
        (1 + Real.sin (e.angle + e.fdown) * Real.sin (e.angle + e.fdown)) by ring]
    ring

theorem geometry_sector {m : Magnet} (hr : m.rbendModel ≠ 0 ∧ m.rbendModel ≠ 1 ∧ m.rbendModel ≠ 2) : geometry m =
    { straight := false, length := m.length, lengthCurved := 0, h := m.h, tin := ⟨0, 1, 0⟩, tout := ⟨0, 1, 0⟩
      entry := m.entry, exit := m.exit } := by
  unfold geometry
  rw [if_neg (by tauto), if_neg hr.2.2]

/-- **C72.** The linear edges of a magnet which is not a rectangular bend kick as the first order field of a dipole with turned faces,
proportionally to the charge over mass; backtracking takes the kick back. -/
theorem C72_linear (m : Magnet) (F : Bool → Part → Part) (hr : m.rbendModel ≠ 0 ∧ m.rbendModel ≠ 1 ∧ m.rbendModel ≠ 2) {k : ℝ}
    (hk : dipoleAt m k) (w : ℝ) (isExit : Bool) (p : Part) :
    let e := if isExit then m.exit else m.entry
    ∃ q, trackMagnet (edgeOnly m isExit) F w false p = some q ∧ LinearEdge k e.angle e.fdown e.hgap e.fint p q ∧
      trackMagnet (edgeOnly m isExit) F w true q = some p := by
  have hg : geometry (edgeOnly m isExit) =
      { straight := false, length := m.length, lengthCurved := 0, h := m.h, tin := ⟨0, 1, 0⟩, tout := ⟨0, 1, 0⟩
        entry := (edgeOnly m isExit).entry, exit := (edgeOnly m isExit).exit } := geometry_sector (m := edgeOnly m isExit) hr
  have hk' : dipoleAt (edgeOnly m isExit) k := hk
  have back : ∀ (n : Magnet) (e : Edge) (x : Bool) (p q : Part), e.model = 0 → edge n F n.length e x false p = some q →
      edge n F n.length e x true q = some p := by
    intro n e x p q h0 h
    unfold edge at h ⊢
    rw [if_pos h0] at h ⊢
    simp only [Option.some.injEq] at h
    subst h
    simp [edgeKick]
  have back' : ∀ (n : Magnet) (e : Edge) (x y : Bool) (p : Part), e.model = 0 →
      edge n F n.length e x true p = edge n F n.length e y true p := by
    intro n e x y p h0
    unfold edge
    rw [if_pos h0, if_pos h0]
  cases isExit
  · obtain ⟨q, h1, h2⟩ := linearEdge_of (isExit := false) (p := p) (m := edgeOnly m false) (e := (edgeOnly m false).entry) rfl hk' F
    refine ⟨q, ?_, h2, ?_⟩
    · unfold trackMagnet trackEntry trackExit
      simp only [hg]
      simp [edgeOnly] at h1 ⊢
      simp [h1]
    · have hb := back _ _ _ _ _ (by rfl) h1
      rw [back' _ _ false true _ rfl] at hb
      unfold trackMagnet trackEntry trackExit
      simp only [hg]
      simp [edgeOnly] at hb ⊢
      simp [hb]
  · obtain ⟨q, h1, h2⟩ := linearEdge_of (isExit := true) (p := p) (m := edgeOnly m true) (e := (edgeOnly m true).exit) rfl hk' F
    refine ⟨q, ?_, h2, ?_⟩
    · unfold trackMagnet trackEntry trackExit
      simp only [hg]
      simp [edgeOnly] at h1 ⊢
      simp [h1]
    · have hb := back _ _ _ _ _ (by rfl) h1
      rw [back' _ _ true false _ rfl] at hb
      unfold trackMagnet trackEntry trackExit
      simp only [hg]
      simp [edgeOnly] at hb ⊢
      simp [hb]

/-- The sector bend with the edges of a rectangular bend of which the body is curved. -/
def asSector (m : Magnet) : Magnet :=
  { m with
    rbendModel := -1
    entry := { m.entry with angle := m.entry.angle + (m.h * m.length - m.rbendAngleDiff) / 2 }
    exit := { m.exit with angle := m.exit.angle + (m.h * m.length + m.rbendAngleDiff) / 2 } }

/-- **C72.** A rectangular bend with curved body is the sector bend whose faces are turned further: at the entry by half of the angle
minus half of the difference between exit and entry angle, at the exit by half of the angle plus half of that difference. -/
theorem C72_rbend (m : Magnet) (F : Bool → Part → Part) (hr : m.rbendModel = 0 ∨ m.rbendModel = 1) (w : ℝ) (back : Bool) (p : Part) :
    trackMagnet m F w back p = trackMagnet (asSector m) F w back p := by
  have hg : geometry m = geometry (asSector m) := by
    rw [geometry_sector (m := asSector m) (by simp [asSector])]
    unfold geometry
    rw [if_pos hr]
    rfl
  unfold trackMagnet
  rw [← hg]
  rfl

/-! ## The full edge -/

/-- A particle which comes straight in: no transverse momentum. -/
structure Straight (p : Part) : Prop where
  kin : p.Kin
  px : p.px = 0
  py : p.py = 0

theorem Straight.shell {p : Part} (h : Straight p) {px py : ℝ} :
    1 + 2 * (p.ptau / p.beta0 * p.beta0) / p.beta0 + p.ptau / p.beta0 * p.beta0 * (p.ptau / p.beta0 * p.beta0) - px - py
      = (1 + p.delta) ^ 2 - px - py := by
  rw [h.kin.shell, div_mul_cancel₀ _ h.kin.beta0.ne']
  ring

/-- The rotation into the face for such a particle. -/
theorem rot_straight {p : Part} (h : Straight p) (e : ℝ) :
    let q := yRot p (-Real.sin e) (Real.cos e) (-Real.tan e)
    q.x = p.x / Real.cos e ∧ q.px = Real.sin e * (1 + p.delta) ∧ q.y = p.y ∧ q.py = 0 ∧ SameKind p q := by
  have hs := h.shell (px := 0) (py := 0)
  simp only [sub_zero] at hs
  simp only [yRot, h.px, h.py, mul_zero, sub_zero, hs, zero_div, add_zero, mul_one, Real.sqrt_sq h.kin.delta.le]
  refine ⟨?_, ?_, ?_, ?_, ?_⟩
  all_goals split_ifs
  all_goals first
    | exact ⟨rfl, rfl, rfl, rfl, rfl, rfl⟩
    | rfl
    | exact h.py
    | (show _ = _; ring1)

/-- The angle of the edge is off or above the threshold below which the code ignores it, and the face is not parallel to the orbit. -/
def FaceOk (e : ℝ) : Prop := (e = 0 ∨ 10e-10 ≤ |e|) ∧ 0 < Real.cos e

theorem fringe_y0 {f g k : ℝ} {p : Part} (hy : p.y = 0) :
    (dipoleFringe f g k p).x = p.x ∧ (dipoleFringe f g k p).px = p.px ∧ (dipoleFringe f g k p).y = 0 ∧
    (dipoleFringe f g k p).py = p.py ∧ SameKind p (dipoleFringe f g k p) := by
  unfold dipoleFringe
  split_ifs
  · exact ⟨rfl, rfl, hy, rfl, rfl, rfl, rfl, rfl, rfl, rfl⟩
  · simp only [hy, mul_zero, zero_div]
    refine ⟨by ring, trivial, trivial, by ring, rfl, rfl, rfl, rfl, rfl, rfl⟩

theorem wedge_px {t k : ℝ} {p : Part} (h : Sees k p) (hk : p.Kin) :
    (wedge t k p).px = p.px * Real.cos t + (p.pz - k * p.chi * p.x) * Real.sin t := by
  obtain h | h := h
  · simp only [wedge_off h, h, yRot, Real.sin_neg, Real.cos_neg]
    have e : 1 + 2 * (p.ptau / p.beta0 * p.beta0) / p.beta0 + p.ptau / p.beta0 * p.beta0 * (p.ptau / p.beta0 * p.beta0)
        - p.px * p.px - p.py * p.py = (1 + p.delta) ^ 2 - p.px ^ 2 - p.py ^ 2 := by
      rw [hk.shell, div_mul_cancel₀ _ hk.beta0.ne']
      ring
    rw [e]
    split_ifs <;> simp only [Part.pz] <;> ring
  · simp only [wedge, not_lt.2 h, if_false]
    have e1 : Real.sqrt ((p.delta + 1) ^ 2 - p.px ^ 2 - p.py ^ 2) = p.pz := by
      unfold Part.pz; rw [add_comm]
    rw [e1]
    split_ifs <;> rfl

theorem wedge_py (t k : ℝ) (p : Part) : (wedge t k p).py = p.py := by
  unfold wedge yRot
  simp only
  split_ifs <;> rfl

theorem quiet {e : ℝ} (h : FaceOk e) (hs : |e| < 10e-10) : e = 0 := by
  obtain h | h := h.1
  · exact h
  · linarith

/-- Rotation into the face, fringe and wedge for a particle which comes straight in the mid plane. -/
theorem full_px {kf kw e f g : ℝ} (hc : 0 < Real.cos e) {p : Part} (hp : Straight p) (hy : p.y = 0) (hk : Sees kw p) :
    (wedge (-e) kw (dipoleFringe f g kf (yRot p (-Real.sin e) (Real.cos e) (-Real.tan e)))).px = p.chi * (kw * Real.tan e * p.x) := by
  obtain ⟨x1, px1, y1, py1, k1⟩ := rot_straight hp e
  generalize yRot p (-Real.sin e) (Real.cos e) (-Real.tan e) = a at *
  obtain ⟨x2, px2, y2, py2, k2⟩ := fringe_y0 (f := f) (g := g) (k := kf) (p := a) (by rw [y1, hy])
  generalize dipoleFringe f g kf a = b at *
  have kk := k1.trans k2
  rw [wedge_px (by unfold Sees; rw [kk.chi]; exact hk) (kk.kin hp.kin), px2, px1, x2, x1, kk.chi]
  have hz : b.pz = Real.cos e * (1 + p.delta) := by
    unfold Part.pz
    rw [px2, px1, py2, py1, kk.delta, show (1 + p.delta) ^ 2 - (Real.sin e * (1 + p.delta)) ^ 2 - 0 ^ 2
      = (Real.cos e * (1 + p.delta)) ^ 2 by
        rw [mul_pow, mul_pow, Real.cos_sq']; ring]
    exact Real.sqrt_sq (mul_pos hc hp.kin.delta).le
  rw [hz, Real.cos_neg, Real.sin_neg, Real.tan_eq_sin_div_cos]
  have := hc.ne'
  field_simp
  ring

/-- **C72.** Horizontally, the full edge of a dipole deflects a particle which comes straight in the mid plane exactly as the linear
edge, whatever its momentum, gap and fringe integral. -/
theorem C72_full_horizontal {d : DipoleEdge} (hd : d.model = 1) (hside : d.side = 0) (he : FaceOk d.e1) {p : Part} (hp : Straight p)
    (hy : p.y = 0) (hk : Sees d.k p) :
    ∃ q r, d.track false p = some q ∧ { d with model := 0 }.update.track false p = some r ∧ q.px = r.px ∧
      r.px = p.chi * (d.k * Real.tan d.e1 * p.x) := by
  refine ⟨dipoleEdgeNonLinear d.k d.e1 d.fint d.hgap d.side p, _, by simp [DipoleEdge.track, hd], by simp [DipoleEdge.track, DipoleEdge.update]; rfl,
    ?_, by simp [edgeKick, hp.px]; ring⟩
  simp only [edgeKick, hp.px, zero_add, dipoleEdgeNonLinear, hside, if_true]
  by_cases hs : |d.e1| < 10e-10
  · simp only [hs, if_true]
    rw [quiet he hs]
    simp [(fringe_y0 hy).2.1, hp.px]
  simp only [hs, if_false]
  rw [full_px he.2 hp hy hk]
  ring

/-- The vertical deflection by the full edge. -/
theorem full_py {d : DipoleEdge} (hside : d.side = 0) (he : FaceOk d.e1) {p : Part} (hp : Straight p)
    (he' : |d.e1| < Real.pi / 2) (hk0 : 10e-10 ≤ |d.k|) :
    (dipoleEdgeNonLinear d.k d.e1 d.fint d.hgap d.side p).py =
      -(d.k * p.chi) * Real.tan (d.e1 - d.k * p.chi * (d.hgap * d.fint) * 2 * (1 + 2 * Real.tan d.e1 ^ 2)
          / (Real.cos d.e1 * (1 + p.delta))) * p.y
      - 4 * ((d.k * p.chi) ^ 2 * (if d.hgap * d.fint > 10e-10 then 1 / (72 * (d.hgap * d.fint)) else 0) / (1 + p.delta)) * p.y ^ 3 := by
  have hd0 := hp.kin.delta
  obtain ⟨a, ha, x1, px1, y1, py1, k1⟩ : ∃ a, (if |d.e1| < 10e-10 then p else yRot p (-Real.sin d.e1) (Real.cos d.e1) (-Real.tan d.e1)) = a ∧
      a.x = p.x / Real.cos d.e1 ∧ a.px = Real.sin d.e1 * (1 + p.delta) ∧ a.y = p.y ∧ a.py = 0 ∧ SameKind p a := by
    refine ⟨_, rfl, ?_⟩
    split_ifs with hs
    · rw [quiet he hs]
      simp only [Real.cos_zero, Real.sin_zero]
      exact ⟨by ring, by rw [hp.px]; ring, trivial, hp.py, rfl, rfl, rfl, rfl, rfl, rfl⟩
    · exact rot_straight hp d.e1
  have hpy : (dipoleEdgeNonLinear d.k d.e1 d.fint d.hgap d.side p).py = (dipoleFringe d.fint d.hgap d.k a).py := by
    simp only [dipoleEdgeNonLinear, hside, if_true, ha]
    split_ifs
    · rfl
    · exact wedge_py _ _ _
  rw [hpy]
  have hz : Real.sqrt ((1 + p.delta) ^ 2 - (Real.sin d.e1 * (1 + p.delta)) ^ 2 - 0 ^ 2) = Real.cos d.e1 * (1 + p.delta) := by
    rw [show (1 + p.delta) ^ 2 - (Real.sin d.e1 * (1 + p.delta)) ^ 2 - 0 ^ 2 = (Real.cos d.e1 * (1 + p.delta)) ^ 2 by
        rw [mul_pow, mul_pow, Real.cos_sq']; ring]
    exact Real.sqrt_sq (mul_pos he.2 hd0).le
  have hxp : Real.sin d.e1 * (1 + p.delta) / (Real.cos d.e1 * (1 + p.delta)) = Real.tan d.e1 := by
    rw [Real.tan_eq_sin_div_cos, mul_div_mul_right _ _ hd0.ne']
  have hat : Real.arctan (Real.tan d.e1) = d.e1 := Real.arctan_tan (abs_lt.1 he').1 (abs_lt.1 he').2
  simp only [dipoleFringe, not_lt.2 hk0, if_false, px1, py1, k1.delta, k1.chi, hz, hxp, y1, zero_div, mul_zero]
  generalize (if d.hgap * d.fint > 10e-10 then 1 / (72 * (d.hgap * d.fint)) else 0) = fs
  rw [Real.sqrt_sq hd0.le, show (1 : ℝ) + 0 ^ 2 = 1 by norm_num, div_one, mul_one (Real.tan d.e1), hat]
  generalize 1 + p.delta = o at *
  generalize Real.tan d.e1 = T at *
  generalize Real.cos d.e1 = c at *
  norm_num
  rw [show d.e1 - d.k * p.chi * (d.hgap * d.fint) * 2 * (1 + T ^ 2 * 2) * (o⁻¹ * c⁻¹)
    = d.e1 - d.k * p.chi * (d.hgap * d.fint) * 2 * (1 + 2 * T ^ 2) / (c * o) by rw [div_eq_mul_inv, mul_inv]; ring]
  ring

/-- **C72.** Vertically, without gap, the full edge deflects a particle which comes straight in exactly as the linear edge. -/
theorem C72_full_vertical_partial {d : DipoleEdge} (hd : d.model = 1) (hside : d.side = 0) (he : FaceOk d.e1) (he' : |d.e1| < Real.pi / 2)
    (hg : d.hgap * d.fint = 0) (hfd : d.e1fd = 0) {p : Part} (hp : Straight p) (hk0 : 10e-10 ≤ |d.k|) :
    ∃ q r, d.track false p = some q ∧ { d with model := 0 }.update.track false p = some r ∧ q.py = r.py ∧
      r.py = -(p.chi * (d.k * Real.tan d.e1 * p.y)) := by
  have hr : { d with model := 0 }.update.r43 = -d.k * Real.tan d.e1 := by
    simp only [DipoleEdge.update, hfd, add_zero]
    rw [show (2 : ℝ) * d.k * d.hgap * d.fint = 2 * d.k * (d.hgap * d.fint) by ring, hg]
    simp
  refine ⟨dipoleEdgeNonLinear d.k d.e1 d.fint d.hgap d.side p, edgeKick ({ d with model := 0 }.update.r21) ({ d with model := 0 }.update.r43) p,
    by simp [DipoleEdge.track, hd], by simp [DipoleEdge.track, DipoleEdge.update], ?_, by simp [edgeKick, hp.py, hr]; ring⟩
  rw [full_py hside he hp he' hk0, hg]
  simp only [edgeKick, hr, hp.py, mul_zero, zero_mul, zero_div, sub_zero]
  norm_num
  left
  ring

/-- **C72, violated with a gap.** An edge with angle and gap for which the deflection by the full model is not, even for arbitrarily
small offsets, that of the linear model: the correction for the gap differs by the square of the cosine of the angle. -/
theorem C72_gap_violated : ∃ (d : DipoleEdge) (a b c : ℝ), d.model = 1 ∧ d.side = 0 ∧ FaceOk d.e1 ∧ a ≠ b ∧
    ∀ p, Straight p → p.chi = 1 → p.delta = 0 →
      (∃ q, d.track false p = some q ∧ q.py = a * p.y - c * p.y ^ 3) ∧
      (∃ r, { d with model := 0 }.update.track false p = some r ∧ r.py = b * p.y) := by
  have h2 : Real.sqrt 2 ^ 2 = 2 := Real.sq_sqrt (by norm_num)
  have h2' : 0 < Real.sqrt 2 := by positivity
  have h1 : (1 : ℝ) < Real.sqrt 2 := by nlinarith
  have h15 : Real.sqrt 2 < 1.5 := by nlinarith
  have hpi := Real.two_le_pi
  have hpi0 := Real.pi_pos
  obtain ⟨k, hk⟩ : ∃ k, k = Real.pi / (12 * Real.sqrt 2) := ⟨_, rfl⟩
  have hkpos : 0 < k := by rw [hk]; positivity
  have hk1 : 1e-1 ≤ k := by
    rw [hk, le_div_iff₀ (by positivity)]
    nlinarith
  have hface : FaceOk (Real.pi / 4) := by
    refine ⟨Or.inr ?_, ?_⟩
    · rw [abs_of_pos (by positivity)]
      linarith
    · rw [Real.cos_pi_div_four]
      positivity
  refine ⟨⟨0, 0, 1, k, Real.pi / 4, 0, 1, 1, 0⟩, k, 0, 4 * (k ^ 2 / 72), rfl, rfl, hface, hkpos.ne', fun p hp hc hd => ⟨?_, ?_⟩⟩
  · refine ⟨_, rfl, ?_⟩
    rw [full_py rfl hface hp (by show |Real.pi / 4| < _; rw [abs_of_pos (by positivity)]; linarith)
      (by show _ ≤ |k|; rw [abs_of_pos hkpos]; linarith)]
    simp only [hc, hd, Real.cos_pi_div_four, Real.tan_pi_div_four]
    have : Real.pi / 4 - k * 1 * (1 * 1) * 2 * (1 + 2 * 1 ^ 2) / (Real.sqrt 2 / 2 * (1 + 0)) = -(Real.pi / 4) := by
      rw [hk]
      field_simp
      rw [h2]
      ring
    rw [this, Real.tan_neg, Real.tan_pi_div_four]
    norm_num
    left
    ring
  · refine ⟨_, rfl, ?_⟩
    simp only [edgeKick, DipoleEdge.update, hp.py, hc, add_zero, Real.cos_pi_div_four, Real.sin_pi_div_four]
    have : Real.pi / 4 - 2 * k * 1 * 1 / (Real.sqrt 2 / 2) * (1 + Real.sqrt 2 / 2 * (Real.sqrt 2 / 2)) = 0 := by
      rw [hk]
      field_simp
      rw [h2]
      ring
    rw [this]
    simp

/-- A magnet of 1 m with full edges at 45 degrees, without gap, and the dipole components which are given. -/
def dipoleBy (k0 kl : ℝ) : Magnet :=
  { length := 1, order := 0, knl := fun _ => kl, ksl := fun _ => 0, orderRel := 0, knlRel := fun _ => 0, kslRel := fun _ => 0
    relRef := 0, numKicks := 1, model := 0, defaultModel := 4, integrator := 0, defaultIntegrator := 1, h := 0, hxl := 0, k0 := k0
    k1 := 0, k2 := 0, k3 := 0, k0s := 0, k1s := 0, k2s := 0, k3s := 0, ks := 0, x0 := 0, y0 := 0, rbendModel := -1
    compensateSagitta := false, rbendShift := 0, rbendAngleDiff := 0, lengthStraight := 1, bodyActive := false
    entry := ⟨true, 2, Real.pi / 4, 0, 0, 0⟩, exit := ⟨true, 2, Real.pi / 4, 0, 0, 0⟩ }

/-- A particle 0.1 m off the axis. -/
def offAxis : Part := ⟨0.1, 0, 0, 0, 0, 0, 0, 0, 1, 1, 1, 1, 0, 0, 0⟩

theorem straight_offAxis : Straight offAxis := ⟨by constructor <;> norm_num [offAxis], rfl, rfl⟩

/-- **C72, violated for full edges.** Two magnets with one and the same dipole field, once given as strength and once as integrated
strength: their linear edges agree (`C72_linear`), their full edges do not, since the wedge only knows the strength. -/
theorem C72_knl_violated : ∃ m m' : Magnet, dipoleAt m 1 ∧ dipoleAt m' 1 ∧ m' = { m with k0 := m'.k0, knl := m'.knl } ∧
    (fullEdge m m.length m.entry false offAxis).px = 0.1 ∧ (fullEdge m' m'.length m'.entry false offAxis).px = 0 := by
  have hc : 0 < Real.cos (Real.pi / 4) := by
    rw [Real.cos_pi_div_four]
    positivity
  have hpi := Real.two_le_pi
  have hb : |Real.pi / 4| > 10e-10 := by
    rw [abs_of_pos (by positivity)]
    linarith
  refine ⟨dipoleBy 1 0, dipoleBy 0 1, ⟨by norm_num [dipoleBy], by norm_num [dipoleBy]⟩, ⟨by norm_num [dipoleBy], by norm_num [dipoleBy]⟩, rfl,
    ?_, ?_⟩
  · have := full_px (kf := edgeK0 (dipoleBy 1 0) 1) (kw := 1) (e := Real.pi / 4) (f := 0) (g := 0) hc straight_offAxis rfl
      (Or.inr (by norm_num [offAxis]))
    simp only [fullEdge, dipoleBy, Bool.not_false, if_true, faceRotate, faceWedge, hb] at this ⊢
    norm_num at this ⊢
    rw [this]
    norm_num [offAxis, Real.tan_pi_div_four]
  · have := full_px (kf := edgeK0 (dipoleBy 0 1) 1) (kw := 0) (e := Real.pi / 4) (f := 0) (g := 0) hc straight_offAxis rfl
      (Or.inl (by norm_num [offAxis]))
    simp only [fullEdge, dipoleBy, Bool.not_false, if_true, faceRotate, faceWedge, hb] at this ⊢
    norm_num at this ⊢
    rw [this]

/-! ## `DipoleEdge`: C73 -/

/-- The attributes of an edge as the user last set them. -/
structure Attrs where
  k : ℝ
  e1 : ℝ
  e1fd : ℝ
  hgap : ℝ
  fint : ℝ
  model : ℤ
  side : ℤ

/-- An assignment changes the attribute it names and no other; a model or a side which does not exist is refused. -/
def Attrs.set (a : Attrs) : EdgeOp → Attrs
  | .k v => { a with k := v }
  | .e1 v => { a with e1 := v }
  | .e1fd v => { a with e1fd := v }
  | .hgap v => { a with hgap := v }
  | .fint v => { a with fint := v }
  | .model v => if v = -1 ∨ v = 0 ∨ v = 1 then { a with model := v } else a
  | .side v => if v = 0 ∨ v = 1 then { a with side := v } else a

/-- A fresh element with these attributes. -/
def Attrs.fresh (a : Attrs) : DipoleEdge := DipoleEdge.new a.k a.e1 a.e1fd a.hgap a.fint a.model a.side

/-- **C73.** After any sequence of assignments the edge is the one which is created with the final values. -/
theorem C73_history (a : Attrs) (ops : List EdgeOp) : ops.foldl DipoleEdge.assign a.fresh = (ops.foldl Attrs.set a).fresh := by
  induction ops generalizing a with
  | nil => rfl
  | cons o rest ih =>
    rw [List.foldl_cons, List.foldl_cons, ← ih]
    congr 1
    cases o
    case model v =>
      simp only [DipoleEdge.assign, Attrs.set]
      split_ifs <;> rfl
    case side v =>
      simp only [DipoleEdge.assign, Attrs.set]
      split_ifs <;> rfl
    all_goals rfl

/-- The edges of a magnet as elements of their own. -/
def Edge.element (k : ℝ) (e : Edge) (isExit : Bool) : DipoleEdge :=
  DipoleEdge.new k e.angle e.fdown e.hgap e.fint (if e.model = 0 then 0 else if e.model = 2 then 1 else -1) (if isExit then 1 else 0)

/-- The same magnet without its edges. -/
def noEdges (m : Magnet) : Magnet := { m with entry := { m.entry with active := false }, exit := { m.exit with active := false } }

/-- The models of an edge which `DipoleEdge` knows: linear, dipole only, suppressed; the face angle is off or above the threshold. -/
def Edge.Plain (e : Edge) : Prop := (e.model = 0 ∨ e.model = 2 ∨ e.model = -1) ∧ (e.angle = 0 ∨ |e.angle| ≠ 10e-10)

theorem fullEdge_eq {m : Magnet} {e : Edge} (he : Edge.Plain e) (h2 : e.model = 2) {k : ℝ} (hk : edgeK0 m m.length = k) (hw : m.k0 = k)
    (isExit : Bool) (p : Part) : fullEdge m m.length e isExit p =
      dipoleEdgeNonLinear k e.angle e.fint e.hgap (if isExit then 1 else 0) p := by
  have ha : ∀ (a b : Part), (if |e.angle| > 10e-10 then a else b) = (if |e.angle| < 10e-10 then b else a) := by
    intro a b
    obtain h | h := he.2
    · rw [h, abs_zero]
      norm_num
    · obtain h' | h' := lt_or_gt_of_ne h
      · rw [if_neg (not_lt.2 h'.le), if_pos h']
      · rw [if_pos h', if_neg (not_lt.2 h'.le)]
  cases isExit <;> simp [fullEdge, dipoleEdgeNonLinear, hk, hw, h2, faceRotate, faceWedge, ha]

/-- One edge of the magnet is the element. -/
theorem edge_element {m : Magnet} {e : Edge} (he : Edge.Plain e) {k : ℝ} (hk : edgeK0 m m.length = k)
    (hw : e.model = 2 → m.k0 = k) (isExit back : Bool) (side : Bool) (hs : back = false → side = isExit) (p : Part)
    (F : Bool → Part → Part) (hF : back = false → F isExit p = fullEdge m m.length e isExit p) :
    edge m F m.length e isExit back p = (Edge.element k e side).track back p := by
  obtain h | h | h := he.1
  · simp [edge, h, Edge.element, DipoleEdge.new, DipoleEdge.track, DipoleEdge.update, edgeCoefs, hk]
  · cases back
    · simp [edge, h, Edge.element, DipoleEdge.new, DipoleEdge.track, DipoleEdge.update, hs, hF, fullEdge_eq he h hk (hw h)]
    · simp [edge, h, Edge.element, DipoleEdge.new, DipoleEdge.track, DipoleEdge.update]
  · simp [edge, h, Edge.element, DipoleEdge.new, DipoleEdge.track, DipoleEdge.update]

/-- The full edge at each end. -/
def fullEdges (m : Magnet) (isExit : Bool) (p : Part) : Part := fullEdge m m.length (if isExit then m.exit else m.entry) isExit p

/-- The body of a sector bend. -/
def middle (m : Magnet) (w : ℝ) (back : Bool) (q : Part) : Part :=
  if m.bodyActive then trackBody m ⟨false, m.length, 0, m.h, ⟨0, 1, 0⟩, ⟨0, 1, 0⟩, m.entry, m.exit⟩ w (if back then -1 else 1) q else q

theorem track_sector {m : Magnet} (hr : m.rbendModel ≠ 0 ∧ m.rbendModel ≠ 1 ∧ m.rbendModel ≠ 2) (F : Bool → Part → Part) (w : ℝ)
    (back : Bool) (p : Part) : trackMagnet m F w back p =
      (if (if back then m.exit else m.entry).active then edge m F m.length (if back then m.exit else m.entry) false back p
        else some p).bind (fun q => if (if back then m.entry else m.exit).active then
          edge m F m.length (if back then m.entry else m.exit) true back (middle m w back q) else some (middle m w back q)) := by
  unfold trackMagnet trackEntry trackExit middle
  simp only [geometry_sector hr, Bool.false_eq_true, if_false]
  cases (if (if back then m.exit else m.entry).active = true then
    edge m F m.length (if back then m.exit else m.entry) false back p else some p) with
  | none => rfl
  | some q =>
    simp only [Option.bind_some]
    split_ifs
    all_goals first
      | rfl
      | (cases edge m F m.length _ true back _ <;> rfl)

/-- **C73.** The edges of a magnet do what `DipoleEdge` elements before and after the magnet without edges do, also backwards: there
the exit comes first.  For full edges the dipole field has to come from `k0`. -/
theorem C73_magnet (m : Magnet) (hr : m.rbendModel ≠ 0 ∧ m.rbendModel ≠ 1 ∧ m.rbendModel ≠ 2) {k : ℝ} (hk : dipoleAt m k)
    (h1 : m.entry.active = true) (h2 : m.exit.active = true) (p1 : Edge.Plain m.entry) (p2 : Edge.Plain m.exit)
    (f1 : m.entry.model = 2 → m.k0 = k) (f2 : m.exit.model = 2 → m.k0 = k) (w : ℝ) (p : Part) :
    trackMagnet m (fullEdges m) w false p =
      ((Edge.element k m.entry false).track false p).bind (fun q => (trackMagnet (noEdges m) (fullEdges m) w false q).bind
        ((Edge.element k m.exit true).track false)) ∧
    trackMagnet m (fullEdges m) w true p =
      ((Edge.element k m.exit true).track true p).bind (fun q => (trackMagnet (noEdges m) (fullEdges m) w true q).bind
        ((Edge.element k m.entry false).track true)) := by
  have e1 := fun b s hs q hF => edge_element p1 (edgeK0_eq hk) f1 false b s hs q (fullEdges m) hF
  have e2 := fun b s hs q hF => edge_element p2 (edgeK0_eq hk) f2 true b s hs q (fullEdges m) hF
  have e3 := fun b s hs q hF => edge_element p1 (edgeK0_eq hk) f1 true b s hs q (fullEdges m) hF
  have e4 := fun b s hs q hF => edge_element p2 (edgeK0_eq hk) f2 false b s hs q (fullEdges m) hF
  have hn : ∀ b q, trackMagnet (noEdges m) (fullEdges m) w b q = some (middle m w b q) := by
    intro b q
    rw [track_sector (m := noEdges m) hr]
    cases b <;> rfl
  constructor
  · rw [track_sector hr]
    simp only [h1, h2, if_true, Bool.false_eq_true, if_false, hn, Option.bind_some]
    rw [e1 false false (fun _ => rfl) p (fun _ => rfl)]
    congr 1
    funext q
    exact e2 false true (fun _ => rfl) _ (fun _ => rfl)
  · rw [track_sector hr]
    simp only [h1, h2, if_true, hn, Option.bind_some]
    rw [e4 true true (fun h => absurd h (by decide)) p (fun h => absurd h (by decide))]
    congr 1
    funext q
    exact e3 true false (fun h => absurd h (by decide)) _ (fun h => absurd h (by decide))

/-! ## Examples -/

example : dipoleAt (dipoleBy 1 2) 3 ∧ FaceOk (Real.pi / 4) ∧ Straight offAxis ∧ Sees 1 offAxis ∧
    Edge.Plain (dipoleBy 1 0).entry := by
  have hpi := Real.two_le_pi
  have hb : 10e-10 < |Real.pi / 4| := by
    rw [abs_of_pos (by positivity)]
    linarith
  refine ⟨⟨by norm_num [dipoleBy], by norm_num [dipoleBy]⟩, ⟨Or.inr hb.le, ?_⟩, straight_offAxis,
    Or.inr (by norm_num [offAxis]), Or.inr (Or.inl rfl), Or.inr hb.ne'⟩
  rw [Real.cos_pi_div_four]
  positivity

end

end Verif.Edges
