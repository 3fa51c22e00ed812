import Verif.Edges.Model
import Verif.Edges.Spec
import Verif.Magnets.DriftLemmas
import Verif.Frames.Props

/-! # Wedges: C71 -/

namespace Verif.Edges

open Frames Magnets

noncomputable section

/-- The field which a particle sees is either off or above the threshold below which the code ignores it. -/
def Sees (k0 : ℝ) (p : Part) : Prop := k0 * p.chi = 0 ∨ 10e-10 ≤ |k0 * p.chi|

/-- The particle moves forward through the first plane and in the direction of the turned one, and there is a real longitudinal
momentum at the turned one. -/
structure Enters (t k0 : ℝ) (p : Part) : Prop where
  kin : p.Kin
  forward : p.Forward
  crosses : Crosses (Frame.yaw (-t)) p
  cos : k0 * p.chi = 0 → Real.cos t ≠ 0
  leaves : k0 * p.chi ≠ 0 →
    0 < (1 + p.delta) ^ 2 - (p.px * Real.cos t + (p.pz - k0 * p.chi * p.x) * Real.sin t) ^ 2 - p.py ^ 2

theorem pz_eq (p : Part) : p.pz = pzOf (p.delta + 1) p.py p.px := by
  unfold Part.pz pzOf
  rw [add_comm]

theorem wedge_off {t k0 : ℝ} {p : Part} (h : k0 * p.chi = 0) :
    wedge t k0 p = yRot p (Real.sin (-t)) (Real.cos (-t)) (Real.tan (-t)) := by
  simp only [wedge, h, abs_zero, Real.sin_neg, Real.cos_neg, Real.tan_neg]
  norm_num

theorem same_wedge {t k0 : ℝ} {p : Part} (h : k0 * p.chi = 0) (e : Enters t k0 p) : Same (Frame.yaw (-t)) p (wedge t k0 p) := by
  rw [wedge_off h]
  exact same_yRot e.kin e.forward (by rw [Real.cos_neg]; exact e.cos h) e.crosses

/-- The wedge in a field, with the position from the rotating vector `(px, pz - b x)`. -/
theorem wedge_on {t k0 : ℝ} {p : Part} (h : 10e-10 ≤ |k0 * p.chi|) (e : Enters t k0 p) :
    (wedge t k0 p).px = p.px * Real.cos t + (p.pz - k0 * p.chi * p.x) * Real.sin t ∧
    (wedge t k0 p).pz - k0 * p.chi * (wedge t k0 p).x = (p.pz - k0 * p.chi * p.x) * Real.cos t - p.px * Real.sin t ∧
    (wedge t k0 p).Forward ∧
    (wedge t k0 p).py = p.py ∧ (wedge t k0 p).s = p.s ∧ SameKind p (wedge t k0 p) ∧
    (wedge t k0 p).y = p.y + p.py * (t + (ang (1 + p.delta) p.py p.px - ang (1 + p.delta) p.py (wedge t k0 p).px)) / (k0 * p.chi) ∧
    (wedge t k0 p).zeta = p.zeta
      - (1 + p.delta) * (t + (ang (1 + p.delta) p.py p.px - ang (1 + p.delta) p.py (wedge t k0 p).px)) / (k0 * p.chi) / p.rvv ∧
    (wedge t k0 p).spinX = Real.cos t * p.spinX + Real.sin t * p.spinZ ∧ (wedge t k0 p).spinY = p.spinY ∧
    (wedge t k0 p).spinZ = -Real.sin t * p.spinX + Real.cos t * p.spinZ := by
  have hb : k0 * p.chi ≠ 0 := by
    intro h0
    rw [h0] at h
    norm_num at h
  have hn : ¬ |k0 * p.chi| < 10e-10 := not_lt.2 h
  have hpz := e.forward.pz_pos
  have hsq := e.forward.pz_sq
  have hl := e.leaves hb
  have hc := e.crosses
  simp only [Crosses, Frame.yaw, Real.sin_neg, Real.cos_neg] at hc
  have e1 : Real.sqrt ((p.delta + 1) ^ 2 - p.px ^ 2 - p.py ^ 2) = p.pz := by
    unfold Part.pz; rw [add_comm]
  have hs2 : Real.sin (2 * t) = 2 * Real.sin t * Real.cos t := Real.sin_two_mul t
  have hcs := Real.sin_sq_add_cos_sq t
  simp only [wedge, hn, if_false, e1]
  rw [add_comm p.delta 1]
  generalize hP : Real.sqrt ((1 + p.delta) ^ 2 - (p.px * Real.cos t + (p.pz - k0 * p.chi * p.x) * Real.sin t) ^ 2 - p.py ^ 2) = P
  have hP0 : 0 < P := hP ▸ Real.sqrt_pos.2 hl
  have hPsq : P ^ 2 = (1 + p.delta) ^ 2 - (p.px * Real.cos t + (p.pz - k0 * p.chi * p.x) * Real.sin t) ^ 2 - p.py ^ 2 :=
    hP ▸ Real.sq_sqrt hl.le
  rw [hs2]
  have key : P - k0 * p.chi * (p.x * Real.cos t
      + (p.x * p.px * (2 * Real.sin t * Real.cos t) + Real.sin t ^ 2 * (2 * p.x * p.pz - k0 * p.chi * p.x ^ 2))
        / (P + p.pz * Real.cos t - p.px * Real.sin t)) = (p.pz - k0 * p.chi * p.x) * Real.cos t - p.px * Real.sin t := by
    have hden : P + p.pz * Real.cos t - p.px * Real.sin t ≠ 0 := by
      apply ne_of_gt
      nlinarith
    have hq : k0 * p.chi * ((p.x * p.px * (2 * Real.sin t * Real.cos t) + Real.sin t ^ 2 * (2 * p.x * p.pz - k0 * p.chi * p.x ^ 2))
        / (P + p.pz * Real.cos t - p.px * Real.sin t)) = P - (p.pz * Real.cos t - p.px * Real.sin t) := by
      rw [mul_div_assoc', div_eq_iff hden]
      linear_combination -hPsq + hsq + (p.pz ^ 2 + p.px ^ 2) * hcs
    rw [mul_add, hq]
    ring
  refine ⟨?_, ?_, ?_, ?_, ?_, ?_, ?_, ?_, ?_, ?_, ?_⟩
  all_goals split_ifs with hsp
  all_goals first
    | rfl
    | exact ⟨rfl, rfl, rfl, rfl, rfl, rfl⟩
    | exact hl
    | (refine Eq.trans ?_ key; show Real.sqrt _ - _ = _; rw [← hP])
    | (show _ = _; simp only [ang]; ring1)
    | (simp only [not_or, not_not] at hsp; simp [hsp.1, hsp.2])

/-- Free flight is the motion without field. -/
theorem crossing_of_same {t : ℝ} {p q : Part} (h : Same (Frame.yaw (-t)) p q) : Crossing t 0 p q := by
  obtain ⟨l, hl, hz⟩ := h.line
  refine ⟨h.kind, by simpa using h.s, h.spin, ⟨fun u => p.x + u * p.px, fun u => p.y + u * p.py, fun u => u * p.pz, fun _ => p.px,
    fun _ => p.py, fun _ => p.pz⟩, l, ?_, by simp, by simp, by simp, rfl, rfl, rfl, hl, h.mom, by simpa using hz, fun h => absurd rfl h⟩
  constructor <;> intro u
  · exact (((hasDerivAt_id u).mul_const p.px).const_add p.x).congr_deriv (by simp)
  · exact (((hasDerivAt_id u).mul_const p.py).const_add p.y).congr_deriv (by simp)
  · exact ((hasDerivAt_id u).mul_const p.pz).congr_deriv (by simp)
  · exact (hasDerivAt_const u p.px).congr_deriv (by simp)
  · exact hasDerivAt_const u p.py
  · exact (hasDerivAt_const u p.pz).congr_deriv (by simp)

/-- **C71.** A wedge moves the particle exactly as a uniform vertical field does between the plane of the present frame and a plane
which is turned around the vertical axis by the angle of the wedge. -/
theorem C71_motion {t k0 : ℝ} {p : Part} (hk : Sees k0 p) (e : Enters t k0 p) : Crossing t (k0 * p.chi) p (wedge t k0 p) := by
  obtain h0 | hk := hk
  · rw [h0]
    exact crossing_of_same (same_wedge h0 e)
  have hb : k0 * p.chi ≠ 0 := by
    intro h0
    rw [h0] at hk
    norm_num at hk
  obtain ⟨hpx, hx, hf, hpy, hs, hkind, hy, hzeta, s1, s2, s3⟩ := wedge_on hk e
  generalize wedge t k0 p = q at *
  generalize k0 * p.chi = b at *
  have hcs := Real.sin_sq_add_cos_sq t
  obtain ⟨a1, a2, a3, a4⟩ := ang_spec (opd := 1 + p.delta) (py := p.py) (px := p.px) e.forward
  have hf' : 0 < (1 + p.delta) ^ 2 - q.px ^ 2 - p.py ^ 2 := by
    have := hf
    unfold Part.Forward at this
    rwa [hkind.delta, hpy] at this
  obtain ⟨c1, c2, c3, c4⟩ := ang_spec (opd := 1 + p.delta) (py := p.py) (px := q.px) hf'
  have z1 : pzOf (1 + p.delta) p.py p.px = p.pz := rfl
  have z2 : pzOf (1 + p.delta) p.py q.px = q.pz := by unfold pzOf Part.pz; rw [hkind.delta, hpy]
  rw [z1] at a2
  rw [z2] at c2
  generalize ang (1 + p.delta) p.py p.px = α at *
  generalize ang (1 + p.delta) p.py q.px = β at *
  generalize Real.sqrt ((1 + p.delta) ^ 2 - p.py ^ 2) = R at *
  obtain ⟨u, hu⟩ : ∃ u, u = (t + (α - β)) / b := ⟨_, rfl⟩
  have hbu : b * u = t + (α - β) := by rw [hu]; field_simp
  have d (v : ℝ) : HasDerivAt (fun u => b * u) b v := by simpa using (hasDerivAt_id v).const_mul b
  have dpx (v : ℝ) : HasDerivAt (fun u => p.px * Real.cos (b * u) - p.pz * Real.sin (b * u))
      (-(b * (p.pz * Real.cos (b * v) + p.px * Real.sin (b * v)))) v :=
    (((d v).cos.const_mul p.px).sub ((d v).sin.const_mul p.pz)).congr_deriv (by ring)
  have dpz (v : ℝ) : HasDerivAt (fun u => p.pz * Real.cos (b * u) + p.px * Real.sin (b * u))
      (b * (p.px * Real.cos (b * v) - p.pz * Real.sin (b * v))) v :=
    (((d v).cos.const_mul p.pz).add ((d v).sin.const_mul p.px)).congr_deriv (by ring)
  have eX : p.px * Real.cos (b * u) - p.pz * Real.sin (b * u) = q.px * Real.cos t - q.pz * Real.sin t := by
    have : b * u = α - (β - t) := by rw [hbu]; ring
    rw [this, Real.cos_sub α, Real.sin_sub α, Real.cos_sub β, Real.sin_sub β, ← a1, ← a2, ← c1, ← c2]
    have := Real.sin_sq_add_cos_sq α
    linear_combination R * (Real.sin β * Real.cos t - Real.cos β * Real.sin t) * this
  have eZ : p.pz * Real.cos (b * u) + p.px * Real.sin (b * u) = q.pz * Real.cos t + q.px * Real.sin t := by
    have : b * u = α - (β - t) := by rw [hbu]; ring
    rw [this, Real.cos_sub α, Real.sin_sub α, Real.cos_sub β, Real.sin_sub β, ← a1, ← a2, ← c1, ← c2]
    have := Real.sin_sq_add_cos_sq α
    linear_combination R * (Real.cos β * Real.cos t + Real.sin β * Real.sin t) * this
  refine ⟨hkind, hs, ?_, ⟨fun u => p.x + (p.pz * Real.cos (b * u) + p.px * Real.sin (b * u) - p.pz) / b, fun u => p.y + u * p.py,
    fun u => -(p.px * Real.cos (b * u) - p.pz * Real.sin (b * u) - p.px) / b,
    fun u => p.px * Real.cos (b * u) - p.pz * Real.sin (b * u), fun _ => p.py,
    fun u => p.pz * Real.cos (b * u) + p.px * Real.sin (b * u)⟩, u, ?_, by simp, by simp, by simp, by simp, rfl, by simp, ?_, ?_, ?_, ?_⟩
  · simp only [Frame.dir, Frame.yaw, Part.spin, Real.cos_neg, Real.sin_neg, s1, s2, s3, Vec.mk.injEq]
    refine ⟨?_, by ring, ?_⟩
    · linear_combination p.spinX * hcs
    · linear_combination p.spinZ * hcs
  · constructor <;> intro v
    · exact ((((dpz v).sub_const p.pz).div_const b).const_add p.x).congr_deriv (by field_simp)
    · exact (((hasDerivAt_id v).mul_const p.py).const_add p.y).congr_deriv (by simp)
    · exact ((((dpx v).sub_const p.px).neg).div_const b).congr_deriv (by field_simp)
    · exact dpx v
    · exact hasDerivAt_const v p.py
    · exact dpz v
  · simp only [Frame.point, Frame.dir, Frame.yaw, Real.cos_neg, Real.sin_neg, eX, eZ, Vec.mk.injEq]
    have hx' : q.x = (q.pz - ((p.pz - b * p.x) * Real.cos t - p.px * Real.sin t)) / b := by
      rw [eq_div_iff hb]
      linear_combination -hx
    refine ⟨?_, ?_, ?_⟩
    · rw [hx', hpx]
      field_simp
      linear_combination (-(p.pz - b * p.x)) * hcs
    · rw [hy, hu]
      ring
    · rw [hx', hpx]
      field_simp
      linear_combination p.px * hcs
  · simp only [Frame.dir, Frame.yaw, Real.cos_neg, Real.sin_neg, eX, eZ, Vec.mk.injEq, Part.mom]
    refine ⟨by ring, by rw [hpy]; ring, by ring⟩
  · rw [hzeta, hu]
    ring
  · intro _
    rw [hbu, abs_lt]
    constructor <;> linarith

/-- **C71.** Two wedges one after the other are one wedge of the summed angle. -/
theorem C71_compose {t1 t2 k0 : ℝ} {p : Part} (hk : Sees k0 p) (e1 : Enters t1 k0 p) (e2 : Enters t2 k0 (wedge t1 k0 p))
    (e : Enters (t1 + t2) k0 p) : wedge t2 k0 (wedge t1 k0 p) = wedge (t1 + t2) k0 p := by
  obtain h0 | hk := hk
  · have s1 := same_wedge h0 e1
    have s2 := same_wedge (p := wedge t1 k0 p) (by rw [s1.kind.chi]; exact h0) e2
    have s3 := s1.comp s2
    rw [yaw_comp_yaw] at s3
    have s := same_wedge h0 e
    rw [show -t1 + -t2 = -(t1 + t2) by ring] at s3
    exact s3.uniq (ortho_yaw _) s e.crosses
  have hb : k0 * p.chi ≠ 0 := by
    intro h0
    rw [h0] at hk
    norm_num at hk
  obtain ⟨a1, a2, a3, a4, a5, a6, a7, a8, a9, a10, a11⟩ := wedge_on hk e1
  generalize wedge t1 k0 p = q at *
  have hc : k0 * q.chi = k0 * p.chi := by rw [a6.chi]
  obtain ⟨b1, b2, b3, b4, b5, b6, b7, b8, b9, b10, b11⟩ := wedge_on (by rw [hc]; exact hk) e2
  generalize wedge t2 k0 q = r at *
  obtain ⟨c1, c2, c3, c4, c5, c6, c7, c8, c9, c10, c11⟩ := wedge_on hk e
  generalize wedge (t1 + t2) k0 p = w at *
  rw [hc] at b1 b2 b7 b8
  have kk : SameKind w r := c6.symm.trans (a6.trans b6)
  have hpx : r.px = w.px := by
    rw [b1, c1, a2, a1, Real.sin_add, Real.cos_add]
    ring
  have hpy : r.py = w.py := by rw [b4, c4, a4]
  have hpz : r.pz = w.pz := by
    unfold Part.pz
    rw [hpx, hpy, kk.delta]
  have hx : r.x = w.x := by
    have : k0 * p.chi * (r.x - w.x) = 0 := by
      have e : (q.pz - k0 * p.chi * q.x) * Real.cos t2 - q.px * Real.sin t2
          = (p.pz - k0 * p.chi * p.x) * Real.cos (t1 + t2) - p.px * Real.sin (t1 + t2) := by
        rw [a2, a1, Real.sin_add, Real.cos_add]
        ring
      linear_combination c2 - b2 + hpz - e
    have := (mul_eq_zero.1 this).resolve_left hb
    linarith
  rw [a6.delta, a4] at b7 b8
  rw [a6.rvv] at b8
  apply Frames.Part.ext
  · exact hx
  · exact hpx
  · rw [b7, a7, c7, ← hpx]
    ring
  · exact hpy
  · rw [b8, a8, c8, ← hpx]
    ring
  · rw [b5, a5, c5]
  · exact kk.delta
  · exact kk.ptau
  · exact kk.rpp
  · exact kk.rvv
  · exact kk.beta0
  · exact kk.chi
  · rw [b9, a9, a11, c9, Real.sin_add, Real.cos_add]
    ring
  · rw [b10, a10, c10]
  · rw [b11, a9, a11, c11, Real.sin_add, Real.cos_add]
    ring

/-- A wedge without angle does nothing. -/
theorem wedge_zero {k0 : ℝ} {p : Part} (hk : Sees k0 p) (h : p.Kin) (f : p.Forward) : wedge 0 k0 p = p := by
  have hcr : Crosses (Frame.yaw (-0)) p := by
    rw [neg_zero, yaw_zero]
    exact crosses_id f
  have e : Enters 0 k0 p := ⟨h, f, hcr, fun _ => by simp, fun _ => by simpa [Part.Forward] using f⟩
  obtain h0 | hk := hk
  · have s := same_wedge h0 e
    rw [neg_zero, yaw_zero] at s
    exact s.eq_of_id f
  have hb : k0 * p.chi ≠ 0 := by
    intro h0
    rw [h0] at hk
    norm_num at hk
  obtain ⟨a1, a2, a3, a4, a5, a6, a7, a8, a9, a10, a11⟩ := wedge_on hk e
  generalize wedge 0 k0 p = q at *
  simp only [Real.cos_zero, Real.sin_zero, mul_one, mul_zero, add_zero, sub_zero, one_mul, zero_mul, neg_zero, zero_add] at *
  have hz : q.pz = p.pz := by
    unfold Part.pz
    rw [a1, a4, a6.delta]
  have hx : q.x = p.x := by
    have : k0 * p.chi * (q.x - p.x) = 0 := by linear_combination -a2 + hz
    have := (mul_eq_zero.1 this).resolve_left hb
    linarith
  rw [a1] at a7 a8
  exact Frames.Part.ext hx a1 (by rw [a7]; ring) a4 (by rw [a8]; ring) a5 a6.delta a6.ptau a6.rpp a6.rvv a6.beta0 a6.chi a9 a10 a11

/-- **C71.** The wedge of the opposite angle undoes a wedge. -/
theorem C71_inverse {t k0 : ℝ} {p : Part} (hk : Sees k0 p) (e1 : Enters t k0 p) (e2 : Enters (-t) k0 (wedge t k0 p)) :
    wedge (-t) k0 (wedge t k0 p) = p := by
  have f := e1.forward
  have e : Enters (t + -t) k0 p := by
    rw [add_neg_cancel]
    exact ⟨e1.kin, f, by rw [neg_zero, yaw_zero]; exact crosses_id f, fun _ => by simp, fun _ => by simpa [Part.Forward] using f⟩
  rw [C71_compose hk e1 e2 e, add_neg_cancel, wedge_zero hk e1.kin f]

/-! ## Examples -/

/-- A particle on the axis. -/
def axis : Part := ⟨0, 0, 0, 0, 0, 0, 0, 0, 1, 1, 1, 1, 0, 0, 0⟩

/-- It enters a wedge of 45 degrees with or without field. -/
example (k0 : ℝ) : Enters (Real.pi / 4) k0 axis := by
  have h2 : Real.sqrt 2 ^ 2 = 2 := Real.sq_sqrt (by norm_num)
  have h2' : 0 < Real.sqrt 2 := by positivity
  constructor
  · constructor <;> norm_num [axis]
  · norm_num [Part.Forward, axis]
  · norm_num [Crosses, Frame.yaw, axis, Part.pz]
  · intro _
    rw [Real.cos_pi_div_four]
    positivity
  · intro _
    norm_num [axis, Part.pz, div_pow, h2]

example : Sees 0.1 axis ∧ Sees 0 axis := by
  constructor
  · right
    norm_num [axis, abs_of_pos]
  · left
    norm_num [axis]

end

end Verif.Edges
