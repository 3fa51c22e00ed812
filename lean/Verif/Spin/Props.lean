import Verif.Spin.Spec
import Verif.Frames.Spec
import Mathlib.Analysis.SpecialFunctions.Trigonometric.Basic
import Mathlib.Tactic.LinearCombination
import Mathlib.Tactic.FieldSimp

/-! # C108: the motion of the spin is a rotation; C109: the precession -/

namespace Verif.Spin

open Verif.Frames

noncomputable section

theorem rotation_comp {R S : V3 → V3} (hR : IsRotation R) (hS : IsRotation S) : IsRotation (fun s => S (R s)) where
  add a b := by simp only [hR.add, hS.add]
  smul c a := by simp only [hR.smul, hS.smul]
  dot a b := by simp only [hR.dot, hS.dot]
  cross a b := by simp only [hR.cross, hS.cross]

theorem rotation_id : IsRotation (fun s => s) := ⟨fun _ _ => rfl, fun _ _ => rfl, fun _ _ => rfl, fun _ _ => rfl⟩

theorem quat_rotation {t0 tx ty tz : ℝ} (h : t0 * t0 + tx * tx + ty * ty + tz * tz = 1) :
    IsRotation (quat t0 tx ty tz) where
  add a b := by ext <;> simp only [quat, add] <;> ring
  smul c a := by ext <;> simp only [quat, smul] <;> ring
  dot a b := by
    have : dot (quat t0 tx ty tz a) (quat t0 tx ty tz b) = (t0 * t0 + tx * tx + ty * ty + tz * tz) ^ 2 * dot a b := by
      simp only [quat, dot]; ring
    rw [this, h]; ring
  cross a b := by
    have : cross (quat t0 tx ty tz a) (quat t0 tx ty tz b)
        = smul (t0 * t0 + tx * tx + ty * ty + tz * tz) (quat t0 tx ty tz (cross a b)) := by
      ext <;> simp only [quat, cross, smul] <;> ring
    rw [this, h]; ext <;> simp [smul]

theorem mod_sq (w : V3) : mod w * mod w = w.x * w.x + w.y * w.y + w.z * w.z :=
  Real.mul_self_sqrt (by nlinarith [mul_self_nonneg w.x, mul_self_nonneg w.y, mul_self_nonneg w.z])

theorem unit_sq {w : V3} (h : 0 < mod w) :
    w.x / mod w * (w.x / mod w) + w.y / mod w * (w.y / mod w) + w.z / mod w * (w.z / mod w) = 1 := by
  have h2 := mod_sq w
  have h3 : mod w ≠ 0 := h.ne'
  field_simp
  nlinarith

theorem pos_of_threshold {w : V3} (h : 1 / 10 ^ 10 < mod w) : 0 < mod w := lt_trans (by positivity) h

theorem precess_rotation (w : V3) (l : ℝ) : IsRotation (precess w l) := by
  by_cases h : 1 / 10 ^ 10 < mod w
  · have e : precess w l = quat (Real.cos (mod w * l / 2)) (w.x / mod w * Real.sin (mod w * l / 2))
        (w.y / mod w * Real.sin (mod w * l / 2)) (w.z / mod w * Real.sin (mod w * l / 2)) := by
      funext s; unfold precess; rw [if_pos h]
    rw [e]
    apply quat_rotation
    have h1 := unit_sq (pos_of_threshold h)
    have h2 := Real.sin_sq_add_cos_sq (mod w * l / 2)
    linear_combination Real.sin (mod w * l / 2) ^ 2 * h1 + h2
  · have e : precess w l = fun s => s := by funext s; unfold precess; rw [if_neg h]
    rw [e]; exact rotation_id

/-- Rotation in the plane of x and z. -/
def rotXZ (c s : ℝ) (v : V3) : V3 := ⟨v.x * c + v.z * s, v.y, -v.x * s + v.z * c⟩

theorem rotXZ_rotation {c s : ℝ} (h : s ^ 2 + c ^ 2 = 1) : IsRotation (rotXZ c s) where
  add a b := by ext <;> simp only [rotXZ, add] <;> ring
  smul k a := by ext <;> simp only [rotXZ, smul] <;> ring
  dot a b := by simp only [rotXZ, dot]; linear_combination (a.x * b.x + a.z * b.z) * h
  cross a b := by
    ext <;> simp only [rotXZ, cross]
    · ring
    · linear_combination (a.z * b.x - a.x * b.z) * h
    · ring

theorem bendFrame_eq (hx length : ℝ) : bendFrame hx length = rotXZ (Real.cos (hx * length / 2)) (Real.sin (hx * length / 2)) := by
  funext s
  unfold bendFrame rotXZ
  by_cases h : hx = 0
  · simp [h]
  · simp [h]

theorem bendFrame_rotation (hx length : ℝ) : IsRotation (bendFrame hx length) := by
  rw [bendFrame_eq]; exact rotXZ_rotation (Real.sin_sq_add_cos_sq _)

theorem IsRotation.zero {R : V3 → V3} (h : IsRotation R) : R ⟨0, 0, 0⟩ = ⟨0, 0, 0⟩ := by
  have := h.smul 0 ⟨0, 0, 0⟩
  simpa [Spin.smul] using this

theorem setSpin_spinOf (p : Part) : setSpin p (spinOf p) = p := rfl

theorem setSpin_setSpin (p : Part) (s t : V3) : setSpin (setSpin p s) t = setSpin p t := rfl

theorem omega_setSpin (p : Part) (s : V3) (e : Extra) (B : V3) : omega (setSpin p s) e B = omega p e B := rfl

theorem spin_zero {s : V3} (h : ¬ (s.x ≠ 0 ∨ s.y ≠ 0 ∨ s.z ≠ 0)) : s = ⟨0, 0, 0⟩ := by
  push Not at h
  ext
  · exact h.1
  · exact h.2.1
  · exact h.2.2

theorem magnet_step (p : Part) (e : Extra) (B : V3) (hx length l : ℝ) : ∃ R, IsRotation R ∧
    ∀ s, magnetSpin (setSpin p s) e B hx length l false = some (setSpin p (R s)) := by
  have hR := rotation_comp (rotation_comp (bendFrame_rotation hx length) (precess_rotation (omega p e B) l))
    (bendFrame_rotation hx length)
  refine ⟨_, hR, fun s => ?_⟩
  unfold magnetSpin
  by_cases h : (setSpin p s).spinX ≠ 0 ∨ (setSpin p s).spinY ≠ 0 ∨ (setSpin p s).spinZ ≠ 0
  · rw [if_pos h]; rfl
  · rw [if_neg h]
    have := spin_zero (s := s) h
    subst this
    rw [hR.zero]

theorem legacy_step (p : Part) (e : Extra) (ox oy : ℝ) (B : V3) (hx length l : ℝ) : ∃ R, IsRotation R ∧
    ∀ s, legacySpin (setSpin p s) e ox oy hx length l B false = some (setSpin p (R s)) := by
  set w := omegaFrom e.G (gamma p e) (brho p e) B (legacyDirection ox oy e.ax e.ay p.delta) with hw
  by_cases hm : 1 / 10 ^ 10 < mod w
  · have hR := rotation_comp (rotation_comp (bendFrame_rotation hx length) (precess_rotation w l))
      (bendFrame_rotation hx length)
    refine ⟨_, hR, fun s => ?_⟩
    unfold legacySpin
    by_cases h : (setSpin p s).spinX ≠ 0 ∨ (setSpin p s).spinY ≠ 0 ∨ (setSpin p s).spinZ ≠ 0
    · rw [if_pos h]
      simp only [Bool.false_eq_true, if_false]
      have e1 : omegaFrom e.G (gamma (setSpin p s) e) (brho (setSpin p s) e) B
        (legacyDirection ox oy e.ax e.ay (setSpin p s).delta) = w := rfl
      rw [e1, if_pos hm]; rfl
    · rw [if_neg h]
      have := spin_zero (s := s) h
      subst this
      rw [hR.zero]
  · refine ⟨_, rotation_id, fun s => ?_⟩
    unfold legacySpin
    by_cases h : (setSpin p s).spinX ≠ 0 ∨ (setSpin p s).spinY ≠ 0 ∨ (setSpin p s).spinZ ≠ 0
    · rw [if_pos h]
      simp only [Bool.false_eq_true, if_false]
      have e1 : omegaFrom e.G (gamma (setSpin p s) e) (brho (setSpin p s) e) B
        (legacyDirection ox oy e.ax e.ay (setSpin p s).delta) = w := rfl
      rw [e1, if_neg hm]
    · rw [if_neg h]

theorem zero_of_not {a b : ℝ} (h : ¬ (a ≠ 0 ∨ b ≠ 0)) : a = 0 ∧ b = 0 := by push Not at h; exact h

theorem step_rotation (st : Step) (hb : st.Blind) (p : Part) : ∃ (q : Part) (R : V3 → V3), IsRotation R ∧
    ∀ s, st.track (setSpin p s) = some (setSpin q (R s)) := by
  cases st with
  | magnet e B hx length l =>
    obtain ⟨R, hR, h⟩ := magnet_step p (e p) (B p) hx length (l p)
    refine ⟨p, R, hR, fun s => ?_⟩
    obtain ⟨h1, h2, h3⟩ := hb p s
    simp only [Step.track, h1, h2, h3, h]
  | legacy e x y hx length l B =>
    obtain ⟨R, hR, h⟩ := legacy_step p (e p) (x p) (y p) (B p) hx length (l p)
    refine ⟨p, R, hR, fun s => ?_⟩
    obtain ⟨h1, h2, h3, h4, h5⟩ := hb p s
    simp only [Step.track, h1, h2, h3, h4, h5, h]
  | rotS a =>
    refine ⟨sRot p (Real.sin a) (Real.cos a),
      fun s => ⟨Real.cos a * s.x + Real.sin a * s.y, -Real.sin a * s.x + Real.cos a * s.y, s.z⟩, ?_, fun s => ?_⟩
    · have h := Real.sin_sq_add_cos_sq a
      constructor
      · intro u v; ext <;> simp only [add] <;> ring
      · intro c u; ext <;> simp only [smul] <;> ring
      · intro u v; simp only [dot]; linear_combination (u.x * v.x + u.y * v.y) * h
      · intro u v
        ext <;> simp only [cross]
        · ring
        · ring
        · linear_combination (u.x * v.y - u.y * v.x) * h
    · simp only [Step.track, sRot, Option.some.injEq]
      split_ifs with h h' h'
      · rfl
      · rfl
      · obtain ⟨h1, h2⟩ := zero_of_not (a := s.x) (b := s.y) h; ext <;> simp [setSpin, h1, h2]
      · obtain ⟨h1, h2⟩ := zero_of_not (a := s.x) (b := s.y) h; ext <;> simp [setSpin, h1, h2]
  | rotX a =>
    refine ⟨xRot p (Real.sin a) (Real.cos a) (Real.tan a),
      fun s => ⟨s.x, Real.cos a * s.y + Real.sin a * s.z, -Real.sin a * s.y + Real.cos a * s.z⟩, ?_, fun s => ?_⟩
    · have h := Real.sin_sq_add_cos_sq a
      constructor
      · intro u v; ext <;> simp only [add] <;> ring
      · intro c u; ext <;> simp only [smul] <;> ring
      · intro u v; simp only [dot]; linear_combination (u.y * v.y + u.z * v.z) * h
      · intro u v
        ext <;> simp only [cross]
        · linear_combination (u.y * v.z - u.z * v.y) * h
        · ring
        · ring
    · simp only [Step.track, xRot, Option.some.injEq]
      split_ifs with h h' h'
      · rfl
      · rfl
      · obtain ⟨h1, h2⟩ := zero_of_not (a := s.y) (b := s.z) h; ext <;> simp [setSpin, h1, h2]
      · obtain ⟨h1, h2⟩ := zero_of_not (a := s.y) (b := s.z) h; ext <;> simp [setSpin, h1, h2]
  | rotY a =>
    refine ⟨yRot p (Real.sin a) (Real.cos a) (Real.tan a),
      fun s => ⟨Real.cos a * s.x - Real.sin a * s.z, s.y, Real.sin a * s.x + Real.cos a * s.z⟩, ?_, fun s => ?_⟩
    · have h := Real.sin_sq_add_cos_sq a
      constructor
      · intro u v; ext <;> simp only [add] <;> ring
      · intro c u; ext <;> simp only [smul] <;> ring
      · intro u v; simp only [dot]; linear_combination (u.x * v.x + u.z * v.z) * h
      · intro u v
        ext <;> simp only [cross]
        · ring
        · linear_combination (u.z * v.x - u.x * v.z) * h
        · ring
    · simp only [Step.track, yRot, Option.some.injEq]
      split_ifs with h h' h'
      · rfl
      · rfl
      · obtain ⟨h1, h2⟩ := zero_of_not (a := s.x) (b := s.z) h; ext <;> simp [setSpin, h1, h2]
      · obtain ⟨h1, h2⟩ := zero_of_not (a := s.x) (b := s.z) h; ext <;> simp [setSpin, h1, h2]
  | wedge a =>
    refine ⟨p, fun s => ⟨Real.cos a * s.x + Real.sin a * s.z, s.y, -Real.sin a * s.x + Real.cos a * s.z⟩, ?_, fun s => ?_⟩
    · have h := Real.sin_sq_add_cos_sq a
      constructor
      · intro u v; ext <;> simp only [add] <;> ring
      · intro c u; ext <;> simp only [smul] <;> ring
      · intro u v; simp only [dot]; linear_combination (u.x * v.x + u.z * v.z) * h
      · intro u v
        ext <;> simp only [cross]
        · ring
        · linear_combination (u.z * v.x - u.x * v.z) * h
        · ring
    · simp only [Step.track, wedgeSpin, Option.some.injEq]
      split_ifs with h
      · ext <;> simp [setSpin]
      · obtain ⟨h1, h2⟩ := zero_of_not (a := s.x) (b := s.z) h; ext <;> simp [setSpin, h1, h2]
  | other f => exact ⟨f p, fun s => s, rotation_id, fun s => by simp only [Step.track, hb p s]⟩

/-- **C108.**  On a given orbit the motion of the spin over any sequence of magnets, rotations of the frame and other
elements is one rotation, the same for all spins. -/
theorem C108_rotation (steps : List Step) (hb : ∀ st ∈ steps, st.Blind) (p : Part) :
    ∃ (q : Part) (R : V3 → V3), IsRotation R ∧ ∀ s, track steps (setSpin p s) = some (setSpin q (R s)) := by
  induction steps generalizing p with
  | nil => exact ⟨p, fun s => s, rotation_id, fun s => rfl⟩
  | cons st rest ih =>
    obtain ⟨q, R, hR, h⟩ := step_rotation st (hb st (by simp)) p
    obtain ⟨q', R', hR', h'⟩ := ih (fun st hst => hb st (by simp [hst])) q
    refine ⟨q', fun s => R' (R s), rotation_comp hR hR', fun s => ?_⟩
    simp only [track, h, Option.bind_some, h']

/-- **C108.**  The length of the spin is kept, and a particle without spin stays without. -/
theorem C108_length (steps : List Step) (hb : ∀ st ∈ steps, st.Blind) (p q : Part) (h : track steps p = some q) :
    dot (spinOf q) (spinOf q) = dot (spinOf p) (spinOf p) := by
  obtain ⟨q', R, hR, h'⟩ := C108_rotation steps hb p
  have h1 := h' (spinOf p)
  rw [setSpin_spinOf, h, Option.some.injEq] at h1
  rw [h1]
  exact hR.dot _ _

/-- A dipole, a drift and a rotation of the frame. -/
example : ∃ steps : List Step, steps.length = 3 ∧ ∀ st ∈ steps, st.Blind :=
  ⟨[.magnet (fun _ => ⟨0, 0, 10, 938272088, 1, 1.79, 1, 299792458⟩) (fun p => ⟨p.y, 1 + p.x, 0⟩) 0.1 1 (fun p => 1 - p.zeta),
    .other (fun p => driftExpanded p 2), .rotS 0.3], rfl, by
    intro st hst
    simp only [List.mem_cons, List.not_mem_nil, or_false] at hst
    rcases hst with rfl | rfl | rfl
    · intro p s; exact ⟨rfl, rfl, rfl⟩
    · intro p s; rfl
    · trivial⟩

/-! ## C109 -/

theorem quat_turn {n : V3} (hn : dot n n = 1) (phi : ℝ) (s : V3) :
    quat (Real.cos (phi / 2)) (n.x * Real.sin (phi / 2)) (n.y * Real.sin (phi / 2)) (n.z * Real.sin (phi / 2)) s
      = turn n phi s := by
  have hc : Real.cos phi = 2 * Real.cos (phi / 2) ^ 2 - 1 := by rw [← Real.cos_two_mul]; ring_nf
  have hs : Real.sin phi = 2 * Real.sin (phi / 2) * Real.cos (phi / 2) := by rw [← Real.sin_two_mul]; ring_nf
  have h := Real.sin_sq_add_cos_sq (phi / 2)
  set c := Real.cos (phi / 2)
  set d := Real.sin (phi / 2)
  have hd : d ^ 2 = 1 - c ^ 2 := by linarith
  unfold dot at hn
  ext <;> simp only [quat, turn, add, smul, cross, dot, hc, hs]
  · linear_combination (s.x * (n.x * n.x - n.y * n.y - n.z * n.z) + 2 * n.x * n.y * s.y + 2 * n.x * n.z * s.z) * hd
      - s.x * (1 - c ^ 2) * hn
  · linear_combination (s.y * (n.y * n.y - n.x * n.x - n.z * n.z) + 2 * n.x * n.y * s.x + 2 * n.y * n.z * s.z) * hd
      - s.y * (1 - c ^ 2) * hn
  · linear_combination (s.z * (n.z * n.z - n.x * n.x - n.y * n.y) + 2 * n.x * n.z * s.x + 2 * n.y * n.z * s.y) * hd
      - s.z * (1 - c ^ 2) * hn

theorem omega_thomas (G gamma brho : ℝ) (B v : V3) : omegaFrom G gamma brho B v = thomasBMT G gamma brho B v := by
  ext <;> simp only [omegaFrom, thomasBMT, par, perp, smul, add, dot] <;> ring

theorem direction_flat (p : Part) (e : Extra) (hx : e.ax = 0) (hy : e.ay = 0) (hpy : p.py = 0) :
    spinDirection p e = trueDirection p e := by
  ext
  · simp [spinDirection, direction, trueDirection, hx]
  · simp [spinDirection, direction, trueDirection, hy, hpy]
  · simp only [spinDirection, direction, trueDirection, hx, hy, hpy]
    congr 1; ring

/-- **C109, partial.**  A magnet turns the spin around the axis of the Thomas-BMT equation by the angle given by it and the
length of the path, in the frame in the middle of the magnet.  Missing: particles with a vertical (kinetic)
momentum, and the inside of solenoids (where ax, ay are not zero). -/
theorem C109_precession_partial (p : Part) (e : Extra) (B : V3) (hx length l : ℝ) (hax : e.ax = 0) (hay : e.ay = 0)
    (hpy : p.py = 0) (hs : spinOf p ≠ ⟨0, 0, 0⟩)
    (hth : 1 / 10 ^ 10 < mod (thomasBMT e.G (gamma p e) (brho p e) B (trueDirection p e))) :
    let w := thomasBMT e.G (gamma p e) (brho p e) B (trueDirection p e)
    magnetSpin p e B hx length l false = some (setSpin p
      (bendFrame hx length (turn (smul (1 / mod w) w) (mod w * l) (bendFrame hx length (spinOf p))))) := by
  intro w
  have hw : omega p e B = w := by
    unfold omega; rw [direction_flat p e hax hay hpy, omega_thomas]
  have hne : p.spinX ≠ 0 ∨ p.spinY ≠ 0 ∨ p.spinZ ≠ 0 := by
    by_contra h
    exact hs (spin_zero (s := spinOf p) h)
  unfold magnetSpin
  rw [if_pos hne, hw]
  simp only [Bool.false_eq_true, if_false]
  congr 3
  unfold precess
  rw [if_pos hth]
  have hpos : 0 < mod w := pos_of_threshold hth
  have hn : dot (smul (1 / mod w) w) (smul (1 / mod w) w) = 1 := by
    have := unit_sq hpos
    simp only [dot, smul]
    linear_combination this
  rw [← quat_turn hn]
  simp only [smul]
  congr 1 <;> ring

/-- **C109.**  Whatever the momentum, the axis and the angle are those of the Thomas-BMT equation with the direction which
the code calculates. -/
theorem C109_axis (p : Part) (e : Extra) (B : V3) :
    omega p e B = thomasBMT e.G (gamma p e) (brho p e) B (spinDirection p e) := omega_thomas _ _ _ _ _

/-! ### The design orbit -/

/-- One dipole on the design orbit: curvature, length. -/
abbrev Dip := ℝ × ℝ

/-- Spin after dipoles with the field of their curvature. -/
def designSpin (e : Extra) : List Dip → Part → Option Part
  | [], p => some p
  | (h, l) :: rest, p => (magnetSpin p e ⟨0, h * brho p e, 0⟩ h l l false).bind (designSpin e rest)

def totalAngle (ds : List Dip) : ℝ := (ds.map fun d => d.1 * d.2).sum

theorem precess_vertical (w l : ℝ) (hw : w = 0 ∨ 1 / 10 ^ 10 < |w|) (s : V3) :
    precess ⟨0, w, 0⟩ l s = rotXZ (Real.cos (w * l)) (Real.sin (w * l)) s := by
  have hm : mod ⟨0, w, 0⟩ = |w| := by
    unfold mod; simp only [mul_zero, zero_add, add_zero]; rw [Real.sqrt_mul_self_eq_abs]
  unfold precess
  rw [hm]
  rcases hw with rfl | hw
  · rw [if_neg (by rw [abs_zero]; norm_num)]
    simp [rotXZ]
  · rw [if_pos hw]
    have hpos : 0 < |w| := lt_trans (by positivity) hw
    have hn : dot ⟨0, w / |w|, 0⟩ ⟨0, w / |w|, 0⟩ = 1 := by
      simp only [dot, mul_zero, zero_add, add_zero]
      rw [div_mul_div_comm, abs_mul_abs_self, div_self]
      intro h0; rw [mul_self_eq_zero] at h0; rw [h0] at hpos; simp at hpos
    have h := quat_turn hn (|w| * l) s
    simp only [zero_div, zero_mul] at h ⊢
    rw [h]
    have hs : w / |w| * Real.sin (|w| * l) = Real.sin (w * l) := by
      rcases abs_cases w with ⟨h1, h2⟩ | ⟨h1, h2⟩
      · rw [h1]; rw [h1] at hpos; rw [div_self hpos.ne', one_mul]
      · rw [h1, div_neg, div_self h2.ne, neg_mul w l, Real.sin_neg]; ring
    have hc : Real.cos (|w| * l) = Real.cos (w * l) := by
      rcases abs_cases w with ⟨h1, h2⟩ | ⟨h1, h2⟩
      · rw [h1]
      · rw [h1, neg_mul, Real.cos_neg]
    have hq : w / |w| * (w / |w|) = 1 := by simpa [dot] using hn
    ext <;> simp only [turn, add, smul, cross, dot, rotXZ]
    · rw [← hs, hc]; ring
    · linear_combination (1 - Real.cos (|w| * l)) * s.y * hq
    · rw [← hs, hc]; ring

theorem rotXZ_comp (a b : ℝ) (s : V3) :
    rotXZ (Real.cos a) (Real.sin a) (rotXZ (Real.cos b) (Real.sin b) s) = rotXZ (Real.cos (a + b)) (Real.sin (a + b)) s := by
  ext <;> simp only [rotXZ, Real.cos_add, Real.sin_add] <;> ring

theorem omega_design (p : Part) (e : Extra) (h : ℝ) (hax : e.ax = 0) (hay : e.ay = 0) (hpx : p.px = 0) (hpy : p.py = 0)
    (hb : brho p e ≠ 0) :
    omega p e ⟨0, h * brho p e, 0⟩ = ⟨0, -((1 + e.G * gamma p e) * h), 0⟩ := by
  ext <;> simp only [omega, omegaFrom, spinDirection, direction, par, perp, hax, hay, hpx, hpy] <;> field_simp <;> ring

/-- **C109.**  On the design orbit of a line of dipoles the spin turns, relative to the orbit, around the vertical axis by
`G gamma` times the angle of bending; the vertical component stays.  (In dipoles so weak that the code neglects the
precession nothing is claimed.) -/
theorem C109_spin_tune (e : Extra) (ds : List Dip) (p : Part) (hax : e.ax = 0) (hay : e.ay = 0) (hpx : p.px = 0)
    (hpy : p.py = 0) (hb : brho p e ≠ 0)
    (hth : ∀ d ∈ ds, (1 + e.G * gamma p e) * d.1 = 0 ∨ 1 / 10 ^ 10 < |(1 + e.G * gamma p e) * d.1|) :
    let a := e.G * gamma p e * totalAngle ds
    designSpin e ds p = some (setSpin p ⟨p.spinX * Real.cos a - p.spinZ * Real.sin a, p.spinY,
      p.spinX * Real.sin a + p.spinZ * Real.cos a⟩) := by
  have key : ∀ (ds : List Dip) (s : V3),
      (∀ d ∈ ds, (1 + e.G * gamma p e) * d.1 = 0 ∨ 1 / 10 ^ 10 < |(1 + e.G * gamma p e) * d.1|) →
      designSpin e ds (setSpin p s) = some (setSpin p
        (rotXZ (Real.cos (-(e.G * gamma p e * totalAngle ds))) (Real.sin (-(e.G * gamma p e * totalAngle ds))) s)) := by
    intro ds
    induction ds with
    | nil => intro s _; simp [designSpin, totalAngle, rotXZ]
    | cons d rest ih =>
      intro s hd
      obtain ⟨h, l⟩ := d
      have h1 : magnetSpin (setSpin p s) e ⟨0, h * brho p e, 0⟩ h l l false
          = some (setSpin p (rotXZ (Real.cos (-(e.G * gamma p e * (h * l)))) (Real.sin (-(e.G * gamma p e * (h * l)))) s)) := by
        have hR : ∀ s : V3, bendFrame h l (precess (omega p e ⟨0, h * brho p e, 0⟩) l (bendFrame h l s))
            = rotXZ (Real.cos (-(e.G * gamma p e * (h * l)))) (Real.sin (-(e.G * gamma p e * (h * l)))) s := by
          intro s
          have hw := hd (h, l) (by simp)
          rw [omega_design p e h hax hay hpx hpy hb, precess_vertical _ _ (by
            rcases hw with h0 | h0
            · left; simp only at h0; rw [h0]; simp
            · right; rw [abs_neg]; exact h0), bendFrame_eq, rotXZ_comp, rotXZ_comp]
          congr 2 <;> ring
        unfold magnetSpin
        by_cases hs : (setSpin p s).spinX ≠ 0 ∨ (setSpin p s).spinY ≠ 0 ∨ (setSpin p s).spinZ ≠ 0
        · rw [if_pos hs]
          simp only [Bool.false_eq_true, if_false, omega_setSpin]
          rw [← hR s]; rfl
        · rw [if_neg hs]
          have := spin_zero (s := s) hs
          subst this
          simp [rotXZ, setSpin]
      have hbr : brho (setSpin p s) e = brho p e := rfl
      simp only [designSpin, hbr, h1, Option.bind_some]
      rw [ih _ (fun d hd' => hd d (by simp [hd'])), rotXZ_comp]
      have hsum : -(e.G * gamma p e * totalAngle rest) + -(e.G * gamma p e * (h * l))
          = -(e.G * gamma p e * totalAngle ((h, l) :: rest)) := by
        simp only [totalAngle, List.map_cons, List.sum_cons]; ring
      rw [hsum]
  intro a
  have := key ds (spinOf p) hth
  rw [setSpin_spinOf] at this
  rw [this]
  congr 2
  ext <;> simp only [rotXZ, spinOf, Real.cos_neg, Real.sin_neg, a] <;> ring

/-! ### Violations -/

/-- **C109, violation.**  The third component of the direction of motion has the wrong sign in front of py²: a vector of
length one only if py is zero. -/
theorem C109_unit_violated (px py delta : ℝ) (hd : 0 < 1 + delta) (hx : px ^ 2 ≤ (1 + delta) ^ 2) (hpy : py ≠ 0) :
    dot (direction px py delta) (direction px py delta) = 1 + 2 * (py / (1 + delta)) ^ 2
      ∧ dot (direction px py delta) (direction px py delta) ≠ 1 := by
  have h0 : 0 ≤ 1 - px / (1 + delta) * (px / (1 + delta)) + py / (1 + delta) * (py / (1 + delta)) := by
    have : px / (1 + delta) * (px / (1 + delta)) ≤ 1 := by
      rw [div_mul_div_comm, div_le_one (by positivity)]; nlinarith
    nlinarith [mul_self_nonneg (py / (1 + delta))]
  have h1 : dot (direction px py delta) (direction px py delta) = 1 + 2 * (py / (1 + delta)) ^ 2 := by
    simp only [dot, direction]
    rw [Real.mul_self_sqrt h0]; ring
  refine ⟨h1, ?_⟩
  rw [h1]
  have : 0 < (py / (1 + delta)) ^ 2 := by
    have : py / (1 + delta) ≠ 0 := div_ne_zero hpy hd.ne'
    positivity
  intro h; linarith

/-- **C109, violation.**  So a field along the motion, in which the spin precesses by `1 + G` whatever the energy, turns the
spin of a particle with vertical momentum around an axis which is not along the field. -/
theorem C109_parallel_violated : ∃ (p : Part) (e : Extra) (B : V3), p.Kin ∧ e.ax = 0 ∧ e.ay = 0 ∧ brho p e = 1
    ∧ B = smul 4 (trueDirection p e)
    ∧ thomasBMT e.G (gamma p e) (brho p e) B (trueDirection p e) = smul (-(1 + e.G)) B
    ∧ cross (omega p e B) B ≠ ⟨0, 0, 0⟩ := by
  have h7 : Real.sqrt 7 * Real.sqrt 7 = 7 := Real.mul_self_sqrt (by norm_num)
  have h7p : 0 ≤ Real.sqrt 7 := Real.sqrt_nonneg 7
  let p : Part := ⟨0, 0, 0, 3 / 4, 0, 0, 0, 0, 1, 1, 3 / 5, 1, 1, 0, 0⟩
  let e : Extra := ⟨0, 0, 5 / 4, 4 / 3, 1, 1, 1, 1⟩
  have hb : brho p e = 1 := by norm_num [brho, gamma, p, e]
  have hg : gamma p e = 5 / 4 := by norm_num [gamma, p, e]
  have ht : trueDirection p e = ⟨0, 3 / 4, Real.sqrt 7 / 4⟩ := by
    ext
    · norm_num [trueDirection, p, e]
    · norm_num [trueDirection, p, e]
    · simp only [trueDirection, p, e]
      rw [Real.sqrt_eq_iff_mul_self_eq (by norm_num) (by positivity)]
      nlinarith
  have hd : spinDirection p e = ⟨0, 3 / 4, 5 / 4⟩ := by
    ext
    · norm_num [spinDirection, direction, p, e]
    · norm_num [spinDirection, direction, p, e]
    · simp only [spinDirection, direction, p, e]
      rw [Real.sqrt_eq_iff_mul_self_eq (by norm_num) (by norm_num)]
      norm_num
  refine ⟨p, e, smul 4 (trueDirection p e), ?_, rfl, rfl, hb, rfl, ?_, ?_⟩
  · constructor <;> norm_num [p]
  · rw [hb, hg, ht]
    ext <;> simp only [thomasBMT, smul, add, dot, e]
    · ring
    · ring_nf
      nlinarith
    · ring_nf
      nlinarith
  · unfold omega
    rw [hb, hg, ht, hd]
    intro h0
    have h1 := congrArg V3.x h0
    simp only [cross, omegaFrom, perp, par, smul, e] at h1
    have h2 : (9 + 5 * Real.sqrt 7) * (Real.sqrt 7 - 5) = 0 := by
      ring_nf at h1 ⊢
      linarith
    rcases mul_eq_zero.mp h2 with h3 | h3
    · nlinarith
    · nlinarith

/-- **C109, violation.**  In a solenoid the kinetic momentum is px - ax, but the spin uses px + ax. -/
theorem C109_canonical_violated (p : Part) (e : Extra) (h : e.ax ≠ 0) (hd : 1 + p.delta ≠ 0) :
    (spinDirection p e).x ≠ (trueDirection p e).x := by
  simp only [spinDirection, direction, trueDirection]
  intro h0
  rw [div_left_inj' hd] at h0
  apply h; linarith

/-- A particle on the design orbit with spin, and a dipole, to which `C109_precession_partial` and `C109_spin_tune` apply. -/
example : ∃ (p : Part) (e : Extra), e.ax = 0 ∧ e.ay = 0 ∧ p.px = 0 ∧ p.py = 0 ∧ spinOf p ≠ ⟨0, 0, 0⟩ ∧ brho p e = 1
    ∧ 1 / 10 ^ 10 < |(1 + e.G * gamma p e) * 1|
    ∧ 1 / 10 ^ 10 < mod (thomasBMT e.G (gamma p e) (brho p e) ⟨0, 1, 0⟩ (trueDirection p e)) := by
  refine ⟨⟨0, 0, 0, 0, 0, 0, 0, 0, 1, 1, 3 / 5, 1, 1, 0, 0⟩, ⟨0, 0, 5 / 4, 4 / 3, 1, 1, 1, 1⟩, rfl, rfl, rfl, rfl, ?_, ?_, ?_, ?_⟩
  · intro h
    have := congrArg V3.x h
    norm_num [spinOf] at this
  · norm_num [brho, gamma]
  · norm_num [gamma]
  · have h : thomasBMT 1 (5 / 4) 1 ⟨0, 1, 0⟩ ⟨0, 0, 1⟩ = ⟨0, -(9 / 4), 0⟩ := by
      ext <;> norm_num [thomasBMT, add, smul, dot]
    have hm : mod ⟨0, -(9 / 4), 0⟩ = 9 / 4 := by
      have e : (0 : ℝ) * 0 + -(9 / 4) * -(9 / 4) + 0 * 0 = (9 / 4) ^ 2 := by norm_num
      simp only [mod]
      rw [e, Real.sqrt_sq (by norm_num)]
    have hg : gamma ⟨0, 0, 0, 0, 0, 0, 0, 0, 1, 1, 3 / 5, 1, 1, 0, 0⟩ ⟨0, 0, 5 / 4, 4 / 3, 1, 1, 1, 1⟩ = 5 / 4 := by norm_num [gamma]
    have hb : brho ⟨0, 0, 0, 0, 0, 0, 0, 0, 1, 1, 3 / 5, 1, 1, 0, 0⟩ ⟨0, 0, 5 / 4, 4 / 3, 1, 1, 1, 1⟩ = 1 := by
      norm_num [brho, gamma]
    have ht : trueDirection ⟨0, 0, 0, 0, 0, 0, 0, 0, 1, 1, 3 / 5, 1, 1, 0, 0⟩ ⟨0, 0, 5 / 4, 4 / 3, 1, 1, 1, 1⟩ = ⟨0, 0, 1⟩ := by
      ext <;> norm_num [trueDirection]
    rw [hg, hb, ht, h, hm]
    norm_num

end

end Verif.Spin
