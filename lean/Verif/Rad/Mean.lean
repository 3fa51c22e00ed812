import Verif.Rad.Spec
import Verif.Spin.Spec
import Mathlib.Analysis.SpecialFunctions.Pow.Real
import Mathlib.Tactic.FieldSimp
import Mathlib.Tactic.LinearCombination
import Mathlib.Tactic.Positivity

/-! # C110: mean radiation; C113: the same kick for all particles -/

namespace Verif.Rad

noncomputable section

/-- All reference quantities positive (the charge not zero). -/
structure Ref.Ok (r : Ref) : Prop where
  gamma0 : 0 < r.gamma0
  beta0 : 0 < r.beta0
  mass0 : 0 < r.mass0
  q0 : r.q0 ≠ 0
  qelem : 0 < r.qelem
  clight : 0 < r.clight
  eps0 : 0 < r.eps0

theorem Ref.Ok.coulomb {r : Ref} (h : r.Ok) : 0 < coulomb r := mul_pos (abs_pos.mpr h.q0) h.qelem

theorem Ref.Ok.massKg {r : Ref} (h : r.Ok) : 0 < massKg r :=
  mul_pos (div_pos (div_pos h.mass0 h.clight) h.clight) h.qelem

theorem Ref.Ok.r0 {r : Ref} (h : r.Ok) : 0 < r0 r := by
  have := h.coulomb; have := h.massKg; have := h.eps0; have := h.clight; have := Real.pi_pos
  unfold Rad.r0; positivity

/-- **C110.**  The mean energy loss is the classical one: `2/3 r_0 m c^2 gamma^4 l / rho^2`, with the radius of curvature in
the field for a particle with the velocity of light. -/
theorem C110_power (r : Ref) (h : r.Ok) (delta B l : ℝ) (hd : 0 < 1 + delta) (hB : B ≠ 0) :
    let g := r.gamma0 * (1 + delta)
    meanLoss r delta B l * r.qelem
      = classicalLoss (r0 r) (massKg r * r.clight ^ 2) g (massKg r * g * r.clight / (coulomb r * B)) l := by
  intro g
  have hq := h.coulomb.ne'; have hm := h.massKg.ne'; have hc := h.clight.ne'; have hqe := h.qelem.ne'
  have hg : g ≠ 0 := (mul_pos h.gamma0 hd).ne'
  unfold meanLoss power classicalLoss
  simp only
  change 2 * r0 r * r.clight * coulomb r * coulomb r * g * g * B * B / (3 * massKg r) * l / r.clight / r.qelem * r.qelem = _
  field_simp

theorem scale_direction (f : ℝ) (m : Mom) (hf : f ≠ 0) : direction (scale f m) = direction m := by
  unfold direction scale
  have e : 1 + ((m.delta + 1) * f - 1) = f * (1 + m.delta) := by ring
  simp only [e]
  ext
  · simp only; rw [mul_comm m.px f, mul_div_mul_left _ _ hf]
  · simp only; rw [mul_comm m.py f, mul_div_mul_left _ _ hf]

theorem meanLoss_pos {r : Ref} (h : r.Ok) {delta B l : ℝ} (hd : 0 < 1 + delta) (hB : B ≠ 0) (hl : 0 < l) :
    0 < meanLoss r delta B l := by
  have := h.coulomb; have := h.massKg; have := h.clight; have := h.r0; have := h.qelem; have := h.gamma0
  have hB2 : 0 < B * B := mul_self_pos.mpr hB
  unfold meanLoss power
  simp only
  have e : 2 * r0 r * r.clight * coulomb r * coulomb r * (r.gamma0 * (1 + delta)) * (r.gamma0 * (1 + delta)) * B * B
    = 2 * r0 r * r.clight * coulomb r * coulomb r * (r.gamma0 * (1 + delta)) * (r.gamma0 * (1 + delta)) * (B * B) := by ring
  rw [e]
  positivity

/-- **C110.**  In a field the particle loses momentum and keeps the direction of motion, without field nothing happens; the
momentum stays positive if the loss is less than the energy. -/
theorem C110_loss (r : Ref) (h : r.Ok) (B l : ℝ) (m : Mom) (hd : 0 < 1 + m.delta) (hl : 0 < l) :
    (B = 0 → averageKick r B l m = m)
    ∧ (B ≠ 0 → (averageKick r B l m).delta < m.delta)
    ∧ (meanLoss r m.delta B l < r.gamma0 * r.mass0 * (1 + m.delta) →
        0 < 1 + (averageKick r B l m).delta ∧ direction (averageKick r B l m) = direction m) := by
  have hE : 0 < r.gamma0 * r.mass0 * (1 + m.delta) := mul_pos (mul_pos h.gamma0 h.mass0) hd
  refine ⟨?_, ?_, ?_⟩
  · rintro rfl
    have : meanFactor r m.delta 0 l = 1 := by simp [meanFactor, meanLoss, power]
    unfold averageKick
    rw [this]
    ext <;> simp [scale]
  · intro hB
    have h1 : 0 < meanLoss r m.delta B l / (r.gamma0 * r.mass0 * (1 + m.delta)) := div_pos (meanLoss_pos h hd hB hl) hE
    simp only [averageKick, scale, meanFactor]
    nlinarith
  · intro hlt
    have h1 : meanLoss r m.delta B l / (r.gamma0 * r.mass0 * (1 + m.delta)) < 1 := (div_lt_one hE).mpr hlt
    have hf : 0 < meanFactor r m.delta B l := by unfold meanFactor; linarith
    refine ⟨?_, scale_direction _ _ hf.ne'⟩
    simp only [averageKick, scale]
    have : 0 < (m.delta + 1) * meanFactor r m.delta B l := mul_pos (by linarith) hf
    linarith

/-- **C110.**  In a solenoid it is the kinetic momentum whose direction is kept. -/
theorem C110_kinetic (ax ay f : ℝ) (m : Mom) (hf : f ≠ 0) :
    let m' := inPotential ax ay (scale f) m
    direction ⟨m'.delta, m'.px - ax, m'.py - ay⟩ = direction ⟨m.delta, m.px - ax, m.py - ay⟩ := by
  intro m'
  have := scale_direction f ⟨m.delta, m.px - ax, m.py - ay⟩ hf
  rw [← this]
  simp [m', inPotential]

/-- All numbers one. -/
def unitRef : Ref := ⟨1, 1, 1, 1, 1, 1, 1⟩

theorem unitRef_ok : unitRef.Ok := by constructor <;> norm_num [unitRef]

/-- A case with a loss less than the energy. -/
example : meanLoss unitRef 0 1 1 < unitRef.gamma0 * unitRef.mass0 * (1 + 0) := by
  have hpi := Real.two_le_pi
  have e : meanLoss unitRef 0 1 1 = 1 / (6 * Real.pi) := by
    simp only [meanLoss, power, r0, coulomb, massKg, unitRef]
    have := Real.pi_pos.ne'
    norm_num
    field_simp
    norm_num
  rw [e, div_lt_iff₀ (by positivity)]
  norm_num [unitRef]
  linarith

/-- **C110, violation.**  If the mean loss is more than the energy, the momentum becomes negative and the particle is tracked
on (there is no check as there is for photons). -/
theorem C110_all_energy_violated (r : Ref) (h : r.Ok) (B : ℝ) (m : Mom) (hd : 0 < 1 + m.delta) (hB : B ≠ 0) :
    ∃ l > 0, 1 + (averageKick r B l m).delta < 0 := by
  have hE : 0 < r.gamma0 * r.mass0 * (1 + m.delta) := mul_pos (mul_pos h.gamma0 h.mass0) hd
  have h1 := meanLoss_pos h hd hB one_pos
  refine ⟨2 * (r.gamma0 * r.mass0 * (1 + m.delta)) / meanLoss r m.delta B 1, by positivity, ?_⟩
  have e : meanLoss r m.delta B (2 * (r.gamma0 * r.mass0 * (1 + m.delta)) / meanLoss r m.delta B 1)
      = 2 * (r.gamma0 * r.mass0 * (1 + m.delta)) := by
    have : ∀ l, meanLoss r m.delta B l = meanLoss r m.delta B 1 * l := by intro l; unfold meanLoss; ring
    rw [this, mul_div_cancel₀ _ h1.ne']
  simp only [averageKick, scale, meanFactor, e]
  rw [mul_div_assoc, div_self hE.ne']
  linarith

/-- **C110, violation.**  The field perpendicular to the motion is calculated wrongly for particles with vertical momentum:
in a vertical field the square of it is too large by `2 B^2 (py / (1 + delta))^4`. -/
theorem C110_field_violated (py delta By : ℝ) (hd : 0 < 1 + delta) (hpy : py ≠ 0) (hB : By ≠ 0) :
    let b := py / (1 + delta)
    Spin.bPerpMod 0 py delta ⟨0, By, 0⟩ ^ 2 = By ^ 2 * (1 - b ^ 2) + 2 * By ^ 2 * b ^ 4
      ∧ Spin.bPerpMod 0 py delta ⟨0, By, 0⟩ ^ 2 > By ^ 2 * (1 - b ^ 2) := by
  intro b
  have hs : Real.sqrt (1 - 0 / (1 + delta) * (0 / (1 + delta)) + b * b) * Real.sqrt (1 - 0 / (1 + delta) * (0 / (1 + delta)) + b * b)
      = 1 + b * b := by
    rw [Real.mul_self_sqrt (by rw [zero_div]; nlinarith [mul_self_nonneg b]), zero_div]; ring
  have h1 : Spin.bPerpMod 0 py delta ⟨0, By, 0⟩ ^ 2 = By ^ 2 * (1 - b ^ 2) + 2 * By ^ 2 * b ^ 4 := by
    unfold Spin.bPerpMod
    simp only
    rw [Real.sq_sqrt (add_nonneg (add_nonneg (mul_self_nonneg _) (mul_self_nonneg _)) (mul_self_nonneg _))]
    simp only [Spin.perp, Spin.par, Spin.direction]
    change (_ : ℝ) * _ + (By - (0 * (0 / (1 + delta)) + By * b + 0 * _) * b) * _ + (0 - (0 * (0 / (1 + delta)) + By * b + 0 * _) * _) * _ = _
    rw [zero_div] at hs ⊢
    linear_combination By ^ 2 * b ^ 2 * hs
  refine ⟨h1, ?_⟩
  rw [h1]
  have hb : b ≠ 0 := div_ne_zero hpy hd.ne'
  have : 0 < 2 * By ^ 2 * b ^ 4 := by positivity
  linarith

/-- **C110.**  For particles without vertical momentum the field is the part perpendicular to the motion. -/
theorem C110_field_partial (px delta : ℝ) (hd : 0 < 1 + delta) (hpx : px ^ 2 ≤ (1 + delta) ^ 2) (B : Spin.V3) :
    let v := Spin.direction px 0 delta
    Spin.dot v v = 1 ∧ Spin.bPerpMod px 0 delta B ^ 2 = Spin.dot B B - Spin.dot B v ^ 2 := by
  intro v
  have h0 : 0 ≤ 1 - px / (1 + delta) * (px / (1 + delta)) + 0 / (1 + delta) * (0 / (1 + delta)) := by
    have : px / (1 + delta) * (px / (1 + delta)) ≤ 1 := by
      rw [div_mul_div_comm, div_le_one (by positivity)]; nlinarith
    rw [zero_div]; linarith
  have hv : Spin.dot v v = 1 := by
    simp only [v, Spin.dot, Spin.direction]
    rw [Real.mul_self_sqrt h0, zero_div]; ring
  refine ⟨hv, ?_⟩
  unfold Spin.bPerpMod
  simp only
  rw [Real.sq_sqrt (add_nonneg (add_nonneg (mul_self_nonneg _) (mul_self_nonneg _)) (mul_self_nonneg _))]
  change (B.x - Spin.dot B v * v.x) * (B.x - Spin.dot B v * v.x) + (B.y - Spin.dot B v * v.y) * (B.y - Spin.dot B v * v.y)
    + (B.z - Spin.dot B v * v.z) * (B.z - Spin.dot B v * v.z) = _
  have e : Spin.dot B v = B.x * v.x + B.y * v.y + B.z * v.z := rfl
  have e2 : Spin.dot B B = B.x * B.x + B.y * B.y + B.z * B.z := rfl
  have e3 : v.x * v.x + v.y * v.y + v.z * v.z = 1 := hv
  rw [e, e2]
  linear_combination (B.x * v.x + B.y * v.y + B.z * v.z) ^ 2 * e3

/-! ## C113 -/

variable {σ : Type}

/-- **C113, partial.**  With the flag used by twiss (`radiation_method="kick_as_co"`) every particle gets in a magnet with one
step of radiation the kick of the first one, whatever its coordinates.  Missing: magnets with several steps. -/
theorem C113_same_partial (r : Ref) (st : RadStep σ) (hl : st.Lawful) (rec0 : Record) (q0 : σ) (qs : List σ) :
    ∃ q0' qs', allParticles r [st] rec0 (q0 :: qs) = q0' :: qs' ∧ qs'.length = qs.length
      ∧ ∀ i (h : i < qs.length) (h' : i < qs'.length),
        (st.mom qs'[i]).sub (st.mom (st.move qs[i])) = (st.mom q0').sub (st.mom (st.move q0)) := by
  refine ⟨_, _, rfl, by simp, ?_⟩
  intro i h h'
  simp only [body, List.getElem_map, sameAsFirst, if_true, Bool.false_eq_true, if_false]
  rw [hl, hl]
  ext <;> simp [Mom.sub, scale]

theorem body_false_record (r : Ref) (steps : List (RadStep σ)) (q : σ) (rec : Record) :
    (body r false steps (q, rec)).2 = rec := by
  induction steps generalizing q with
  | nil => rfl
  | cons st rest ih =>
    simp only [body, sameAsFirst, Bool.false_eq_true, if_false]
    exact ih _

/-- **C113, violation.**  With several steps the record holds the kick of the last one only, which the other particles then get
in every step: two equal particles in a magnet, where the first step has a field and the second has none, are
different after it. -/
theorem C113_steps_violated : ∃ (steps : List (RadStep Mom)) (q : Mom), (∀ st ∈ steps, st.Lawful)
    ∧ ∀ rec0, ∃ a b, allParticles unitRef steps rec0 [q, q] = [a, b] ∧ a ≠ b := by
  refine ⟨[⟨fun q => q, fun _ => 1, fun _ => 1, fun q => q, fun _ m => m⟩,
    ⟨fun q => q, fun _ => 0, fun _ => 1, fun q => q, fun _ m => m⟩], ⟨0, 0, 0⟩, ?_, ?_⟩
  · intro st hst
    simp only [List.mem_cons, List.not_mem_nil, or_false] at hst
    rcases hst with rfl | rfl <;> intro q m <;> rfl
  · intro rec0
    refine ⟨_, _, rfl, ?_⟩
    intro h
    have h1 := congrArg Mom.delta h
    have hlt := (C110_loss unitRef unitRef_ok 1 1 ⟨0, 0, 0⟩ (by norm_num) one_pos).2.1 one_ne_zero
    simp only [body, sameAsFirst, if_true, Bool.false_eq_true, if_false] at h1
    have hz : ∀ m : Mom, averageKick unitRef 0 1 m = m := by
      intro m
      have : meanFactor unitRef m.delta 0 1 = 1 := by simp [meanFactor, meanLoss, power]
      unfold averageKick
      rw [this]
      ext <;> simp [scale]
    simp only [hz, sub_self, scale] at h1
    norm_num at h1
    rw [h1] at hlt
    simp at hlt

end

end Verif.Rad
