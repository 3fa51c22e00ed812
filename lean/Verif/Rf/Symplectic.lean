import Verif.Rf.Model
import Verif.Symplectic.Frame

/-!
# RF elements are symplectic, and when
-/

namespace Verif.Rf

open Frames hiding curvature
open Magnets Symplectic Filter Topology

noncomputable section

/-! ### Kicks which depend on time -/

/-- A kick which derives from a potential of `x`, `y` and `zeta`. -/
theorem canonical_kick3 {A B C : Z → ℝ} {z : Z} (hA : DifferentiableAt ℝ A z) (hB : DifferentiableAt ℝ B z) (hC : DifferentiableAt ℝ C z)
    (a b c d e g : ℝ) (dA : ∀ u : Z, HasDerivAt (fun t : ℝ => A (z + t • u)) (a * u 0 + b * u 2 + c * u 4) 0)
    (dB : ∀ u : Z, HasDerivAt (fun t : ℝ => B (z + t • u)) (b * u 0 + d * u 2 + e * u 4) 0)
    (dC : ∀ u : Z, HasDerivAt (fun t : ℝ => C (z + t • u)) (c * u 0 + e * u 2 + g * u 4) 0) :
    Canonical (fun z => ![z 0, z 1 + A z, z 2, z 3 + B z, z 4, z 5 + C z]) z := by
  refine canonical_of_lines ?_ (fun u => ![u 0, u 1 + (a * u 0 + b * u 2 + c * u 4), u 2, u 3 + (b * u 0 + d * u 2 + e * u 4),
    u 4, u 5 + (c * u 0 + e * u 2 + g * u 4)]) ?_ ?_
  · rw [differentiableAt_pi]
    intro i
    fin_cases i <;> simp <;> fun_prop
  · intro u i
    have l := line z u
    fin_cases i <;> simp only [Pi.add_apply, Pi.smul_apply, smul_eq_mul] <;>
      first | exact l 0 | exact (l 1).add (dA u) | exact l 2 | exact (l 3).add (dB u) | exact l 4 | exact (l 5).add (dC u)
  · intro v w
    simp only [omega, Matrix.cons_val]
    ring

/-- The element acts on the energy only. -/
def TransverseFree (a : RfArgs) : Prop := a.transverseVoltage = 0 ∧ ∀ k : ℕ, (k : ℤ) ≤ a.order → a.knl k = 0 ∧ a.ksl k = 0

/-- The strengths of RF multipoles above the dipole vanish. -/
def DipoleOnly (a : RfArgs) : Prop := ∀ k : ℕ, 1 ≤ k → (k : ℤ) ≤ a.order → a.knl k = 0 ∧ a.ksl k = 0

/-- The strengths of the dipole; 0 if there are none. -/
def bn (a : RfArgs) : ℝ := if a.order ≥ 0 then a.factor * a.knl 0 else 0
@[inherit_doc bn]
def bs (a : RfArgs) : ℝ := if a.order ≥ 0 then a.factor * a.ksl 0 else 0

theorem rfSum_succ (a : RfArgs) (f w x y : ℝ) (n : ℕ) : rfSum a f w x y (n + 1) = rfStep a f w x y (rfSum a f w x y n) n := by
  simp [rfSum, List.range_succ]

theorem rfSum_dipole (a : RfArgs) (f w x y : ℝ) : ∀ n : ℕ, (∀ k : ℕ, 1 ≤ k → k ≤ n → a.knl k = 0 ∧ a.ksl k = 0) →
    (rfSum a f w x y (n + 1)).dpx = Real.cos (f + deg2rad * a.pn 0 + a.phaseN 0 - w) * (a.factor * a.knl 0)
    ∧ (rfSum a f w x y (n + 1)).dpy = Real.cos (f + deg2rad * a.ps 0 + a.phaseS 0 - w) * (a.factor * a.ksl 0)
    ∧ (rfSum a f w x y (n + 1)).dptr = Real.sin (f + deg2rad * a.pn 0 + a.phaseN 0 - w) * (a.factor * a.knl 0 * x)
      - Real.sin (f + deg2rad * a.ps 0 + a.phaseS 0 - w) * (a.factor * a.ksl 0 * y)
  | 0, _ => by simp [rfSum, rfStep]
  | n + 1, h => by
    obtain ⟨h1, h2, h3⟩ := rfSum_dipole a f w x y n fun k hk hn => h k hk (by omega)
    obtain ⟨e1, e2⟩ := h (n + 1) (by omega) le_rfl
    rw [rfSum_succ]
    simp only [rfStep, e1, e2, h1, h2, h3]
    simp

/-- The phases. -/
def phN (c : Ctx) (a : RfArgs) (b : ℝ) : ℝ := phase0Of c a b + deg2rad * a.pn 0 + a.phaseN 0
@[inherit_doc phN]
def phS (c : Ctx) (a : RfArgs) (b : ℝ) : ℝ := phase0Of c a b + deg2rad * a.ps 0 + a.phaseS 0
@[inherit_doc phN]
def phT (c : Ctx) (a : RfArgs) (b : ℝ) : ℝ := phase0Of c a b + deg2rad * (a.transverseLag + 90) + a.transversePhase
@[inherit_doc phN]
def phV (c : Ctx) (a : RfArgs) (b : ℝ) : ℝ := phase0Of c a b + deg2rad * a.lag + a.phase

/-- The wave number in `zeta`. -/
def kap (c : Ctx) (a : RfArgs) (b : ℝ) : ℝ := 2 * Real.pi / clight * frequencyOf c a b / b

/-- The kicks as functions of the coordinates. -/
def kickA (c : Ctx) (a : RfArgs) (b chi : ℝ) (z : Z) : ℝ :=
  -(chi * (Real.cos (phN c a b - kap c a b * z 4) * bn a + Real.cos (phT c a b - kap c a b * z 4) * (a.transverseVoltage / c.p0c)))
@[inherit_doc kickA]
def kickB (c : Ctx) (a : RfArgs) (b chi : ℝ) (z : Z) : ℝ := chi * (Real.cos (phS c a b - kap c a b * z 4) * bs a)
@[inherit_doc kickA]
def kickC (c : Ctx) (a : RfArgs) (b chi : ℝ) (z : Z) : ℝ :=
  if a.kill then 0 else
    |c.q0| * chi / b * (a.voltage / c.p0c) * Real.sin (phV c a b - kap c a b * z 4)
      - |c.q0| * chi * kap c a b * (Real.sin (phN c a b - kap c a b * z 4) * (bn a * z 0)
        - Real.sin (phS c a b - kap c a b * z 4) * (bs a * z 2)
        + Real.sin (phT c a b - kap c a b * z 4) * (a.transverseVoltage / c.p0c * z 0))

theorem coords_rfKick {c : Ctx} {a : RfArgs} {p : Part} (hp : c.p0c ≠ 0) (hr : c.chargeRatio ≠ 0) (hb : p.beta0 ≠ 0) (dip : DipoleOnly a) :
    coords (rfKick c a p) = ![p.x, p.px + kickA c a p.beta0 p.chi (coords p), p.y, p.py + kickB c a p.beta0 p.chi (coords p), p.zeta,
      p.ptau / p.beta0 + kickC c a p.beta0 p.chi (coords p)] := by
  have hq : ∀ E, |c.q0| * c.chargeRatio * E / c.p0c / (c.chargeRatio / p.chi) = |c.q0| * p.chi * (E / c.p0c) := by
    intro E
    by_cases h : p.chi = 0
    · simp [h]
    · field_simp
  have hw : kap c a p.beta0 * p.zeta = 2 * Real.pi / clight * frequencyOf c a p.beta0 * (p.zeta / p.beta0) := by
    unfold kap
    ring
  have hsum : a.order ≥ 0 → ∀ f w x y, (rfSum a f w x y (a.order + 1).toNat).dpx
        = Real.cos (f + deg2rad * a.pn 0 + a.phaseN 0 - w) * (a.factor * a.knl 0)
      ∧ (rfSum a f w x y (a.order + 1).toNat).dpy = Real.cos (f + deg2rad * a.ps 0 + a.phaseS 0 - w) * (a.factor * a.ksl 0)
      ∧ (rfSum a f w x y (a.order + 1).toNat).dptr = Real.sin (f + deg2rad * a.pn 0 + a.phaseN 0 - w) * (a.factor * a.knl 0 * x)
        - Real.sin (f + deg2rad * a.ps 0 + a.phaseS 0 - w) * (a.factor * a.ksl 0 * y) := by
    intro h f w x y
    have e : (a.order + 1).toNat = a.order.toNat + 1 := by omega
    rw [e]
    exact rfSum_dipole a f w x y _ fun k h1 h2 => dip k h1 (by omega)
  have hx : coords p 0 = p.x := rfl
  have hy : coords p 2 = p.y := rfl
  have hz : coords p 4 = p.zeta := rfl
  unfold kickA kickB kickC bn bs phN phS phT phV
  rw [hx, hy, hz, hw]
  unfold rfKick
  simp only
  generalize 2 * Real.pi / clight * frequencyOf c a p.beta0 * (p.zeta / p.beta0) = w
  have hk : ∀ X : ℝ, |c.q0| * p.chi * kap c a p.beta0 * X
      = |c.q0| * p.chi * (frequencyOf c a p.beta0 * (2 * Real.pi / clight) * X) / p.beta0 := by
    intro X
    unfold kap
    ring
  rw [hk]
  generalize frequencyOf c a p.beta0 * (2 * Real.pi / clight) = K
  by_cases h0 : a.order ≥ 0
  · obtain ⟨s1, s2, s3⟩ := hsum h0 (phase0Of c a p.beta0) w p.x p.y
    rw [s1, s2, s3]
    generalize phase0Of c a p.beta0 + deg2rad * a.pn 0 + a.phaseN 0 - w = n1
    generalize phase0Of c a p.beta0 + deg2rad * a.ps 0 + a.phaseS 0 - w = n2
    generalize phase0Of c a p.beta0 + deg2rad * (a.transverseLag + 90) + a.transversePhase - w = n3
    generalize phase0Of c a p.beta0 + deg2rad * a.lag + a.phase - w = n4
    simp only [if_pos h0]
    by_cases ht : a.transverseVoltage = 0
    · by_cases hkill : a.kill = true
      · ext i
        fin_cases i <;> simp [coords, ht, hkill]
      · have e : |c.q0| * c.chargeRatio * a.voltage * Real.sin n4 + -(|c.q0| * c.chargeRatio) * (K * c.p0c *
            (Real.sin n1 * (a.factor * a.knl 0 * p.x) - Real.sin n2 * (a.factor * a.ksl 0 * p.y)))
            = |c.q0| * c.chargeRatio * (a.voltage * Real.sin n4 - K * c.p0c *
              (Real.sin n1 * (a.factor * a.knl 0 * p.x) - Real.sin n2 * (a.factor * a.ksl 0 * p.y))) := by ring
        simp only [ht, hkill, ne_eq, not_true_eq_false, if_false, Bool.false_eq_true, addToEnergy, updatePtau, e, hq]
        ext i
        fin_cases i <;> simp [coords]
        field_simp
    · by_cases hkill : a.kill = true
      · ext i
        fin_cases i <;> simp [coords, ht, hkill]
        ring
      · have e : |c.q0| * c.chargeRatio * a.voltage * Real.sin n4 + (-(|c.q0| * c.chargeRatio) * (K * c.p0c *
            (Real.sin n1 * (a.factor * a.knl 0 * p.x) - Real.sin n2 * (a.factor * a.ksl 0 * p.y)))
            + -(|c.q0| * c.chargeRatio) * (K * c.p0c * (Real.sin n3 * (a.transverseVoltage / c.p0c * (1 * p.x - 0 * p.y)))))
            = |c.q0| * c.chargeRatio * (a.voltage * Real.sin n4 - K * c.p0c *
              (Real.sin n1 * (a.factor * a.knl 0 * p.x) - Real.sin n2 * (a.factor * a.ksl 0 * p.y)
                + Real.sin n3 * (a.transverseVoltage / c.p0c * p.x))) := by ring
        simp only [ht, hkill, ne_eq, not_false_eq_true, if_true, if_false, Bool.false_eq_true, addToEnergy, updatePtau, e, hq]
        ext i
        fin_cases i <;> simp [coords]
        · ring
        · field_simp
  · generalize phase0Of c a p.beta0 + deg2rad * (a.transverseLag + 90) + a.transversePhase - w = n3
    generalize phase0Of c a p.beta0 + deg2rad * a.lag + a.phase - w = n4
    simp only [if_neg h0]
    by_cases ht : a.transverseVoltage = 0
    · by_cases hkill : a.kill = true
      · ext i
        fin_cases i <;> simp [coords, ht, hkill]
      · have e : |c.q0| * c.chargeRatio * a.voltage * Real.sin n4 + 0 = |c.q0| * c.chargeRatio * (a.voltage * Real.sin n4) := by ring
        simp only [ht, hkill, ne_eq, not_true_eq_false, if_false, Bool.false_eq_true, addToEnergy, updatePtau, e, hq]
        ext i
        fin_cases i <;> simp [coords]
        field_simp
    · by_cases hkill : a.kill = true
      · ext i
        fin_cases i <;> simp [coords, ht, hkill]
      · have e : |c.q0| * c.chargeRatio * a.voltage * Real.sin n4 + (0
            + -(|c.q0| * c.chargeRatio) * (K * c.p0c * (Real.sin n3 * (a.transverseVoltage / c.p0c * (1 * p.x - 0 * p.y)))))
            = |c.q0| * c.chargeRatio * (a.voltage * Real.sin n4 - K * c.p0c *
              (Real.sin n3 * (a.transverseVoltage / c.p0c * p.x))) := by ring
        simp only [ht, hkill, ne_eq, not_false_eq_true, if_true, if_false, Bool.false_eq_true, addToEnergy, updatePtau, e, hq]
        ext i
        fin_cases i <;> simp [coords]
        field_simp

/-- What an RF kick needs in order to be symplectic. -/
structure RfOk (c : Ctx) (a : RfArgs) : Prop where
  p0c : c.p0c ≠ 0
  ratio : c.chargeRatio ≠ 0
  dipole : DipoleOnly a
  charge : |c.q0| = 1 ∨ TransverseFree a
  kill : a.kill = true → TransverseFree a

theorem bn_free {a : RfArgs} (h : TransverseFree a) : bn a = 0 ∧ bs a = 0 := by
  unfold bn bs
  by_cases h0 : a.order ≥ 0
  · obtain ⟨h1, h2⟩ := h.2 0 (by simpa using h0)
    simp [h1, h2]
  · simp [h0]

theorem canonical_rf {c : Ctx} {a : RfArgs} (ok : RfOk c a) (b chi : ℝ) (z : Z) :
    Canonical (fun z => ![z 0, z 1 + kickA c a b chi z, z 2, z 3 + kickB c a b chi z, z 4, z 5 + kickC c a b chi z]) z := by
  have hl := fun u : Z => line z u
  have dcos : ∀ (f k : ℝ) (u : Z), HasDerivAt (fun t : ℝ => Real.cos (f - k * (z + t • u) 4)) (k * Real.sin (f - k * z 4) * u 4) 0 := by
    intro f k u
    refine ((((hl u 4).const_mul k).const_sub f).cos).congr_deriv ?_
    simp
    ring
  have dsin : ∀ (f k : ℝ) (u : Z), HasDerivAt (fun t : ℝ => Real.sin (f - k * (z + t • u) 4)) (-(k * Real.cos (f - k * z 4) * u 4)) 0 := by
    intro f k u
    refine ((((hl u 4).const_mul k).const_sub f).sin).congr_deriv ?_
    simp
    ring
  have hA : DifferentiableAt ℝ (kickA c a b chi) z := by
    unfold kickA
    fun_prop
  have hB : DifferentiableAt ℝ (kickB c a b chi) z := by
    unfold kickB
    fun_prop
  have hC : DifferentiableAt ℝ (kickC c a b chi) z := by
    unfold kickC
    split_ifs <;> fun_prop
  by_cases hf : TransverseFree a
  · obtain ⟨h1, h2⟩ := bn_free hf
    refine canonical_kick3 hA hB hC 0 0 0 0 0
      (if a.kill then 0 else -(|c.q0| * chi / b * (a.voltage / c.p0c) * (kap c a b * Real.cos (phV c a b - kap c a b * z 4)))) ?_ ?_ ?_
    · intro u
      unfold kickA
      simp only [h1, hf.1]
      simpa using hasDerivAt_const (0 : ℝ) (0 : ℝ)
    · intro u
      unfold kickB
      simp only [h2]
      simpa using hasDerivAt_const (0 : ℝ) (0 : ℝ)
    · intro u
      unfold kickC
      by_cases hk : a.kill = true
      · simp only [hk, if_true]
        simpa using hasDerivAt_const (0 : ℝ) (0 : ℝ)
      · simp only [if_neg hk, h1, h2, hf.1]
        refine HasDerivAt.congr_deriv (f' := |c.q0| * chi / b * (a.voltage / c.p0c)
          * -(kap c a b * Real.cos (phV c a b - kap c a b * z 4) * u 4)) ?_ (by ring)
        have := (dsin (phV c a b) (kap c a b) u).const_mul (|c.q0| * chi / b * (a.voltage / c.p0c))
        simpa using this
  · have hq : |c.q0| = 1 := ok.charge.resolve_right hf
    have hk : ¬a.kill = true := fun h => hf (ok.kill h)
    refine canonical_kick3 hA hB hC 0 0 (-(chi * kap c a b * (Real.sin (phN c a b - kap c a b * z 4) * bn a
        + Real.sin (phT c a b - kap c a b * z 4) * (a.transverseVoltage / c.p0c)))) 0
      (chi * kap c a b * (Real.sin (phS c a b - kap c a b * z 4) * bs a))
      (-(chi / b * (a.voltage / c.p0c) * (kap c a b * Real.cos (phV c a b - kap c a b * z 4)))
        + chi * kap c a b * kap c a b * (Real.cos (phN c a b - kap c a b * z 4) * (bn a * z 0)
          - Real.cos (phS c a b - kap c a b * z 4) * (bs a * z 2)
          + Real.cos (phT c a b - kap c a b * z 4) * (a.transverseVoltage / c.p0c * z 0))) ?_ ?_ ?_
    · intro u
      unfold kickA
      refine (((((dcos (phN c a b) (kap c a b) u).mul_const (bn a)).add
        ((dcos (phT c a b) (kap c a b) u).mul_const (a.transverseVoltage / c.p0c))).const_mul chi).neg).congr_deriv ?_
      ring
    · intro u
      unfold kickB
      refine ((((dcos (phS c a b) (kap c a b) u).mul_const (bs a))).const_mul chi).congr_deriv ?_
      ring
    · intro u
      unfold kickC
      simp only [if_neg hk, hq]
      refine (((dsin (phV c a b) (kap c a b) u).const_mul (1 * chi / b * (a.voltage / c.p0c))).sub
        ((((((dsin (phN c a b) (kap c a b) u).mul ((hl u 0).const_mul (bn a)))).sub
          ((dsin (phS c a b) (kap c a b) u).mul ((hl u 2).const_mul (bs a)))).add
          ((dsin (phT c a b) (kap c a b) u).mul ((hl u 0).const_mul (a.transverseVoltage / c.p0c)))).const_mul
          (1 * chi * kap c a b))).congr_deriv ?_
      simp
      ring

theorem kin_updatePtau {p : Part} (hb : 0 < p.beta0) {t : ℝ} (h1 : 0 < t * t + 2 * t / p.beta0 + 1) (h2 : 0 < 1 + p.beta0 * t) :
    (updatePtau p t).Kin := by
  have hs := Real.sqrt_pos.2 h1
  have hq := Real.sq_sqrt h1.le
  unfold updatePtau
  constructor <;> simp only
  · exact hb
  · positivity
  · linarith
  · rw [add_sub_cancel, hq]
    ring
  · rw [add_sub_cancel]
    exact (div_mul_cancel₀ _ h2.ne').symm
  · rw [add_sub_cancel]
    exact div_mul_cancel₀ 1 hs.ne'

/-- Enough energy is left after the kick. -/
def Alive (c : Ctx) (a : RfArgs) (p : Part) : Prop := Fine p.beta0 (coords (rfKick c a p))

theorem rfKick_beta0 (c : Ctx) (a : RfArgs) (p : Part) : (rfKick c a p).beta0 = p.beta0 := by
  unfold rfKick addToEnergy updatePtau
  simp only
  split_ifs <;> rfl

theorem rfKick_chi (c : Ctx) (a : RfArgs) (p : Part) : (rfKick c a p).chi = p.chi := by
  unfold rfKick addToEnergy updatePtau
  simp only
  split_ifs <;> rfl

theorem kin_rfKick {c : Ctx} {a : RfArgs} {p : Part} (k : p.Kin) (al : Alive c a p) : (rfKick c a p).Kin := by
  have hb := k.beta0
  obtain ⟨h1, h2⟩ := al
  have e5 : coords (rfKick c a p) 5 = (rfKick c a p).ptau / p.beta0 := by
    show (rfKick c a p).ptau / (rfKick c a p).beta0 = _
    rw [rfKick_beta0]
  rw [e5] at h1 h2
  generalize hE : (rfKick c a p).ptau = E at h1 h2
  have h1' : 0 < E * E + 2 * E / p.beta0 + 1 := by
    have : 1 + 2 * (E / p.beta0) + p.beta0 ^ 2 * (E / p.beta0) ^ 2 = E * E + 2 * E / p.beta0 + 1 := by
      field_simp
      ring
    linarith
  have h2' : 0 < 1 + p.beta0 * E := by
    have : 1 + p.beta0 ^ 2 * (E / p.beta0) = 1 + p.beta0 * E := by field_simp
    linarith
  have key : (rfKick c a p).delta = p.delta ∧ (rfKick c a p).rvv = p.rvv ∧ (rfKick c a p).rpp = p.rpp ∧ (rfKick c a p).ptau = p.ptau
      ∨ ∃ q : Part, q.beta0 = p.beta0 ∧ rfKick c a p = updatePtau q (rfKick c a p).ptau := by
    unfold rfKick addToEnergy updatePtau
    simp only
    by_cases hk : a.kill = true
    · left
      simp only [hk, if_true]
      refine ⟨?_, ?_, ?_, ?_⟩ <;> split_ifs <;> rfl
    · right
      simp only [hk]
      exact ⟨_, by split_ifs <;> rfl, rfl⟩
  rcases key with ⟨e1, e2, e3, e4⟩ | ⟨q, eb, e⟩
  · obtain ⟨k1, k2, k3, k4, k5, k6⟩ := k
    constructor <;> simp only [e1, e2, e3, e4, rfKick_beta0] <;> assumption
  · rw [e, hE]
    exact kin_updatePtau (by rw [eb]; exact hb) (by rw [eb]; exact h1') (by rw [eb]; exact h2')

theorem alike_rfKick (c : Ctx) (a : RfArgs) {p q : Part} (e : Alike p q) : Alike (rfKick c a p) (rfKick c a q) := by
  have hq : q = { p with s := q.s, spinX := q.spinX, spinY := q.spinY, spinZ := q.spinZ } := by
    ext
    · exact e.x
    · exact e.px
    · exact e.y
    · exact e.py
    · exact e.zeta
    · rfl
    · exact e.delta
    · exact e.ptau
    · exact e.rpp
    · exact e.rvv
    · exact e.beta0
    · exact e.chi
    · rfl
    · rfl
    · rfl
  rw [hq]
  unfold rfKick addToEnergy updatePtau
  simp only
  constructor <;> split_ifs <;> rfl

/-- Kicks of cavities, whatever the charge, and kicks of crab cavities and RF dipoles for a reference particle with the charge of
a proton. -/
theorem fair_rfKick {c : Ctx} {a : RfArgs} (ok : RfOk c a) {p : Part} (k : p.Kin) (al : Alive c a p) : Fair (fun q => rfKick c a q) p := by
  have hs : SymplecticAt (fun q => rfKick c a q) p := by
    refine (canonical_rf ok p.beta0 p.chi (coords p)).congr (Eventually.of_forall fun z => ?_)
    refine (coords_rfKick (p := place p z) ok.p0c ok.ratio k.beta0.ne' ok.dipole).trans ?_
    rw [coords_place k.beta0.ne']
    ext i
    fin_cases i <;> simp [place, k.beta0.ne']
  refine ⟨⟨kin_rfKick k al, ?_, rfKick_beta0 c a, rfKick_chi c a, fun q r e => alike_rfKick c a e⟩, hs⟩
  obtain ⟨M, hM, _⟩ : Canonical _ _ := hs
  have ct : Tendsto (fun z => coords (rfKick c a (place p z))) (𝓝 (coords p)) (𝓝 (coords (rfKick c a (place p (coords p))))) :=
    hM.continuousAt
  rw [place_coords k] at ct
  filter_upwards [fine_near (fine_coords k), ct.eventually (fine_near al)] with z h1 h2
  exact kin_rfKick (kin_place k.beta0 h1) h2

/-! ### Bodies -/

/-- The particle gets through the steps of an RF element. -/
def RunsRfSteps (c : Ctx) (driftModel : ℤ) (a : RfArgs) (length : ℝ) : List Step → Part → Prop
  | [], _ => True
  | .drift r :: l, p => Runs (rfDriftArgs driftModel) (r * length) p
      ∧ RunsRfSteps c driftModel a length l (magnetDrift (rfDriftArgs driftModel) (r * length) p)
  | .kick w :: l, p => Alive c (a.scale w) p ∧ RunsRfSteps c driftModel a length l (rfKick c (a.scale w) p)

theorem RfOk.scale {c : Ctx} {a : RfArgs} (ok : RfOk c a) (w : ℝ) : RfOk c (a.scale w) := by
  have tf : TransverseFree a → TransverseFree (a.scale w) := fun h => ⟨by simp [RfArgs.scale, h.1], h.2⟩
  exact ⟨ok.p0c, ok.ratio, ok.dipole, ok.charge.imp_right tf, fun h => tf (ok.kill h)⟩

theorem fair_rfSteps {c : Ctx} (driftModel : ℤ) {a : RfArgs} (ok : RfOk c a) (length : ℝ) : ∀ (l : List Step) {p : Part}, p.Kin →
    RunsRfSteps c driftModel a length l p → Fair (fun q => l.foldl (rfStepRun c driftModel a length) q) p
  | [], _, k, _ => Fair.id k
  | .drift r :: l, p, k, h => by
    have g : Good (fun q => magnetDrift (rfDriftArgs driftModel) (r * length) q) p := ⟨lawful_magnetDrift _ _, symplectic_magnetDrift k h.1⟩
    exact Fair.comp (G := fun q => l.foldl (rfStepRun c driftModel a length) q) k (g.fair k)
      (fair_rfSteps driftModel ok length l (g.kin k) h.2)
  | .kick w :: l, p, k, h => by
    have g := fair_rfKick (ok.scale w) k h.1
    exact Fair.comp (G := fun q => l.foldl (rfStepRun c driftModel a length) q) k g (fair_rfSteps driftModel ok length l g.kin h.2)

/-- The particle gets through the element. -/
def RfElement.Runs (e : RfElement) (c : Ctx) (weight : ℝ) (back : Bool) (p : Part) : Prop :=
  let sg : ℝ := if back then -1 else 1
  let a := { e.args with
    voltage := sg * e.args.voltage * weight
    transverseVoltage := sg * e.args.transverseVoltage * weight
    factor := sg * weight }
  RunsRfSteps c (driftModelOf e.modelOf 0) a (sg * e.length * weight) (steps e.integratorOf (e.kicks weight)) p

theorem RfElement.fair {e : RfElement} {c : Ctx} (ok : RfOk c e.args) {weight : ℝ} {back : Bool} {p : Part} (k : p.Kin)
    (r : e.Runs c weight back p) : Fair (fun q => e.track c weight back q) p := by
  refine fair_rfSteps _ ?_ _ _ k r
  have tf : TransverseFree e.args → TransverseFree { e.args with
      voltage := (if back then -1 else 1) * e.args.voltage * weight
      transverseVoltage := (if back then -1 else 1) * e.args.transverseVoltage * weight
      factor := (if back then -1 else 1) * weight } := fun h => ⟨by simp [h.1], h.2⟩
  exact ⟨ok.p0c, ok.ratio, ok.dipole, ok.charge.imp_right tf, fun h => tf (ok.kill h)⟩

end

end Verif.Rf
