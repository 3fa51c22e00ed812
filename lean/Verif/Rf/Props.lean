import Verif.Rf.Symplectic
import Verif.Symplectic.Violations
import Verif.Magnets.BodyProps
import Verif.Magnets.BodyField

/-!
# Cavities, crab cavities and RF multipoles: the theorems
-/

namespace Verif.Rf

open Frames hiding curvature
open Magnets Symplectic Filter Topology

noncomputable section

/-! ### Backtracking -/

/-- The same kick with all strengths negative. -/
def RfArgs.opposite (a : RfArgs) : RfArgs :=
  { a with voltage := -a.voltage, transverseVoltage := -a.transverseVoltage, factor := -a.factor }

theorem rfSum_opposite (a : RfArgs) (f w x y : ℝ) : ∀ n : ℕ,
    (rfSum a.opposite f w x y n).dpx = -(rfSum a f w x y n).dpx ∧ (rfSum a.opposite f w x y n).dpy = -(rfSum a f w x y n).dpy
    ∧ (rfSum a.opposite f w x y n).dptr = -(rfSum a f w x y n).dptr ∧ (rfSum a.opposite f w x y n).zre = (rfSum a f w x y n).zre
    ∧ (rfSum a.opposite f w x y n).zim = (rfSum a f w x y n).zim ∧ (rfSum a.opposite f w x y n).factorial = (rfSum a f w x y n).factorial
  | 0 => by simp [rfSum]
  | n + 1 => by
    obtain ⟨h1, h2, h3, h4, h5, h6⟩ := rfSum_opposite a f w x y n
    rw [rfSum_succ, rfSum_succ]
    simp only [rfStep, h1, h2, h3, h4, h5, h6]
    refine ⟨?_, ?_, ?_, ?_, ?_, ?_⟩ <;> simp only [RfArgs.opposite] <;> ring

theorem updatePtau_self {p : Part} (k : p.Kin) : updatePtau p p.ptau = p := by
  have hb := k.beta0
  have hd := k.delta
  have hr := k.rvv
  have e : Real.sqrt (p.ptau * p.ptau + 2 * p.ptau / p.beta0 + 1) = 1 + p.delta := by
    rw [show p.ptau * p.ptau + 2 * p.ptau / p.beta0 + 1 = (1 + p.delta) ^ 2 by rw [k.shell]; ring]
    exact Real.sqrt_sq hd.le
  have h : 0 < 1 + p.beta0 * p.ptau := by
    have := k.energy
    by_contra hn
    nlinarith
  ext <;> simp only [updatePtau, e]
  · ring
  · rw [eq_comm, eq_div_iff hd.ne']
    exact k.rpp
  · rw [div_eq_iff h.ne', k.energy]

theorem updatePtau_twice (p : Part) (t u : ℝ) : updatePtau (updatePtau p t) u = updatePtau p u := rfl

/-- The sum of the kicks of the multipoles and of the transverse voltage. -/
def sumX (c : Ctx) (a : RfArgs) (b x y zeta : ℝ) : ℝ :=
  let w := 2 * Real.pi / clight * frequencyOf c a b * (zeta / b)
  (if a.order ≥ 0 then (rfSum a (phase0Of c a b) w x y (a.order + 1).toNat).dpx else 0)
    + Real.cos (phase0Of c a b + deg2rad * (a.transverseLag + 90) + a.transversePhase - w) * (a.transverseVoltage / c.p0c)
@[inherit_doc sumX]
def sumY (c : Ctx) (a : RfArgs) (b x y zeta : ℝ) : ℝ :=
  let w := 2 * Real.pi / clight * frequencyOf c a b * (zeta / b)
  if a.order ≥ 0 then (rfSum a (phase0Of c a b) w x y (a.order + 1).toNat).dpy else 0
@[inherit_doc sumX]
def sumE (c : Ctx) (a : RfArgs) (b x y zeta : ℝ) : ℝ :=
  let f := frequencyOf c a b
  let q := |c.q0| * c.chargeRatio
  let w := 2 * Real.pi / clight * f * (zeta / b)
  q * a.voltage * Real.sin (phase0Of c a b + deg2rad * a.lag + a.phase - w)
    + (if a.order ≥ 0 then -q * (f * (2 * Real.pi / clight) * c.p0c * (rfSum a (phase0Of c a b) w x y (a.order + 1).toNat).dptr) else 0)
    + -q * (f * (2 * Real.pi / clight) * c.p0c * (Real.sin (phase0Of c a b + deg2rad * (a.transverseLag + 90) + a.transversePhase - w)
      * (a.transverseVoltage / c.p0c * x)))

/-- Kicks in the momenta and in the energy. -/
def kicked (p : Part) (dx dy e : ℝ) (kill : Bool) : Part :=
  if kill then { p with px := p.px + dx, py := p.py + dy }
  else updatePtau { p with px := p.px + dx, py := p.py + dy } (p.ptau + e)

theorem rfKick_eq (c : Ctx) (a : RfArgs) (p : Part) : rfKick c a p
    = kicked p (-p.chi * sumX c a p.beta0 p.x p.y p.zeta) (p.chi * sumY c a p.beta0 p.x p.y p.zeta)
      (sumE c a p.beta0 p.x p.y p.zeta / c.p0c / (c.chargeRatio / p.chi)) a.kill := by
  unfold rfKick kicked sumX sumY sumE
  simp only
  generalize 2 * Real.pi / clight * frequencyOf c a p.beta0 * (p.zeta / p.beta0) = w
  generalize rfSum a (phase0Of c a p.beta0) w p.x p.y (a.order + 1).toNat = v
  by_cases h0 : a.order ≥ 0 <;> by_cases ht : a.transverseVoltage = 0 <;> by_cases hk : a.kill = true
  all_goals simp only [h0, ht, hk, ne_eq, not_true_eq_false, not_false_eq_true, if_true, if_false, addToEnergy, Bool.false_eq_true,
    mul_zero, zero_mul, add_zero, zero_div, zero_add, one_mul, mul_one, sub_zero, mul_add, add_assoc]

theorem sums_opposite (c : Ctx) (a : RfArgs) (b x y zeta : ℝ) : sumX c a.opposite b x y zeta = -sumX c a b x y zeta
    ∧ sumY c a.opposite b x y zeta = -sumY c a b x y zeta ∧ sumE c a.opposite b x y zeta = -sumE c a b x y zeta := by
  have f1 : frequencyOf c a.opposite b = frequencyOf c a b := rfl
  have f2 : phase0Of c a.opposite b = phase0Of c a b := rfl
  have hs := fun f w => rfSum_opposite a f w x y (a.order + 1).toNat
  have h1 := fun f w => (hs f w).1
  have h2 := fun f w => (hs f w).2.1
  have h3 := fun f w => (hs f w).2.2.1
  unfold sumX sumY sumE
  simp only [f1, f2, show a.opposite.order = a.order from rfl, h1, h2, h3]
  simp only [RfArgs.opposite]
  refine ⟨?_, ?_, ?_⟩ <;> split_ifs <;> ring

theorem rfKick_opposite (c : Ctx) (a : RfArgs) {p : Part} (k : p.Kin) : rfKick c a.opposite (rfKick c a p) = p := by
  obtain ⟨h1, h2, h3⟩ := sums_opposite c a p.beta0 p.x p.y p.zeta
  rw [rfKick_eq, rfKick_eq c a p]
  generalize sumX c a p.beta0 p.x p.y p.zeta = X at *
  generalize sumY c a p.beta0 p.x p.y p.zeta = Y at *
  generalize sumE c a p.beta0 p.x p.y p.zeta = E at *
  by_cases hk : a.kill = true
  · simp only [kicked, show a.opposite.kill = a.kill from rfl, hk, if_true, h1, h2]
    ext <;> simp
  · simp only [kicked, show a.opposite.kill = a.kill from rfl, hk, Bool.false_eq_true, if_false]
    simp only [updatePtau, h1, h2, h3]
    have u := updatePtau_self k
    simp only [updatePtau] at u
    rw [show p.ptau + E / c.p0c / (c.chargeRatio / p.chi) + -E / c.p0c / (c.chargeRatio / p.chi) = p.ptau by ring,
      show p.px + -p.chi * X + -p.chi * -X = p.px by ring, show p.py + p.chi * Y + p.chi * -Y = p.py by ring]
    exact u

/-- The drift models which RF elements offer. -/
def DriftModelOk (m : ℤ) : Prop := m = -1 ∨ m = 0 ∨ m = 1 ∨ m = 5

theorem rfSteps_undo (c : Ctx) {m : ℤ} (hm : DriftModelOk m) (a : RfArgs) (l : ℝ) (L : List Step) {p : Part} (k : p.Kin)
    (r : RunsRfSteps c m a l L p) :
    L.reverse.foldl (rfStepRun c m a.opposite (-l)) (L.foldl (rfStepRun c m a l) p) = p := by
  induction L generalizing p with
  | nil => rfl
  | cons o rest ih =>
    rw [List.reverse_cons, List.foldl_append, List.foldl_cons]
    cases o with
    | drift x =>
      have kd : (magnetDrift (rfDriftArgs m) (x * l) p).Kin := (lawful_magnetDrift _ _).kin p k
      have := ih kd r.2
      simp only [rfStepRun, List.foldl_cons, List.foldl_nil] at this ⊢
      rw [this, show x * -l = -(x * l) by ring]
      refine drift_undo ?_
      rcases hm with h | h | h | h
      · exact Or.inr (Or.inl h)
      · exact Or.inr (Or.inr (Or.inl h))
      · exact Or.inr (Or.inr (Or.inr (Or.inl h)))
      · exact Or.inr (Or.inr (Or.inr (Or.inr (Or.inl h))))
    | kick w =>
      have := ih (kin_rfKick k r.1) r.2
      simp only [rfStepRun, List.foldl_cons, List.foldl_nil] at this ⊢
      rw [this]
      have e : a.opposite.scale w = (a.scale w).opposite := by simp [RfArgs.scale, RfArgs.opposite]
      rw [e]
      exact rfKick_opposite c _ k

/-- The models which can be chosen for RF elements: adaptive, drift-kick-drift-exact, drift-kick-drift-expanded, rot-kick-rot (low and
high order), and the kick alone. -/
def RfElement.ModelOk (e : RfElement) : Prop :=
  e.model = -1 ∨ e.model = 0 ∨ e.model = 5 ∨ e.model = 6 ∨ e.model = 7 ∨ e.model = 8

theorem RfElement.ModelOk.drift {e : RfElement} (h : e.ModelOk) : DriftModelOk (driftModelOf e.modelOf 0) := by
  rcases h with h | h | h | h | h | h <;> norm_num [RfElement.modelOf, h, driftModelOf, DriftModelOk]

/-- **C77, backtracking.**  An RF element tracked backwards undoes what it did: whatever the drifts, kicks, weights, phases and
multipoles are, every coordinate, the energy and `s` come back.  (The particle keeps some energy on the way.) -/
theorem C77_backtrack {e : RfElement} (hm : e.ModelOk) {c : Ctx} {w : ℝ} {p : Part} (k : p.Kin) (r : e.Runs c w false p) :
    e.track c w true (e.track c w false p) = p := by
  have h := rfSteps_undo c hm.drift _ _ _ k r
  rw [steps_reverse] at h
  simp only [RfElement.track, rfBody, Bool.false_eq_true, if_false, if_true, one_mul] at h ⊢
  simp only [RfArgs.opposite] at h
  simp only [neg_mul, one_mul]
  exact h

/-! ### The energy -/

/-- The energy of the particle above that of the reference (of a particle of its mass with the reference velocity); C08. -/
def excess (c : Ctx) (p : Part) : ℝ := p.ptau * c.p0c * (c.chargeRatio / p.chi)

/-- The frequency: `frequency`, or `harmonic` periods in the time which the reference takes for one turn. -/
def rfFrequency (c : Ctx) (a : RfArgs) (beta0 : ℝ) : ℝ := a.frequency + a.harmonic * (beta0 * 299792458 / c.lineLength)

/-- The phase of the voltage which the particle sees: `lag` degrees and `phase`, less what passes in the time `zeta / (beta0 c)` by which
the particle is early, plus what passes in all turns before if the phase is counted in absolute time. -/
def seenPhase (c : Ctx) (a : RfArgs) (p : Part) : ℝ :=
  a.lag / 360 * (2 * Real.pi) + a.phase - 2 * Real.pi * rfFrequency c a p.beta0 * (p.zeta / (p.beta0 * 299792458))
    + if a.absoluteTime = 1 then 2 * Real.pi * rfFrequency c a p.beta0 * (c.atTurn * c.tSim) else 0

theorem frequency_eq (c : Ctx) (a : RfArgs) (b : ℝ) : frequencyOf c a b = rfFrequency c a b := by
  unfold frequencyOf rfFrequency clight
  split_ifs with h
  · rw [div_div_eq_mul_div, mul_div_assoc]
  · simp at h
    simp [h]

theorem seenPhase_eq (c : Ctx) (a : RfArgs) (p : Part) : seenPhase c a p
    = phase0Of c a p.beta0 + deg2rad * a.lag + a.phase - 2 * Real.pi * frequencyOf c a p.beta0 * (p.zeta / (p.beta0 * clight)) := by
  unfold seenPhase phase0Of deg2rad
  rw [frequency_eq]
  simp only [clight]
  split_ifs <;> ring

theorem rfKick_voltage {c : Ctx} {a : RfArgs} (h0 : ¬a.order ≥ 0) (ht : a.transverseVoltage = 0) (hk : a.kill = false) (w : ℝ) (p : Part) :
    rfKick c (a.scale w) p
      = updatePtau p (p.ptau + w * (|c.q0| * c.chargeRatio * a.voltage * Real.sin (seenPhase c a p) / c.p0c / (c.chargeRatio / p.chi))) := by
  have e : 2 * Real.pi / clight * frequencyOf c a p.beta0 * (p.zeta / p.beta0)
      = 2 * Real.pi * frequencyOf c a p.beta0 * (p.zeta / (p.beta0 * clight)) := by ring
  rw [rfKick_eq, seenPhase_eq]
  unfold kicked sumX sumY sumE
  have f1 : frequencyOf c (a.scale w) p.beta0 = frequencyOf c a p.beta0 := rfl
  have f2 : phase0Of c (a.scale w) p.beta0 = phase0Of c a p.beta0 := rfl
  simp only [f1, f2, show (a.scale w).order = a.order from rfl, show (a.scale w).kill = a.kill from rfl,
    show (a.scale w).transverseVoltage = a.transverseVoltage * w from rfl, show (a.scale w).voltage = a.voltage * w from rfl,
    show (a.scale w).lag = a.lag from rfl, show (a.scale w).phase = a.phase from rfl, h0, ht, hk, if_false, Bool.false_eq_true,
    zero_mul, zero_div, mul_zero, add_zero, e]
  congr 1
  ring

theorem rfSteps_voltage {c : Ctx} {a : RfArgs} (h0 : ¬a.order ≥ 0) (ht : a.transverseVoltage = 0) (hk : a.kill = false) (m : ℤ)
    (L : List Step) {p : Part} (k : p.Kin) : L.foldl (rfStepRun c m a 0) p = updatePtau p (p.ptau + (L.map Step.strength).sum
      * (|c.q0| * c.chargeRatio * a.voltage * Real.sin (seenPhase c a p) / c.p0c / (c.chargeRatio / p.chi))) := by
  have key : ∀ (L : List Step) (t : ℝ), L.foldl (rfStepRun c m a 0) (updatePtau p t) = updatePtau p (t + (L.map Step.strength).sum
      * (|c.q0| * c.chargeRatio * a.voltage * Real.sin (seenPhase c a p) / c.p0c / (c.chargeRatio / p.chi))) := by
    intro L
    induction L with
    | nil => intro t; simp
    | cons o rest ih =>
      intro t
      cases o with
      | drift r =>
        have e : rfStepRun c m a 0 (updatePtau p t) (.drift r) = updatePtau p t := by simp [rfStepRun, magnetDrift]
        rw [List.foldl_cons, e, ih]
        simp [Step.strength]
      | kick w =>
        have e : rfStepRun c m a 0 (updatePtau p t) (.kick w) = updatePtau p (t
            + w * (|c.q0| * c.chargeRatio * a.voltage * Real.sin (seenPhase c a p) / c.p0c / (c.chargeRatio / p.chi))) := by
          show rfKick c (a.scale w) (updatePtau p t) = _
          rw [rfKick_voltage h0 ht hk]
          rfl
        rw [List.foldl_cons, e, ih]
        simp only [Step.strength, List.map_cons, List.sum_cons]
        congr 1
        ring
  have := key L p.ptau
  rwa [updatePtau_self k] at this

/-- **C77, energy gain.**  A thin cavity gives a particle of charge `q` (in units of the elementary charge, for a positive reference
charge) the energy `q V sin(phase)`, whatever the number of kicks, the model and the integrator are, and changes nothing but the energy; a
slice of weight `w` gives `w` times as much.  The phase is `lag + phase` for a particle in step with the reference and lags behind by
`2 π f` times the time by which the particle is early; for absolute time the phase of the turn is added. -/
theorem C77_gain {c : Ctx} (hp : c.p0c ≠ 0) (hr : c.chargeRatio ≠ 0) (V f harm lag phase : ℝ) (absTime : ℤ) (n : ℕ) (model integ : ℤ)
    (hi : integ = 0 ∨ integ = 1 ∨ integ = 2 ∨ integ = 3) (w : ℝ) {p : Part} (k : p.Kin) (hc : p.chi ≠ 0) :
    let e := cavity 0 V f harm lag phase absTime n model integ false
    ∃ t, e.track c w false p = updatePtau p t
      ∧ excess c (e.track c w false p) - excess c p = w * (|c.q0| * c.chargeRatio * V * Real.sin (seenPhase c e.args p)) := by
  intro e
  let a : RfArgs := { e.args with
    voltage := 1 * e.args.voltage * w
    transverseVoltage := 1 * e.args.transverseVoltage * w
    factor := 1 * w }
  have h0 : ¬a.order ≥ 0 := by
    show ¬(-1 : ℤ) ≥ 0
    norm_num
  have ht : a.transverseVoltage = 0 := by
    show 1 * (0 : ℝ) * w = 0
    ring
  have tr : e.track c w false p = (steps e.integratorOf (e.kicks w)).foldl (rfStepRun c (driftModelOf e.modelOf 0) a 0) p := by
    show (steps e.integratorOf (e.kicks w)).foldl (rfStepRun c (driftModelOf e.modelOf 0) a (1 * 0 * w)) p = _
    rw [mul_zero, zero_mul]
  have hk : 1 ≤ e.kicks w := by
    unfold RfElement.kicks
    simp only
    generalize (if w ≠ 1 ∧ (if e.modelOf = -1 then 1 else e.numKicks) > 0 then _ else _ : ℕ) = N
    split_ifs <;> omega
  have hi' : e.integratorOf = 1 ∨ e.integratorOf = 2 ∨ e.integratorOf = 3 := by
    have he : e.integrator = integ := rfl
    unfold RfElement.integratorOf
    rw [he]
    rcases hi with h | h | h | h <;> rw [h] <;> norm_num
    · by_cases hm : e.modelOf = -1 <;> simp [hm]
    · by_cases hm : e.modelOf = -1 <;> simp [hm]
  have hw := (C61_weights _ hi' _ hk).2
  rw [tr, rfSteps_voltage h0 ht rfl _ _ k, hw]
  refine ⟨_, rfl, ?_⟩
  have sp : seenPhase c a p = seenPhase c e.args p := rfl
  have va : a.voltage = w * V := by
    show 1 * V * w = w * V
    ring
  rw [sp, va]
  generalize Real.sin (seenPhase c e.args p) = S
  simp only [excess, updatePtau]
  field_simp
  ring

/-! ### Symplecticity -/

/-- **C77, symplecticity.**  Cavities, crab cavities and RF dipoles, thin or thick, with any model, integrator, number of kicks, weight and
phases, forward and backtracking, are symplectic for every particle which gets through.  `RfOk` asks for a reference momentum and a
charge, for strengths above the dipole to vanish, and, if there are transverse kicks, for a reference charge of `± 1` and for the energy
kicks to be on.  (The theorems below show that none of the last three can be left out.) -/
theorem C77_symplectic_partial {e : RfElement} {c : Ctx} (ok : RfOk c e.args) {w : ℝ} {back : Bool} {p : Part} (k : p.Kin)
    (r : e.Runs c w back p) : SymplecticAt (fun q => e.track c w back q) p := (RfElement.fair ok k r).2

/-- Every cavity is such an element, and every crab cavity for a reference charge of `± 1`. -/
theorem C77_ok {c : Ctx} (hp : c.p0c ≠ 0) (hr : c.chargeRatio ≠ 0) (length V f harm lag phase : ℝ) (absTime : ℤ) (n : ℕ) (model integ : ℤ) :
    (∀ kill, RfOk c (cavity length V f harm lag phase absTime n model integ kill).args)
    ∧ (|c.q0| = 1 → RfOk c (crabCavity length V f lag phase absTime n model integ false).args) := by
  have d : ∀ (x y z : ℝ) (a : RfArgs), a.order = -1 → DipoleOnly a := fun _ _ _ a h k _ h2 => by omega
  refine ⟨fun kill => ⟨hp, hr, d 0 0 0 _ rfl, Or.inr ?_, fun _ => ?_⟩, fun hq => ⟨hp, hr, d 0 0 0 _ rfl, Or.inl hq, fun h => ?_⟩⟩
  · exact ⟨rfl, fun k hk => by simp only [cavity] at hk; omega⟩
  · exact ⟨rfl, fun k hk => by simp only [cavity] at hk; omega⟩
  · simp [crabCavity] at h

/-- **C77 fails for RF quadrupoles.**  The energy which an RF quadrupole gives is twice the one which goes with its transverse kicks
(`track_rf.h` multiplies the strength over `k!` by the power `k + 1` of the position, where `(k + 1)!` belongs). -/
theorem C77_quadrupole_violated {c : Ctx} {f k phase : ℝ} {p : Part} (kin : p.Kin) (hp : c.p0c ≠ 0) (hr : c.chargeRatio ≠ 0)
    (hq : |c.q0| = 1) (on : p.chi * k * f * p.x * Real.sin (phase - 2 * Real.pi / clight * f / p.beta0 * p.zeta) ≠ 0) :
    ¬SymplecticAt (fun q => (rfQuad f k phase).track c 1 false q) p :=
  rfQuad_violated kin hp hr (by rw [hq]; norm_num) on

/-- A thin crab cavity of one kick. -/
def thinCrab (V f phase : ℝ) (kill : Bool) : RfElement := crabCavity 0 V f 0 phase 0 1 (-1) 0 kill

theorem thinCrab_track (c : Ctx) (V f phase : ℝ) (kill : Bool) (p : Part) :
    (thinCrab V f phase kill).track c 1 false p = rfKick c (thinCrab V f phase kill).args p := by
  simp [RfElement.track, thinCrab, crabCavity, RfElement.modelOf, RfElement.integratorOf, RfElement.kicks, rfBody, steps, uniform,
    rfStepRun, driftModelOf, magnetDrift, rfDriftArgs, RfArgs.scale]

/-- **C77 fails for crab cavities in beams with another reference charge,** such as ions: the energy which a crab cavity gives is `|q0|`
times the one which goes with its transverse kick.  It fails for every reference charge if `kill_energy_kick` is set. -/
theorem C77_crab_violated {c : Ctx} {V f phase : ℝ} {kill : Bool} {p : Part} (kin : p.Kin) (hp : c.p0c ≠ 0) (hr : c.chargeRatio ≠ 0)
    (hq : |c.q0| ≠ 1 ∨ kill = true) (hc : p.chi ≠ 0) (hV : V ≠ 0) (hf : f ≠ 0)
    (on : Real.cos (phase - 2 * Real.pi / clight * f / p.beta0 * p.zeta) ≠ 0) :
    ¬SymplecticAt (fun q => (thinCrab V f phase kill).track c 1 false q) p := by
  simp only [thinCrab_track]
  refine dipole_violated kin hp hr (fun k _ h2 => ?_) hq.symm ?_
  · simp only [thinCrab, crabCavity] at h2
    omega
  · have hpi := Real.pi_ne_zero
    have hb := kin.beta0.ne'
    have hcl : clight ≠ 0 := by unfold clight; norm_num
    have e1 : kap c (thinCrab V f phase kill).args p.beta0 = 2 * Real.pi / clight * f / p.beta0 := by
      simp [kap, frequencyOf, thinCrab, crabCavity]
    have e2 : bn (thinCrab V f phase kill).args = 0 := by simp [bn, thinCrab, crabCavity]
    have e3 : phT c (thinCrab V f phase kill).args p.beta0 = phase + Real.pi / 2 := by
      simp [phT, phase0Of, thinCrab, crabCavity, deg2rad]
      ring
    rw [e1, e2, e3, show (thinCrab V f phase kill).args.transverseVoltage = V from rfl,
      show phase + Real.pi / 2 - 2 * Real.pi / clight * f / p.beta0 * p.zeta
        = phase - 2 * Real.pi / clight * f / p.beta0 * p.zeta + Real.pi / 2 by ring, Real.sin_add_pi_div_two]
    simp only [mul_zero, zero_add]
    have : 2 * Real.pi / clight * f / p.beta0 ≠ 0 := by positivity
    positivity

/-! ### Examples -/

/-- A proton beam. -/
def protons : Ctx := { p0c := 1e9, q0 := 1, chargeRatio := 1, atTurn := 3, tSim := 1e-6, lineLength := 100 }

theorem kin_onAxis (a b z : ℝ) : Part.Kin { onAxis with x := a, px := b, zeta := z } := by
  constructor <;> norm_num [onAxis]

theorem alive_voltage {c : Ctx} {a : RfArgs} (h0 : ¬a.order ≥ 0) (ht : a.transverseVoltage = 0) (hk : a.kill = false) (w : ℝ) {p : Part}
    (hb : p.beta0 = 1) (h : 0 < 1 + p.ptau
      + w * (|c.q0| * c.chargeRatio * a.voltage * Real.sin (seenPhase c a p) / c.p0c / (c.chargeRatio / p.chi))) :
    Alive c (a.scale w) p := by
  unfold Alive
  rw [rfKick_voltage h0 ht hk]
  constructor
  · simp only [updatePtau, coords, hb, Matrix.cons_val]
    nlinarith [sq_nonneg (1 + (p.ptau
      + w * (|c.q0| * c.chargeRatio * a.voltage * Real.sin (seenPhase c a p) / c.p0c / (c.chargeRatio / p.chi))))]
  · simp only [updatePtau, coords, hb, Matrix.cons_val]
    linarith

/-- A cavity of 1 m and 1 MV, in the middle of which the kick is applied: particles near the axis get through. -/
example : (cavity 1 1e6 4e8 0 0 1 0 1 6 0 false).Runs protons 1 false { onAxis with x := 1e-3, zeta := 1e-2 }
    ∧ RfOk protons (cavity 1 1e6 4e8 0 0 1 0 1 6 0 false).args ∧ (cavity 1 1e6 4e8 0 0 1 0 1 6 0 false).ModelOk := by
  refine ⟨?_, (C77_ok (by norm_num [protons]) (by norm_num [protons]) 1 1e6 4e8 0 0 1 0 1 6 0).1 false, Or.inr (Or.inr (Or.inr (Or.inl rfl)))⟩
  have hs : steps (cavity 1 1e6 4e8 0 0 1 0 1 6 0 false).integratorOf ((cavity 1 1e6 4e8 0 0 1 0 1 6 0 false).kicks 1)
      = [.drift (1 / 2), .kick 1, .drift (1 / 2)] := by
    norm_num [RfElement.integratorOf, RfElement.modelOf, RfElement.kicks, cavity, steps, uniform]
  have hd : driftModelOf (cavity 1 1e6 4e8 0 0 1 0 1 6 0 false).modelOf 0 = 0 := by
    simp [RfElement.modelOf, cavity, driftModelOf]
  unfold RfElement.Runs
  rw [hs, hd]
  have r0 : ∀ l q, Symplectic.Runs (rfDriftArgs 0) l q := fun l q => by constructor <;> intro h <;> simp [rfDriftArgs] at h
  refine ⟨r0 _ _, ?_, r0 _ _, trivial⟩
  have e : magnetDrift (rfDriftArgs 0) (1 / 2 * ((if false = true then -1 else 1) * (cavity 1 1e6 4e8 0 0 1 0 1 6 0 false).length * 1))
      { onAxis with x := 1e-3, zeta := 1e-2 } = { onAxis with x := 1e-3, zeta := 1e-2, s := 1 / 2 } := by
    norm_num [magnetDrift, rfDriftArgs, driftExpanded, onAxis, cavity]
  rw [e]
  refine alive_voltage (by simp [cavity]) (by simp [cavity]) rfl 1 rfl ?_
  have h : ∀ t, -1 ≤ Real.sin t := Real.neg_one_le_sin
  generalize seenPhase _ _ _ = t
  have h := h t
  norm_num [onAxis, protons, cavity]
  linarith

/-- Crab cavities in a lead beam, RF quadrupoles off axis. -/
example : (|(82 : ℝ)| ≠ 1 ∨ false = true) ∧ Real.cos (0 - 2 * Real.pi / clight * 4e8 / 1 * 0) ≠ 0
    ∧ onAxis.chi * 1 * 4e8 * (1 : ℝ) * Real.sin (Real.pi / 2 - 2 * Real.pi / clight * 4e8 / 1 * 0) ≠ 0 := by
  refine ⟨Or.inl (by norm_num), by norm_num, ?_⟩
  norm_num [onAxis]

end

end Verif.Rf
