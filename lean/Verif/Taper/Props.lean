import Verif.Taper.Model
import Mathlib.Analysis.SpecialFunctions.Trigonometric.Deriv
import Mathlib.Analysis.SpecialFunctions.Trigonometric.Inverse

namespace Verif.Taper

open Verif.Rf

noncomputable section

/-- `given` is what the tracking of the cavity gives: link with the area Rf. -/
theorem C118_given (W : Ctx) (hp : W.p0c ≠ 0) (hr : W.chargeRatio ≠ 0) (c : Cav) (absTime : ℤ) (ha : absTime ≠ 1) (n : ℕ) (model integ : ℤ)
    (hi : integ = 0 ∨ integ = 1 ∨ integ = 2 ∨ integ = 3) {p : Frames.Part} (k : p.Kin) (hc : p.chi ≠ 0) :
    excess W ((element false c absTime n model integ).track W 1 false p) - excess W p
      = |W.q0| * W.chargeRatio * given p.beta0 W.lineLength c p.zeta := by
  obtain ⟨t, _, h2⟩ := C77_gain hp hr c.voltage c.frequency c.harmonic (c.lag + c.lagTaper) (c.phase + c.phaseTaper) absTime n model integ hi 1 k hc
  unfold element
  simp only [Bool.false_eq_true, if_false]
  rw [h2, one_mul]
  unfold given seenPhase rfFrequency cavity
  simp only
  rw [if_neg ha, mul_assoc (|W.q0| * W.chargeRatio)]
  congr 3
  ring

/-- What the loop keeps: settings other than the voltage, and the voltages stay in proportion. -/
def Kept {n : ℕ} (L0 : Line n) (part : Fin n → ℝ) (L : Line n) : Prop :=
  L.noSynrad = L0.noSynrad ∧ L.taper = L0.taper
    ∧ ∃ a : ℝ, ∀ i, L.cavs i = { L0.cavs i with voltage := (L0.cavs i).voltage + a * part i }

theorem kept_add {n : ℕ} {L0 L : Line n} {part : Fin n → ℝ} (h : Kept L0 part L) (e : ℝ) : Kept L0 part (addVoltage e part L) := by
  obtain ⟨h1, h2, a, h3⟩ := h
  refine ⟨h1, h2, a + e, fun i => ?_⟩
  unfold addVoltage
  simp only
  rw [h3 i]
  simp only
  congr 1
  ring

/-- What is known at the end of the loop. -/
def LoopOk {n : ℕ} (W : World n) (tol : ℝ) (L0 : Line n) (part : Fin n → ℝ) : Loop n → Prop
  | .done L start t _ => Kept L0 part L ∧ t = W.turn L true start ∧ |eloss W t| < tol
  | .raised L => Kept L0 part L

theorem iterate_ok {n : ℕ} (W : World n) (tol : ℝ) (part : Fin n → ℝ) (second : Bool) (L0 : Line n) :
    ∀ (fuel : ℕ) (L : Line n) (start : ℝ) (last : Option (List ℝ × List ℝ)), Kept L0 part L →
      LoopOk W tol L0 part (iterate W tol part second fuel L start last) := by
  intro fuel
  induction fuel with
  | zero =>
    intro L start last h
    unfold iterate
    split_ifs with h1
    · exact h
    · simp only
      split_ifs with h2
      · exact ⟨h, rfl, h2⟩
      · exact kept_add h _
  | succ fuel ih =>
    intro L start last h
    unfold iterate
    split_ifs with h1
    · exact h
    · simp only
      split_ifs with h2
      · exact ⟨h, rfl, h2⟩
      · exact ih _ _ _ (kept_add h _)

theorem kept_refl {n : ℕ} (L : Line n) (part : Fin n → ℝ) : Kept L part L := ⟨rfl, rfl, 0, fun i => by simp⟩

theorem rounds_ok {n : ℕ} (W : World n) (tol : ℝ) (maxIter : ℕ) (part : Fin n → ℝ) (d0 : Delta0) (L : Line n) :
    LoopOk W tol L part (rounds W tol maxIter part d0 L) := by
  unfold rounds
  cases d0 with
  | «at» d => exact iterate_ok W tol part false L maxIter L d none (kept_refl L part)
  | zeroMean =>
    have h := iterate_ok W tol part false L maxIter L 0 none (kept_refl L part)
    simp only
    cases hr : iterate W tol part false maxIter L 0 none with
    | raised L' => rw [hr] at h; exact h
    | done L' start t last => rw [hr] at h; exact iterate_ok W tol part true L maxIter L' start last h.1

/-- On crest at no frequency a cavity gives its voltage, wherever the particle is. -/
theorem given_crest (beta0 len : ℝ) (c : Cav) (v zeta : ℝ) : given beta0 len { onCrest c with voltage := v } zeta = v := by
  unfold given onCrest
  simp only
  have e : Real.pi / 180 * (c.lag + 0) + c.phase + (Real.pi / 2 - deg2rad * c.lag - c.phase)
      - 2 * Real.pi * (0 + 0 * (beta0 * 299792458 / len)) * (zeta / (beta0 * 299792458)) = Real.pi / 2 := by
    unfold deg2rad; ring
  rw [e, Real.sin_pi_div_two, mul_one]

theorem fAll_eq {n : ℕ} (W : World n) (c : Cav) : fAll W c = c.frequency + c.harmonic * (W.beta0 * 299792458 / W.lineLength) := by
  unfold fAll clight
  rw [div_div, div_eq_mul_inv c.harmonic, inv_div]

/-- The phase at the end. -/
theorem phase_final {n : ℕ} (W : World n) (c0 c : Cav) (zeta z : ℝ) (hc : c.lag = c0.lag ∧ c.phase = c0.phase) (hv : |c0.voltage| > 0) :
    given W.beta0 W.lineLength (final W c0 c zeta) z
      = c0.voltage * Real.sin (Real.pi - Real.arcsin (c.voltage / c0.voltage)
          - 2 * Real.pi * fAll W c0 * ((z - zeta) / (W.beta0 * 299792458))) := by
  unfold given final finalPhase ratio
  simp only
  rw [if_pos hv, if_pos hv, ← fAll_eq W c0, hc.1, hc.2]
  congr 2
  unfold deg2rad clight
  rw [div_div (2 * Real.pi * fAll W c0 * zeta)]
  ring

theorem given_final {n : ℕ} (W : World n) (c0 c : Cav) (zeta : ℝ) (hc : c.lag = c0.lag ∧ c.phase = c0.phase)
    (hr : |c0.voltage| > 0 → |ratio c0 c| < 1) (h0 : |c0.voltage| = 0 → c.voltage = 0) :
    given W.beta0 W.lineLength (final W c0 c zeta) zeta = c.voltage := by
  by_cases hv : |c0.voltage| > 0
  · rw [phase_final W c0 c zeta zeta hc hv, sub_self, zero_div, mul_zero, sub_zero, Real.sin_pi_sub]
    have h1 := hr hv
    unfold ratio at h1
    rw [if_pos hv, abs_lt] at h1
    rw [Real.sin_arcsin h1.1.le h1.2.le]
    have hne : c0.voltage ≠ 0 := abs_pos.mp hv
    field_simp
  · have hz : |c0.voltage| = 0 := le_antisymm (not_lt.mp hv) (abs_nonneg _)
    rw [h0 hz]
    unfold given final
    simp only
    rw [abs_eq_zero.mp hz, zero_mul]

/-- What a run without exception has done. -/
theorem compensate_done {n : ℕ} (W : World n) (rtol : ℝ) (maxIter : ℕ) (delta0 : Delta0) (L L' : Line n)
    (h : compensate W rtol maxIter delta0 L = (L', .done)) :
    ∃ (v : Fin n → ℝ) (start : ℝ) (t : Turn n),
      t = W.turn ⟨fun i => { onCrest (L.cavs i) with voltage := v i }, L.taper, false⟩ true start
      ∧ |t.dptau * W.p0c| < W.energy0 * rtol
      ∧ L' = ⟨fun i => final W (L.cavs i) { onCrest (L.cavs i) with voltage := v i } (t.zeta i), W.tapers t.delta, false⟩
      ∧ ∀ i, (|(L.cavs i).voltage| > 0 → |v i / (L.cavs i).voltage| < 1) ∧ (|(L.cavs i).voltage| = 0 → v i = 0) := by
  unfold compensate at h
  simp only at h
  split_ifs at h with h1 h2
  · simp at h
  · simp at h
  · generalize hL3 : (⟨fun i => onCrest (L.cavs i), L.taper, false⟩ : Line n) = L3 at h
    generalize hpart : (fun i => (L.cavs i).voltage / ∑ i, (L.cavs i).voltage) = part at h
    have hl := rounds_ok W (W.energy0 * rtol) maxIter part delta0 L3
    cases hr : rounds W (W.energy0 * rtol) maxIter part delta0 L3 with
    | raised L4 => rw [hr] at h; simp at h
    | done L4 start t last =>
      rw [hr] at h hl
      obtain ⟨⟨k1, k2, a, k3⟩, ht, htol⟩ := hl
      simp only at h
      split_ifs at h with h3
      · simp only [Prod.mk.injEq, and_true] at h
        subst hL3
        simp only at k1 k2 k3
        have k3' : L4.cavs = fun i => { onCrest (L.cavs i) with voltage := a * part i } := by
          funext i
          rw [k3 i]
          simp [onCrest]
        have hL4 : L4 = ⟨fun i => { onCrest (L.cavs i) with voltage := a * part i }, L.taper, false⟩ := by
          cases L4
          simp only at k1 k2 k3'
          rw [k1, k2, k3']
        refine ⟨fun i => a * part i, start, t, by rw [← hL4]; exact ht, ?_, ?_, fun i => ⟨fun hv => ?_, fun hz => ?_⟩⟩
        · have : eloss W t = -(t.dptau * W.p0c) := by unfold eloss; ring
          rw [this, abs_neg] at htol
          exact htol
        · rw [← h, hL4]
        · have := h3 i hv
          unfold ratio at this
          rw [if_pos hv, k3'] at this
          exact this
        · simp only
          rw [← hpart]
          simp only
          rw [abs_eq_zero.mp hz]
          simp
      · simp at h

/-- **C118.**  When the compensation ends without exception, all cavities have the voltage, frequency, harmonic number, lag and phase which they had
before.  There is a turn, tracked with these cavities on crest with some voltages, in which the energy comes back within the tolerance; and on this turn each cavity,
as it is set at the end, gives exactly what it gave in that turn. -/
theorem C118_compensate {n : ℕ} (W : World n) (rtol : ℝ) (maxIter : ℕ) (delta0 : Delta0) (L L' : Line n)
    (h : compensate W rtol maxIter delta0 L = (L', .done)) :
    (∀ i, (L'.cavs i).voltage = (L.cavs i).voltage ∧ (L'.cavs i).frequency = (L.cavs i).frequency ∧ (L'.cavs i).harmonic = (L.cavs i).harmonic
        ∧ (L'.cavs i).lag = (L.cavs i).lag ∧ (L'.cavs i).phase = (L.cavs i).phase)
      ∧ L'.noSynrad = false
      ∧ ∃ (v : Fin n → ℝ) (start : ℝ) (t : Turn n),
          t = W.turn ⟨fun i => { onCrest (L.cavs i) with voltage := v i }, L.taper, false⟩ true start
          ∧ |t.dptau * W.p0c| < W.energy0 * rtol ∧ L'.taper = W.tapers t.delta
          ∧ ∀ i z, given W.beta0 W.lineLength { onCrest (L.cavs i) with voltage := v i } z = v i
            ∧ given W.beta0 W.lineLength (L'.cavs i) (t.zeta i) = v i := by
  obtain ⟨v, start, t, h1, h2, h3, h4⟩ := compensate_done W rtol maxIter delta0 L L' h
  subst h3
  refine ⟨fun i => ⟨rfl, rfl, rfl, rfl, rfl⟩, rfl, v, start, t, h1, h2, rfl, fun i z => ⟨given_crest _ _ _ _ _, ?_⟩⟩
  refine given_final W (L.cavs i) { onCrest (L.cavs i) with voltage := v i } (t.zeta i) ⟨rfl, rfl⟩ (fun hv => ?_) (h4 i).2
  unfold ratio
  rw [if_pos hv]
  exact (h4 i).1 hv

/-- The energy gain of the cavity at the end against `zeta`: its slope at the place of the particle is upwards for a positive voltage and frequency. -/
theorem slope_final {n : ℕ} (W : World n) (hb : 0 < W.beta0) (c0 c : Cav) (zeta : ℝ) (hc : c.lag = c0.lag ∧ c.phase = c0.phase)
    (hv : 0 < c0.voltage) (hf : 0 < fAll W c0) (hr : |c.voltage / c0.voltage| < 1) :
    ∃ k, 0 < k ∧ HasDerivAt (given W.beta0 W.lineLength (final W c0 c zeta)) k zeta := by
  have hv' : |c0.voltage| > 0 := abs_pos.mpr hv.ne'
  have e : given W.beta0 W.lineLength (final W c0 c zeta) = fun z => c0.voltage * Real.sin (Real.pi - Real.arcsin (c.voltage / c0.voltage)
      - 2 * Real.pi * fAll W c0 * ((z - zeta) / (W.beta0 * 299792458))) := funext fun z => phase_final W c0 c zeta z hc hv'
  rw [e]
  have hd : HasDerivAt (fun z : ℝ => Real.pi - Real.arcsin (c.voltage / c0.voltage) - 2 * Real.pi * fAll W c0 * ((z - zeta) / (W.beta0 * 299792458)))
      (-(2 * Real.pi * fAll W c0 * (1 / (W.beta0 * 299792458)))) zeta :=
    ((((hasDerivAt_id zeta).sub_const zeta).div_const _).const_mul _).const_sub _
  have h2 := (hd.sin).const_mul c0.voltage
  refine ⟨_, ?_, h2⟩
  rw [sub_self, zero_div, mul_zero, sub_zero, Real.cos_pi_sub]
  have hcos : 0 < Real.cos (Real.arcsin (c.voltage / c0.voltage)) := by
    rw [Real.cos_arcsin]
    apply Real.sqrt_pos.mpr
    have := sq_lt_one_iff_abs_lt_one (c.voltage / c0.voltage) |>.mpr hr
    linarith
  have hk : 0 < 2 * Real.pi * fAll W c0 * (1 / (W.beta0 * 299792458)) := by positivity
  have : c0.voltage * (-Real.cos (Real.arcsin (c.voltage / c0.voltage)) * -(2 * Real.pi * fAll W c0 * (1 / (W.beta0 * 299792458))))
      = c0.voltage * (Real.cos (Real.arcsin (c.voltage / c0.voltage)) * (2 * Real.pi * fAll W c0 * (1 / (W.beta0 * 299792458)))) := by ring
  rw [this]
  positivity

/-- The motion in the bucket is stable if a particle with too much energy falls back (`eta > 0`: `zeta` decreases) and gets less. -/
def Focusing (eta slope : ℝ) : Prop := 0 < eta * slope

/-- **C118, partial.**  Above transition the cavities end on the focusing slope for the turn of C118.  Missing: below transition, see the next theorem. -/
theorem C118_slope_partial {n : ℕ} (W : World n) (hb : 0 < W.beta0) (rtol : ℝ) (maxIter : ℕ) (delta0 : Delta0) (L L' : Line n)
    (h : compensate W rtol maxIter delta0 L = (L', .done)) (eta : ℝ) (he : 0 < eta) :
    ∃ (v : Fin n → ℝ) (start : ℝ) (t : Turn n), t = W.turn ⟨fun i => { onCrest (L.cavs i) with voltage := v i }, L.taper, false⟩ true start
      ∧ ∀ i, given W.beta0 W.lineLength (L'.cavs i) (t.zeta i) = v i ∧ (0 < (L.cavs i).voltage → 0 < fAll W (L.cavs i) →
        ∃ k, HasDerivAt (given W.beta0 W.lineLength (L'.cavs i)) k (t.zeta i) ∧ Focusing eta k) := by
  obtain ⟨v, start, t, h1, _, h3, h4⟩ := compensate_done W rtol maxIter delta0 L L' h
  subst h3
  refine ⟨v, start, t, h1, fun i => ⟨?_, fun hv hf => ?_⟩⟩
  · refine given_final W (L.cavs i) { onCrest (L.cavs i) with voltage := v i } (t.zeta i) ⟨rfl, rfl⟩ (fun hv => ?_) (h4 i).2
    unfold ratio
    rw [if_pos hv]
    exact (h4 i).1 hv
  · obtain ⟨k, k1, k2⟩ := slope_final W hb (L.cavs i) { onCrest (L.cavs i) with voltage := v i } (t.zeta i) ⟨rfl, rfl⟩ hv hf
      ((h4 i).1 (abs_pos.mpr hv.ne'))
    exact ⟨k, k2, mul_pos he k1⟩

/-- **C118, violation.**  Below transition (`eta < 0`) the cavities end on the other slope, in every run: the phase of above transition is used without a check. -/
theorem C118_below_transition_violated {n : ℕ} (W : World n) (hb : 0 < W.beta0) (rtol : ℝ) (maxIter : ℕ) (delta0 : Delta0) (L L' : Line n)
    (h : compensate W rtol maxIter delta0 L = (L', .done)) (eta : ℝ) (he : eta < 0) (i : Fin n) (hv : 0 < (L.cavs i).voltage)
    (hf : 0 < fAll W (L.cavs i)) :
    ∃ (v : Fin n → ℝ) (start : ℝ) (t : Turn n), t = W.turn ⟨fun i => { onCrest (L.cavs i) with voltage := v i }, L.taper, false⟩ true start
      ∧ ∃ k, HasDerivAt (given W.beta0 W.lineLength (L'.cavs i)) k (t.zeta i) ∧ ¬Focusing eta k := by
  obtain ⟨v, start, t, h1, _, h3, h4⟩ := compensate_done W rtol maxIter delta0 L L' h
  subst h3
  obtain ⟨k, k1, k2⟩ := slope_final W hb (L.cavs i) { onCrest (L.cavs i) with voltage := v i } (t.zeta i) ⟨rfl, rfl⟩ hv hf
    ((h4 i).1 (abs_pos.mpr hv.ne'))
  exact ⟨v, start, t, h1, k, k2, not_lt.mpr (mul_nonpos_of_nonpos_of_nonneg he.le k1.le)⟩

/-- **C118, violation.**  Whenever the iteration ends with an exception, the frequencies and harmonic numbers of all cavities are lost. -/
theorem C118_exception_violated {n : ℕ} (W : World n) (rtol : ℝ) (maxIter : ℕ) (delta0 : Delta0) (L L' : Line n)
    (ho : W.orbitFound { L with noSynrad := true } = true) (h : compensate W rtol maxIter delta0 L = (L', .raised)) :
    ∀ i, (L'.cavs i).frequency = 0 ∧ (L'.cavs i).harmonic = 0 := by
  unfold compensate at h
  simp only at h
  rw [if_neg (by rw [ho]; simp)] at h
  split_ifs at h with h2
  · simp at h
  · generalize hL3 : (⟨fun i => onCrest (L.cavs i), L.taper, false⟩ : Line n) = L3 at h
    generalize hpart : (fun i => (L.cavs i).voltage / ∑ i, (L.cavs i).voltage) = part at h
    have hl := rounds_ok W (W.energy0 * rtol) maxIter part delta0 L3
    have fin : ∀ L4 : Line n, Kept L3 part L4 → ∀ i, (L4.cavs i).frequency = 0 ∧ (L4.cavs i).harmonic = 0 := by
      rintro L4 ⟨_, _, a, k3⟩ i
      rw [k3 i, ← hL3]
      exact ⟨rfl, rfl⟩
    cases hr : rounds W (W.energy0 * rtol) maxIter part delta0 L3 with
    | raised L4 =>
      rw [hr] at h hl
      simp only [Prod.mk.injEq, and_true] at h
      subst h
      exact fin _ hl
    | done L4 start t last =>
      rw [hr] at h hl
      simp only at h
      split_ifs at h with h3
      · simp at h
      · simp only [Prod.mk.injEq, and_true] at h
        subst h
        exact fin L4 hl.1

/-- **C118, violation.**  A line which loses no energy, but whose cavities do not give zero in the first test: with the default `delta0` the function ends with an
exception, as a variable has no value in the second round. -/
theorem C118_no_loss_violated {n : ℕ} (W : World n) (rtol : ℝ) (maxIter : ℕ) (L : Line n) (ht : 0 < W.energy0 * rtol)
    (ho : W.orbitFound { L with noSynrad := true } = true)
    (h0 : ¬(|eloss W (W.turn { L with noSynrad := false } false (L.taper.headD 0))| < W.energy0 * rtol))
    (h1 : eloss W (W.turn ⟨fun i => onCrest (L.cavs i), L.taper, false⟩ true 0) = 0) :
    (compensate W rtol maxIter .zeroMean L).2 = .raised := by
  unfold compensate
  simp only
  rw [if_neg (by rw [ho]; simp), if_neg (by tauto)]
  have e : ∀ part, rounds W (W.energy0 * rtol) maxIter part .zeroMean ⟨fun i => onCrest (L.cavs i), L.taper, false⟩
      = .raised ⟨fun i => onCrest (L.cavs i), L.taper, false⟩ := by
    intro part
    have e1 : iterate W (W.energy0 * rtol) part false maxIter ⟨fun i => onCrest (L.cavs i), L.taper, false⟩ 0 none
        = .done ⟨fun i => onCrest (L.cavs i), L.taper, false⟩ 0 (W.turn ⟨fun i => onCrest (L.cavs i), L.taper, false⟩ true 0) none := by
      cases maxIter <;> (unfold iterate; simp [h1, ht])
    unfold rounds
    simp only
    rw [e1]
    simp only
    cases maxIter <;> (unfold iterate; simp)
  rw [e]

/-! ### A case: one cavity, a loss of `1` per turn -/

/-- The loss is `1` less what the voltages give. -/
def sampleWorld : World 1 where
  p0c := 1
  energy0 := 1
  beta0 := 1
  lineLength := 1
  orbitFound := fun _ => true
  turn := fun L tap _ => ⟨true, if tap then (L.cavs 0).voltage - 1 else -1, [], [], fun _ => 3⟩
  average := fun _ _ => 0
  tapers := fun _ => []

def sampleLine : Line 1 := ⟨fun _ => ⟨2, 400, 0, 0, 0, 0, 0⟩, [], false⟩

/-- The hypotheses of the theorems on runs which end are met: the default run ends after two passes. -/
example : ∃ L', compensate sampleWorld (1 / 2) 100 .zeroMean sampleLine = (L', .done) := by
  have h1 : (iterate sampleWorld (1 / 2) (fun _ => 1) false 100 ⟨fun i => onCrest (sampleLine.cavs i), [], false⟩ 0 none)
      = .done ⟨fun i => { onCrest (sampleLine.cavs i) with voltage := 1 }, [], false⟩ 0 ⟨true, 0, [], [], fun _ => 3⟩ (some ([], [])) := by
    unfold iterate
    norm_num [sampleWorld, eloss, onCrest, sampleLine, addVoltage]
    unfold iterate
    norm_num [sampleWorld, eloss, onCrest, sampleLine, addVoltage]
  have h2 : (iterate sampleWorld (1 / 2) (fun _ => 1) true 100 ⟨fun i => { onCrest (sampleLine.cavs i) with voltage := 1 }, [], false⟩ 0 (some ([], [])))
      = .done ⟨fun i => { onCrest (sampleLine.cavs i) with voltage := 1 }, [], false⟩ 0 ⟨true, 0, [], [], fun _ => 3⟩ (some ([], [])) := by
    unfold iterate
    norm_num [sampleWorld, eloss, onCrest, sampleLine, addVoltage]
    intro hh
    cases hh
  unfold compensate
  simp only
  rw [if_neg (by simp [sampleWorld]), if_neg (by norm_num [sampleWorld, eloss])]
  have hp : (fun i : Fin 1 => (sampleLine.cavs i).voltage / ∑ i, (sampleLine.cavs i).voltage) = fun _ => 1 := by
    funext i; norm_num [sampleLine]
  have he : sampleWorld.energy0 * (1 / 2) = (1 / 2 : ℝ) := by norm_num [sampleWorld]
  have ht : sampleLine.taper = [] := rfl
  rw [hp, he, ht]
  unfold rounds
  simp only
  rw [h1]
  simp only
  rw [h2]
  simp only
  rw [if_pos (by intro i _; norm_num [ratio, sampleLine])]
  exact ⟨_, rfl⟩

/-- A run which ends with an exception: a tolerance which is not reached. -/
example : ∃ L', compensate sampleWorld 0 0 (.at 0) sampleLine = (L', .raised) := by
  unfold compensate
  simp only
  rw [if_neg (by simp [sampleWorld]), if_neg (by norm_num [sampleWorld, eloss])]
  unfold rounds iterate
  simp only
  rw [if_neg (by simp), if_neg (by simp)]
  exact ⟨_, rfl⟩

end

end Verif.Taper
