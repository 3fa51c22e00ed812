import Verif.Thin.Symplectic
import Verif.Thin.Spec
import Mathlib.MeasureTheory.Integral.IntervalIntegral.FundThmCalculus
import Mathlib.Analysis.SpecialFunctions.Integrals.Basic

/-!
# Thin elements: properties C82 to C88
-/

namespace Verif.Thin

open Frames hiding curvature
open Symplectic Magnets Filter Topology
open Rf (Ctx clight)

noncomputable section

/-! ### C82: thin elements are symplectic -/

/-- **C82.**  Tracking through a thin element is symplectic.  (C78 has the same for lines and turns with these elements.)
Missing: bends for particles with `chi ≠ 1` and electron lenses, for which this is false (below). -/
theorem C82_thin_partial (c : Ctx) (t : Element) (back : Bool) {p : Part} (k : p.Kin) (r : t.Runs c p) :
    SymplecticAt (fun q => t.track c back q) p := (t.good c back k r).2

/-! ### C83: AC dipole -/

theorem vrfScaled_eq (vrf : ℝ) {r1 r2 r3 r4 : ℕ} (h1 : r1 < r2) (h2 : r2 ≤ r3) (h3 : r3 < r4) (t : ℝ) :
    vrfScaled vrf r1 r2 r3 r4 t = trapezoid r1 r2 r3 r4 t * vrf := by
  have c1 : (r1 : ℝ) < r2 := by exact_mod_cast h1
  have c2 : (r2 : ℝ) ≤ r3 := by exact_mod_cast h2
  have c3 : (r3 : ℝ) < r4 := by exact_mod_cast h3
  have d1 : (0 : ℝ) < r2 - r1 := by linarith
  have d2 : (0 : ℝ) < r4 - r3 := by linarith
  unfold vrfScaled trapezoid
  split_ifs with a1 a2 a3 a4
  · rw [max_eq_left, zero_mul]
    exact (min_le_right _ _).trans ((min_le_left _ _).trans (div_nonpos_of_nonpos_of_nonneg (by linarith) d1.le))
  · have b1 : (t - r1) / (r2 - r1) ≤ 1 := (div_le_one d1).2 (by linarith)
    have b2 : 1 ≤ (r4 - t) / ((r4 : ℝ) - r3) := (one_le_div d2).2 (by linarith)
    rw [min_eq_left (b1.trans b2), min_eq_right b1, max_eq_right (div_nonneg (by linarith) d1.le)]
    ring
  · have b1 : 1 ≤ (t - r1) / ((r2 : ℝ) - r1) := (one_le_div d1).2 (by linarith)
    have b2 : 1 ≤ (r4 - t) / ((r4 : ℝ) - r3) := (one_le_div d2).2 (by linarith)
    rw [min_eq_left (le_min b1 b2), max_eq_right zero_le_one, one_mul]
  · have b1 : 1 ≤ (t - r1) / ((r2 : ℝ) - r1) := (one_le_div d1).2 (by linarith)
    have b2 : (r4 - t) / ((r4 : ℝ) - r3) ≤ 1 := (div_le_one d2).2 (by linarith)
    rw [min_eq_right (b2.trans b1), min_eq_right b2, max_eq_right (div_nonneg (by linarith) d2.le)]
    ring
  · rw [max_eq_left, zero_mul]
    exact (min_le_right _ _).trans ((min_le_right _ _).trans (div_nonpos_of_nonpos_of_nonneg (by linarith) d2.le))

/-- **C83, tracking mode.**  The kick of turn `n` is `0.3 volt / p0c` (in GeV) times the trapezoid of the ramp times
`sin (2 pi (freq n + lag))`, in the plane of the dipole, and nothing else changes.
Missing: ramps which last for 65536 turns or more, and `lag` in radians, which is the documented unit; both below. -/
theorem C83_kick_partial (a : AcDipole) (c : Ctx) (p : Part) (mode : a.twissMode = 0) (h1 : a.ramp1 < a.ramp2) (h2 : a.ramp2 ≤ a.ramp3)
    (h3 : a.ramp3 < a.ramp4) (h4 : a.ramp4 < 65536) :
    let kick := 0.3 * a.volt / (c.p0c / 10 ^ 9) * trapezoid a.ramp1 a.ramp2 a.ramp3 a.ramp4 c.atTurn
      * Real.sin (2 * Real.pi * (a.freq * c.atTurn + a.lag))
    (a.plane = 0 → a.track c p = p) ∧ (a.plane = 1 → a.track c p = { p with px := p.px + kick })
      ∧ (a.plane = 2 → a.track c p = { p with py := p.py + kick }) := by
  intro kick
  have u : ∀ r, r ≤ a.ramp4 → u16 r = r := fun r hr => Nat.mod_eq_of_lt (by omega)
  have e : vrfScaled (a.volt * 300e-3) (u16 a.ramp1) (u16 a.ramp2) (u16 a.ramp3) (u16 a.ramp4) c.atTurn / (c.p0c / 1e9)
      * Real.sin (a.lag * 2 * Real.pi + a.freq * 2 * Real.pi * c.atTurn) = kick := by
    rw [u _ (by omega), u _ (by omega), u _ (by omega), u _ le_rfl, vrfScaled_eq _ h1 h2 h3]
    have : a.lag * 2 * Real.pi + a.freq * 2 * Real.pi * c.atTurn = 2 * Real.pi * (a.freq * c.atTurn + a.lag) := by ring
    rw [this]
    simp only [kick]
    generalize Real.sin (2 * Real.pi * (a.freq * c.atTurn + a.lag)) = S
    generalize trapezoid a.ramp1 a.ramp2 a.ramp3 a.ramp4 c.atTurn = T
    ring
  refine ⟨fun h => by simp [AcDipole.track, h], fun h => ?_, fun h => ?_⟩
  · simp only [AcDipole.track, h, mode, if_true, rampedAc, one_ne_zero, if_false, e]
  · simp only [AcDipole.track, h, mode, if_true, rampedAc, OfNat.ofNat_ne_zero, OfNat.ofNat_ne_one, if_false, e]

/-- A sequence of assignments. -/
def AcTwiss.run (a : AcTwiss) (l : List AcOp) : AcTwiss := l.foldl AcTwiss.step a

theorem acTwiss_grad (f b q : Option ℝ) (l : List AcOp) :
    let a := (AcTwiss.new f b q).run l
    a.grad = effGrad a.beta a.naturalQ a.freq := by
  have key : ∀ (l : List AcOp) (a : AcTwiss), a.grad = effGrad a.beta a.naturalQ a.freq →
      (a.run l).grad = effGrad (a.run l).beta (a.run l).naturalQ (a.run l).freq := by
    intro l
    induction l with
    | nil => exact fun a h => h
    | cons o l ih => exact fun a _ => ih (a.step o) (by cases o <;> rfl)
  exact key l _ rfl

theorem cos_fract (x : ℝ) : Real.cos (2 * Real.pi * Int.fract x) = Real.cos (2 * Real.pi * x) := by
  have : 2 * Real.pi * Int.fract x = 2 * Real.pi * x - ⌊x⌋ * (2 * Real.pi) := by
    unfold Int.fract
    ring
  rw [this, Real.cos_sub_int_mul_two_pi]

theorem sin_fract (x : ℝ) : Real.sin (2 * Real.pi * Int.fract x) = Real.sin (2 * Real.pi * x) := by
  have : 2 * Real.pi * Int.fract x = 2 * Real.pi * x - ⌊x⌋ * (2 * Real.pi) := by
    unfold Int.fract
    ring
  rw [this, Real.sin_sub_int_mul_two_pi]

/-- **C83, twiss mode.**  However the frequency, the natural tune and the beta function were set: a ring which has this natural tune and
this beta function at the dipole has the frequency of the dipole as its tune (the trace of the one-turn matrix is `2 cos (2 pi freq)`)
when the dipole is in the line.  Without a beta function the dipole does nothing.
Missing: a natural tune for which `sin (2 pi q)` vanishes, in particular none at all (below). -/
theorem C83_twiss_partial (f b q : Option ℝ) (l : List AcOp) (c : Ctx) (d : AcDipole) (hm : d.twissMode ≠ 0) (p : Part) :
    let a := (AcTwiss.new f b q).run l
    (a.beta = 0 → a.grad = some 0)
      ∧ (a.beta ≠ 0 → Real.sin (2 * Real.pi * a.naturalQ) ≠ 0 → ∃ g, a.grad = some g
        ∧ ∀ alpha, (thinLens g * oneTurn a.beta alpha a.naturalQ).trace = 2 * Real.cos (2 * Real.pi * a.freq))
      ∧ (∀ g, a.grad = some g → d.effGrad = g → (d.plane = 1 → d.track c p = { p with px := p.px + g * p.x })
        ∧ (d.plane = 2 → d.track c p = { p with py := p.py + g * p.y })) := by
  intro a
  have hg : a.grad = effGrad a.beta a.naturalQ a.freq := acTwiss_grad f b q l
  refine ⟨fun h => ?_, fun hb hs => ?_, fun g _ hd => ⟨fun h => ?_, fun h => ?_⟩⟩
  · rw [hg, effGrad, if_pos h]
  · refine ⟨2 * (Real.cos (2 * Real.pi * a.freq) - Real.cos (2 * Real.pi * a.naturalQ)) / (a.beta * Real.sin (2 * Real.pi * a.naturalQ)),
      ?_, fun alpha => ?_⟩
    · rw [hg, effGrad, if_neg hb, sin_fract, if_neg hs, cos_fract, cos_fract]
    · simp only [thinLens, oneTurn, Matrix.trace_fin_two, Matrix.mul_apply, Fin.sum_univ_two, Matrix.of_apply, Matrix.cons_val]
      field_simp
      ring
  · simp only [AcDipole.track, h, one_ne_zero, if_false, hm, effGradAc, hd, if_true]
    split_ifs with h0
    · simp [h0]
    · rfl
  · simp only [AcDipole.track, h, OfNat.ofNat_ne_zero, OfNat.ofNat_ne_one, if_false, hm, effGradAc, hd]
    split_ifs with h0
    · simp [h0]
    · rfl

/-! ### C84: exciter -/

/-- The time of arrival after the start of the excitation. -/
def sinceStart (e : Exciter) (c : Ctx) (p : Part) : ℝ := (c.atTurn - e.startTurn) / e.frev - p.zeta / (p.beta0 * clight)

/-- **C84.**  A particle which arrives within sample `n` of the excitation gets the kick of the multipoles `knl` and `ksl`, scaled by the
sample `n` (the waveform is repeated); a particle which arrives when the excitation is over, or one sample or more before it begins, gets
none.  Missing: arrival less than a sample before the beginning (below). -/
theorem C84_exciter_partial (e : Exciter) (ho : 0 ≤ e.order) (hf : 0 < e.samplingFrequency) (c : Ctx) (p : Part) :
    (∀ n : ℕ, (n : ℤ) < e.nduration → n / e.samplingFrequency ≤ sinceStart e c p → sinceStart e c p < (n + 1) / e.samplingFrequency →
      let b := (e.samples (n % e.nsamples) : ℂ) * field e.knl e.ksl e.order.toNat p.x p.y
      e.track c false p = { p with px := p.px - p.chi * b.re, py := p.py + p.chi * b.im })
    ∧ (0 ≤ e.nduration → e.nduration / e.samplingFrequency ≤ sinceStart e c p → e.track c false p = p)
    ∧ (sinceStart e c p ≤ -1 / e.samplingFrequency → e.track c false p = p) := by
  have hw : e.phase c p = e.samplingFrequency * sinceStart e c p := by
    unfold Exciter.phase sinceStart
    rw [div_div]
  refine ⟨fun n hn h1 h2 => ?_, fun hd h1 => ?_, fun h1 => ?_⟩
  · have l1 : (n : ℝ) ≤ e.phase c p := by
      rw [hw]
      rw [div_le_iff₀ hf] at h1
      linarith
    have l2 : e.phase c p < (n : ℝ) + 1 := by
      rw [hw]
      rw [lt_div_iff₀ hf] at h2
      linarith
    have ht : trunc (e.phase c p) = n := by
      rw [trunc, if_pos ((Nat.cast_nonneg n).trans l1), Int.floor_eq_iff]
      exact ⟨by exact_mod_cast l1, by exact_mod_cast l2⟩
    have hs : e.strength (trunc (e.phase c p)) = e.samples (n % e.nsamples) := by
      unfold Exciter.strength
      rw [ht, if_pos ⟨by omega, hn⟩]
      congr 1
      split_ifs with h
      · rw [← Int.natCast_mod, Int.toNat_natCast]
      · rw [Int.toNat_natCast, Nat.mod_eq_of_lt (by omega)]
    intro b
    rw [exciter_track, hs, (exciter_sum e ho _ _ _).1, (exciter_sum e ho _ _ _).2]
    simp only [b, Complex.re_ofReal_mul, Complex.im_ofReal_mul, Bool.false_eq_true, if_false]
    congr 1 <;> ring
  · have l1 : (e.nduration : ℝ) ≤ e.phase c p := by
      rw [hw]
      rw [div_le_iff₀ hf] at h1
      linarith
    have ht : e.nduration ≤ trunc (e.phase c p) := by
      rw [trunc, if_pos (le_trans (by exact_mod_cast hd) l1)]
      exact Int.le_floor.2 l1
    simp only [Exciter.track]
    rw [if_neg (by omega)]
  · have l1 : e.phase c p ≤ -1 := by
      rw [hw]
      rw [le_div_iff₀ hf] at h1
      linarith
    have ht : trunc (e.phase c p) < 0 := by
      rw [trunc, if_neg (by linarith)]
      have : ⌈e.phase c p⌉ ≤ -1 := Int.ceil_le.2 (by push_cast; exact l1)
      omega
    simp only [Exciter.track]
    rw [if_neg (by omega)]

/-! ### C85: wire -/

theorem biotSavart_eq (m i length s : ℝ) {r : ℝ} (hr : 0 < r) :
    biotSavart m i length r s = m * i / (4 * Real.pi) * (((s + length / 2) / Real.sqrt ((s + length / 2) ^ 2 + r ^ 2)
      - (s - length / 2) / Real.sqrt ((s - length / 2) ^ 2 + r ^ 2)) / r) := by
  unfold biotSavart
  congr 1
  have pos : ∀ t : ℝ, 0 < (s - t) ^ 2 + r ^ 2 := fun t => by positivity
  rw [intervalIntegral.integral_eq_sub_of_hasDerivAt (f := fun t => -((s - t) / Real.sqrt ((s - t) ^ 2 + r ^ 2) / r))]
  · simp only [sub_neg_eq_add]
    ring
  · intro t _
    have h0 := Real.sqrt_pos.2 (pos t)
    have h1 := Real.sq_sqrt (pos t).le
    have d : HasDerivAt (fun t : ℝ => s - t) (-1) t := (hasDerivAt_id' t).const_sub s
    refine (((d.fun_div (((d.fun_pow 2).add_const (r ^ 2)).sqrt (pos t).ne') h0.ne').div_const r).fun_neg).congr_deriv ?_
    generalize Real.sqrt ((s - t) ^ 2 + r ^ 2) = w at *
    simp only [Nat.cast_ofNat, Nat.add_one_sub_one, pow_one]
    field_simp
    nlinarith
  · apply Continuous.intervalIntegrable
    have : ∀ t : ℝ, Real.sqrt ((s - t) ^ 2 + r ^ 2) ^ 3 ≠ 0 := fun t => (pow_pos (Real.sqrt_pos.2 (pos t)) 3).ne'
    fun_prop (disch := assumption)

theorem wireIntegral_eq (m i length inter : ℝ) {r : ℝ} (hr : 0 < r) :
    wireIntegral m i length inter r = m * i / (4 * Real.pi)
      * ((Real.sqrt ((inter + length) ^ 2 + 4 * r ^ 2) - Real.sqrt ((inter - length) ^ 2 + 4 * r ^ 2)) / r) := by
  unfold wireIntegral
  simp only [biotSavart_eq m i length _ hr]
  have pos : ∀ t : ℝ, 0 < t ^ 2 + r ^ 2 := fun t => by positivity
  have half : ∀ t : ℝ, Real.sqrt ((t / 2) ^ 2 + r ^ 2) = Real.sqrt (t ^ 2 + 4 * r ^ 2) / 2 := fun t => by
    rw [show (t / 2) ^ 2 + r ^ 2 = (t ^ 2 + 4 * r ^ 2) / 2 ^ 2 by ring, Real.sqrt_div (by positivity), Real.sqrt_sq (by norm_num)]
  rw [intervalIntegral.integral_eq_sub_of_hasDerivAt (f := fun s => m * i / (4 * Real.pi)
    * ((Real.sqrt ((s + length / 2) ^ 2 + r ^ 2) - Real.sqrt ((s - length / 2) ^ 2 + r ^ 2)) / r))]
  · have e1 : inter / 2 + length / 2 = (inter + length) / 2 := by ring
    have e2 : inter / 2 - length / 2 = (inter - length) / 2 := by ring
    have e3 : (-(inter / 2) + length / 2) ^ 2 = ((inter - length) / 2) ^ 2 := by ring
    have e4 : (-(inter / 2) - length / 2) ^ 2 = ((inter + length) / 2) ^ 2 := by ring
    rw [e1, e2, e3, e4, half, half]
    ring
  · intro s _
    have d1 : HasDerivAt (fun s : ℝ => s + length / 2) 1 s := (hasDerivAt_id' s).add_const _
    have d2 : HasDerivAt (fun s : ℝ => s - length / 2) 1 s := (hasDerivAt_id' s).sub_const _
    refine ((((((d1.fun_pow 2).add_const (r ^ 2)).sqrt (pos _).ne').fun_sub (((d2.fun_pow 2).add_const (r ^ 2)).sqrt
      (pos _).ne')).div_const r).const_mul (m * i / (4 * Real.pi))).congr_deriv ?_
    have h1 := (Real.sqrt_pos.2 (pos (s + length / 2))).ne'
    have h2 := (Real.sqrt_pos.2 (pos (s - length / 2))).ne'
    simp only [Nat.cast_ofNat, Nat.add_one_sub_one, pow_one, mul_one]
    congr 2
    field_simp
  · apply Continuous.intervalIntegrable
    have h1 : ∀ s : ℝ, Real.sqrt ((s + length / 2) ^ 2 + r ^ 2) ≠ 0 := fun s => (Real.sqrt_pos.2 (pos _)).ne'
    have h2 : ∀ s : ℝ, Real.sqrt ((s - length / 2) ^ 2 + r ^ 2) ≠ 0 := fun s => (Real.sqrt_pos.2 (pos _)).ne'
    fun_prop (disch := assumption)

/-- **C85.**  The kick of a `Wire` is `q / p0` times the field of a straight wire by the law of Biot and Savart, integrated over the
interaction length, towards the wire for a positive current; minus the kick which is to be subtracted.
Missing: particles with `chi ≠ 1` (below). -/
theorem C85_wire_partial (w : Wire) (c : Ctx) (p : Part) (off : w.Off p) (hchi : p.chi = 1) :
    let r := Real.sqrt ((p.x - w.xma) ^ 2 + (p.y - w.yma) ^ 2)
    let kick := p.chi * (c.q0 / (c.p0c / clight)) * wireIntegral mu0 w.current w.lPhy w.lInt r
    w.track c p = { p with px := p.px - kick * ((p.x - w.xma) / r) - w.postPx, py := p.py - kick * ((p.y - w.yma) / r) - w.postPy } := by
  intro r kick
  have pos : 0 < (p.x - w.xma) ^ 2 + (p.y - w.yma) ^ 2 := by
    rcases off with h | h
    · have := sq_pos_of_ne_zero (sub_ne_zero.2 h)
      positivity
    · have := sq_pos_of_ne_zero (sub_ne_zero.2 h)
      positivity
  have hr : 0 < r := Real.sqrt_pos.2 pos
  have r2 : (p.x - w.xma) ^ 2 + (p.y - w.yma) ^ 2 = r ^ 2 := by
    simp only [r]
    rw [Real.sq_sqrt pos.le]
  simp only [Wire.track, kick, wireIntegral_eq _ _ _ _ hr, hchi, ← pow_two, r2]
  have h0 := hr.ne'
  have hpi := Real.pi_ne_zero
  generalize Real.sqrt ((w.lInt + w.lPhy) ^ 2 + 4 * r ^ 2) = A
  generalize Real.sqrt ((w.lInt - w.lPhy) ^ 2 + 4 * r ^ 2) = B
  generalize p.x - w.xma = X
  generalize p.y - w.yma = Y
  congr 1 <;> field_simp <;> ring

/-! ### C86: backtracking -/

/-- **C86.**  Backtracking through a thin bend, a thin quadrupole, a time delay, an exciter or an electron lens undoes tracking.
Missing: electron lenses with a residual kick, for particles within the inner radius (below). -/
theorem C86_backtrack_partial (c : Ctx) (p : Part) :
    (∀ knl0 hxl length, thinBend knl0 hxl length true (thinBend knl0 hxl length false p) = p)
    ∧ (∀ knl1, thinQuad knl1 true (thinQuad knl1 false p) = p)
    ∧ (∀ s, timeDelay s true (timeDelay s false p) = p)
    ∧ (∀ e : Exciter, 0 ≤ e.order → e.track c true (e.track c false p) = p)
    ∧ (∀ e : Elens, (e.residualX = 0 ∧ e.residualY = 0) ∨ e.innerRadius < Real.sqrt (p.x ^ 2 + p.y ^ 2) →
      e.track c true (e.track c false p) = p) := by
  refine ⟨fun k h l => ?_, fun k => ?_, fun s => ?_, fun e ho => ?_, fun e he => ?_⟩
  · unfold thinBend Cleanup.simpleBend
    by_cases hh : h = 0
    · simp [hh]
    · by_cases hl : l = 0
      · simp [hh, hl]
        apply Frames.Part.ext <;> simp
        ring
      · simp [hh, hl]
        apply Frames.Part.ext <;> simp
        field_simp
        ring
  · apply Frames.Part.ext <;> simp [thinQuad, Cleanup.simpleQuad]
  · apply Frames.Part.ext <;> simp [timeDelay]
  · have hp : e.phase c (e.track c false p) = e.phase c p := by
      rw [exciter_track]
      rfl
    rw [exciter_track e c true, hp, exciter_track e c false, (exciter_sum e ho _ _ _).1, (exciter_sum e ho _ _ _).2,
      (exciter_sum e ho _ _ _).1, (exciter_sum e ho _ _ _).2]
    apply Frames.Part.ext <;> simp
  · unfold Elens.track
    simp only [← pow_two]
    by_cases hr : Real.sqrt (p.x ^ 2 + p.y ^ 2) > e.innerRadius
    · simp only [if_pos hr]
      apply Frames.Part.ext <;> simp [Elens.thetaMax] <;> ring
    · obtain ⟨h1, h2⟩ := he.resolve_right hr
      simp only [if_neg hr, h1, h2, add_zero]

end

end Verif.Thin
