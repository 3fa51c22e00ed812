import Verif.Rf.Props

/-!
# Tapering: `compensate_radiation_energy_loss` (C118)

Modelled: `/repo/xtrack/tapering.py`, lines 9-159: the order in which the settings of the cavities are saved, changed and restored, the iteration on the
voltages, the phases which are set at the end, and the ways in which the function ends with an exception.  Tracking and the search of the closed
orbit are arbitrary functions of the settings.  Not modelled: the checks at the entry (lines 14-31), printing, floating point.
-/

namespace Verif.Taper

open Verif.Rf

noncomputable section

/-- The settings of a cavity which the function reads or writes. -/
structure Cav where
  voltage : ℝ
  frequency : ℝ
  harmonic : ℝ
  lag : ℝ
  phase : ℝ
  lagTaper : ℝ
  phaseTaper : ℝ

/-- The line: its cavities, the `delta_taper` of its magnets, and the option `XTRACK_MULTIPOLE_NO_SYNRAD`. -/
structure Line (n : ℕ) where
  cavs : Fin n → Cav
  taper : List ℝ
  noSynrad : Bool

/-- What the code reads of the record of one turn, element by element. -/
structure Turn (n : ℕ) where
  alive : Bool
  /-- `mon.ptau[0, -1] - mon.ptau[0, 0]` -/
  dptau : ℝ
  delta : List ℝ
  s : List ℝ
  /-- `mon.zeta[0, :-1][mask_cav]` -/
  zeta : Fin n → ℝ

/-- The rest of the world. -/
structure World (n : ℕ) where
  p0c : ℝ
  energy0 : ℝ
  beta0 : ℝ
  lineLength : ℝ
  /-- does the 4d search of the closed orbit succeed -/
  orbitFound : Line n → Bool
  /-- a turn with these settings, the magnets tapered on the fly or not, from this `delta` -/
  turn : Line n → Bool → ℝ → Turn n
  /-- `trapz(delta, ss) / ss[-1]` -/
  average : List ℝ → List ℝ → ℝ
  /-- the values of `delta_taper` from the record, lines 135-140 -/
  tapers : List ℝ → List ℝ

/-- The error of energy of a turn, lines 59, 116. -/
def eloss {n : ℕ} (W : World n) (t : Turn n) : ℝ := -t.dptau * W.p0c

/-- All cavities on crest, without voltage and frequency, lines 77-87. -/
def onCrest (c : Cav) : Cav :=
  { c with lagTaper := 0, phaseTaper := Real.pi / 2 - deg2rad * c.lag - c.phase, voltage := 0, frequency := 0, harmonic := 0 }

/-- Line 123. -/
def addVoltage {n : ℕ} (e : ℝ) (part : Fin n → ℝ) (L : Line n) : Line n :=
  { L with cavs := fun i => { L.cavs i with voltage := (L.cavs i).voltage + e * part i } }

/-- How the `while` loop ends: with the record of the last turn, or with an exception. -/
inductive Loop (n : ℕ) where
  | done (L : Line n) (start : ℝ) (t : Turn n) (last : Option (List ℝ × List ℝ))
  | raised (L : Line n)

/-- The `while` loop, lines 103-131, with `fuel + 1` passes allowed.  `second` is the condition of line 105, `last` are the variables `delta`
and `ss`, which have no value before the first pass which does not end the loop. -/
def iterate {n : ℕ} (W : World n) (tol : ℝ) (part : Fin n → ℝ) (second : Bool) :
    ℕ → Line n → ℝ → Option (List ℝ × List ℝ) → Loop n
  | fuel, L, start, last =>
    if second ∧ last = none then .raised L
    else
      let start' := match second, last with
        | true, some (d, s) => start - W.average d s
        | _, _ => start
      let t := W.turn L true start'
      if |eloss W t| < tol then .done L start' t last
      else
        let L' := addVoltage (eloss W t) part L
        match fuel with
        | 0 => .raised L'
        | fuel + 1 => iterate W tol part second fuel L' start' (some (t.delta, t.s))

/-- `delta0`: the mean or a given value at the start. -/
inductive Delta0 where
  | zeroMean
  | at (d : ℝ)

/-- The rounds, lines 93-131. -/
def rounds {n : ℕ} (W : World n) (tol : ℝ) (maxIter : ℕ) (part : Fin n → ℝ) (d0 : Delta0) (L : Line n) : Loop n :=
  match d0 with
  | .at d => iterate W tol part false maxIter L d none
  | .zeroMean =>
    match iterate W tol part false maxIter L 0 none with
    | .raised L' => .raised L'
    | .done L' start _ last => iterate W tol part true maxIter L' start last

/-- `f0_all`, line 81. -/
def fAll {n : ℕ} (W : World n) (c : Cav) : ℝ := c.frequency + c.harmonic / (W.lineLength / W.beta0 / clight)

/-- `v_ratio`, lines 147-149. -/
def ratio (c0 c : Cav) : ℝ := if |c0.voltage| > 0 then c.voltage / c0.voltage else 0

/-- `phase_taper`, lines 151-156. -/
def finalPhase {n : ℕ} (W : World n) (c0 c : Cav) (zeta : ℝ) : ℝ :=
  if |c0.voltage| > 0 then
    Real.pi - (Real.arcsin (ratio c0 c) - 2 * Real.pi * fAll W c0 * zeta / W.beta0 / clight) - deg2rad * c0.lag - c0.phase
  else 0

/-- The settings at the end, lines 157-162. -/
def final {n : ℕ} (W : World n) (c0 c : Cav) (zeta : ℝ) : Cav :=
  { c with voltage := c0.voltage, frequency := c0.frequency, harmonic := c0.harmonic, lagTaper := 0, phaseTaper := finalPhase W c0 c zeta }

/-- How the function ends. -/
inductive Outcome where
  | done
  | notNeeded
  | raised
  deriving DecidableEq

/-- `compensate_radiation_energy_loss`. -/
def compensate {n : ℕ} (W : World n) (rtol : ℝ) (maxIter : ℕ) (delta0 : Delta0) (L : Line n) : Line n × Outcome :=
  let L1 := { L with noSynrad := true }
  if W.orbitFound L1 = false then (L1, .raised)
  else
    let L2 := { L with noSynrad := false }
    let t0 := W.turn L2 false (L.taper.headD 0)
    if t0.alive ∧ |eloss W t0| < W.energy0 * rtol then (L2, .notNeeded)
    else
      let total := ∑ i, (L.cavs i).voltage
      let part := fun i => (L.cavs i).voltage / total
      let L3 : Line n := { L2 with cavs := fun i => onCrest (L.cavs i) }
      match rounds W (W.energy0 * rtol) maxIter part delta0 L3 with
      | .raised L4 => (L4, .raised)
      | .done L4 _ t _ =>
        let L5 := { L4 with taper := W.tapers t.delta }
        if ∀ i, |(L.cavs i).voltage| > 0 → |ratio (L.cavs i) (L5.cavs i)| < 1 then
          ({ L5 with cavs := fun i => final W (L.cavs i) (L5.cavs i) (t.zeta i) }, .done)
        else (L5, .raised)

/-! ## Specification -/

/-- The cavity as a beam element, `cavity.h` and `track_rf.h:360-363`: the tapers are added to lag and phase unless the option is set. -/
def element (noSynrad : Bool) (c : Cav) (absTime : ℤ) (kicks : ℕ) (model integ : ℤ) : RfElement :=
  cavity 0 c.voltage c.frequency c.harmonic (if noSynrad then c.lag else c.lag + c.lagTaper)
    (if noSynrad then c.phase else c.phase + c.phaseTaper) absTime kicks model integ false

/-- The energy which a cavity gives to a particle of one elementary charge at this `zeta`. -/
def given (beta0 lineLength : ℝ) (c : Cav) (zeta : ℝ) : ℝ :=
  c.voltage * Real.sin (Real.pi / 180 * (c.lag + c.lagTaper) + c.phase + c.phaseTaper
    - 2 * Real.pi * (c.frequency + c.harmonic * (beta0 * 299792458 / lineLength)) * (zeta / (beta0 * 299792458)))

end

end Verif.Taper
