import Verif.Magnets.Body
import Mathlib.Analysis.SpecialFunctions.Trigonometric.Basic

/-!
# Cavities, crab cavities and RF multipoles

Source: /repo/xtrack/beam_elements/elements_src/track_rf.h (generated from track_rf.template.h by
_include_integrator.py), cavity.h, crab_cavity.h, rfmultipole.h; `LocalParticle_add_to_energy` and
`LocalParticle_update_ptau`, /repo/xtrack/particles/local_particle_custom_api.h:20-32, 195-216.

Simplifications: double precision numbers are real numbers, and `PI`, `DEG2RAD` are exact; one particle which is not lost;
`XTRACK_CAVITY_PRESERVE_ANGLE` is not defined; the tapers of lag and phase are added by the caller; energies below the rest energy
(NaN in C) are excluded in the theorems.
-/

namespace Verif.Rf

open Frames hiding curvature
open Magnets

noncomputable section

/-- What the RF code reads of a particle besides the coordinates; it changes nothing of it. -/
structure Ctx where
  p0c : ℝ
  q0 : ℝ
  chargeRatio : ℝ
  atTurn : ℝ
  tSim : ℝ
  lineLength : ℝ

/-- constants.h:10. -/
def clight : ℝ := 299792458

/-- constants.h:26. -/
def deg2rad : ℝ := Real.pi / 180

/-- `LocalParticle_update_ptau`, local_particle_custom_api.h:20-32. -/
def updatePtau (p : Part) (ptau : ℝ) : Part :=
  let irpp := Real.sqrt (ptau * ptau + 2 * ptau / p.beta0 + 1)
  { p with delta := irpp - 1, rvv := irpp / (1 + p.beta0 * ptau), ptau := ptau, rpp := 1 / irpp }

/-- `LocalParticle_add_to_energy` with `pz_only`, local_particle_custom_api.h:195-216. -/
def addToEnergy (c : Ctx) (p : Part) (dE : ℝ) : Part :=
  updatePtau p (p.ptau + dE / c.p0c / (c.chargeRatio / p.chi))

/-- The arguments of `track_rf_kick_single_particle`; track_rf.h:16-36. -/
structure RfArgs where
  voltage : ℝ
  frequency : ℝ
  harmonic : ℝ
  lag : ℝ
  phase : ℝ
  transverseVoltage : ℝ
  transverseLag : ℝ
  transversePhase : ℝ
  absoluteTime : ℤ
  order : ℤ
  factor : ℝ
  knl : ℕ → ℝ
  ksl : ℕ → ℝ
  pn : ℕ → ℝ
  ps : ℕ → ℝ
  phaseN : ℕ → ℝ
  phaseS : ℕ → ℝ
  kill : Bool

/-- `frequency`; track_rf.h:43-47. -/
def frequencyOf (c : Ctx) (a : RfArgs) (beta0 : ℝ) : ℝ :=
  if a.harmonic ≠ 0 then a.frequency + a.harmonic / (c.lineLength / (beta0 * clight)) else a.frequency

/-- `phase0`; track_rf.h:39, 49-53. -/
def phase0Of (c : Ctx) (a : RfArgs) (beta0 : ℝ) : ℝ :=
  if a.absoluteTime = 1 then 2 * Real.pi * c.atTurn * frequencyOf c a beta0 * c.tSim else 0

/-- The variables of the loop over the orders; track_rf.h:66-71. -/
structure RfSum where
  dpx : ℝ
  dpy : ℝ
  dptr : ℝ
  zre : ℝ
  zim : ℝ
  factorial : ℝ

/-- One pass of the loop; `w` is the phase which the particle is late by; track_rf.h:77-107. -/
def rfStep (a : RfArgs) (phase0 w x y : ℝ) (v : RfSum) (k : ℕ) : RfSum :=
  let factorial := if k > 0 then v.factorial * k else v.factorial
  let pnk := phase0 + deg2rad * a.pn k + a.phaseN k - w
  let psk := phase0 + deg2rad * a.ps k + a.phaseS k - w
  let bn := a.factor * a.knl k / factorial
  let bs := a.factor * a.ksl k / factorial
  let zre := v.zre * x - v.zim * y
  let zim := v.zim * x + v.zre * y
  { dpx := v.dpx + (Real.cos pnk * (bn * v.zre) - Real.cos psk * (bs * v.zim))
    dpy := v.dpy + (Real.cos psk * (bs * v.zre) + Real.cos pnk * (bn * v.zim))
    dptr := v.dptr + (Real.sin pnk * (bn * zre) - Real.sin psk * (bs * zim))
    zre := zre, zim := zim, factorial := factorial }

/-- The loop over the orders, `n` passes. -/
def rfSum (a : RfArgs) (phase0 w x y : ℝ) (n : ℕ) : RfSum := (List.range n).foldl (rfStep a phase0 w x y) ⟨0, 0, 0, 1, 0, 1⟩

/-- `track_rf_kick_single_particle`; track_rf.h:16-167. -/
def rfKick (c : Ctx) (a : RfArgs) (p : Part) : Part :=
  let f := frequencyOf c a p.beta0
  let phase0 := phase0Of c a p.beta0
  let q := |c.q0| * c.chargeRatio
  let w := 2 * Real.pi / clight * f * (p.zeta / p.beta0)
  let energyKick := q * a.voltage * Real.sin (phase0 + deg2rad * a.lag + a.phase - w)
  let v := rfSum a phase0 w p.x p.y (a.order + 1).toNat
  let p1 := if a.order ≥ 0 then { p with px := p.px + -p.chi * v.dpx, py := p.py + p.chi * v.dpy } else p
  let e1 := if a.order ≥ 0 then -q * (f * (2 * Real.pi / clight) * c.p0c * v.dptr) else 0
  let t := phase0 + deg2rad * (a.transverseLag + 90) + a.transversePhase - w
  let k0l := a.transverseVoltage / c.p0c
  let p2 := if a.transverseVoltage ≠ 0 then
    { p1 with px := p1.px + -p.chi * (Real.cos t * (k0l * 1)), py := p1.py + p.chi * (Real.cos t * (k0l * 0)) } else p1
  let e2 := if a.transverseVoltage ≠ 0 then
    e1 + -q * (f * (2 * Real.pi / clight) * c.p0c * (Real.sin t * (k0l * (1 * p.x - 0 * p.y)))) else e1
  if a.kill then p2 else addToEnergy c p2 (energyKick + e2)

/-- `RF_KICK`; track_rf.h:196-203. -/
def RfArgs.scale (a : RfArgs) (w : ℝ) : RfArgs :=
  { a with voltage := a.voltage * w, transverseVoltage := a.transverseVoltage * w, factor := a.factor * w }

/-- `RF_DRIFT`; track_rf.h:205-209. -/
def rfDriftArgs (driftModel : ℤ) : DriftArgs := { k0 := 0, k1 := 0, ks := 0, h := 0, x0 := 0, y0 := 0, model := driftModel }

/-- One step of the body. -/
def rfStepRun (c : Ctx) (driftModel : ℤ) (a : RfArgs) (length : ℝ) (p : Part) : Step → Part
  | .drift r => magnetDrift (rfDriftArgs driftModel) (r * length) p
  | .kick w => rfKick c (a.scale w) p

/-- `track_rf_body_single_particle`; track_rf.h:170-313. -/
def rfBody (c : Ctx) (driftModel : ℤ) (a : RfArgs) (length : ℝ) (n : ℕ) (integrator : ℤ) (p : Part) : Part :=
  (steps integrator n).foldl (rfStepRun c driftModel a length) p

/-- An RF element: the arguments of `track_rf_particles` which do not belong to the kick. -/
structure RfElement where
  args : RfArgs
  length : ℝ
  numKicks : ℕ
  model : ℤ
  integrator : ℤ

/-- The model, integrator and number of kicks which are used; the defaults of `Cavity` and `CrabCavity` are 6 (drift, kick, drift)
and 3 (uniform); track_rf.h:383-403. -/
def RfElement.modelOf (e : RfElement) : ℤ := if e.model = 0 then 6 else e.model
@[inherit_doc RfElement.modelOf]
def RfElement.integratorOf (e : RfElement) : ℤ :=
  if e.modelOf = -1 then 3 else if e.integrator = 0 then 3 else e.integrator
@[inherit_doc RfElement.modelOf]
def RfElement.kicks (e : RfElement) (weight : ℝ) : ℕ :=
  let n := if e.modelOf = -1 then 1 else e.numKicks
  let n := if weight ≠ 1 ∧ n > 0 then ⌈(n : ℝ) * weight⌉₊ else n
  if n = 0 then 1 else n

/-- `track_rf_particles`; track_rf.h:316-457. -/
def RfElement.track (e : RfElement) (c : Ctx) (weight : ℝ) (back : Bool) (p : Part) : Part :=
  let sg : ℝ := if back then -1 else 1
  let a := { e.args with
    voltage := sg * e.args.voltage * weight
    transverseVoltage := sg * e.args.transverseVoltage * weight
    factor := sg * weight }
  rfBody c (driftModelOf e.modelOf 0) a (sg * e.length * weight) (e.kicks weight) e.integratorOf p

/-- `Cavity_track_local_particle`; cavity.h:12-48. -/
def cavity (length voltage frequency harmonic lag phase : ℝ) (absoluteTime : ℤ) (numKicks : ℕ) (model integrator : ℤ) (kill : Bool) :
    RfElement :=
  ⟨⟨voltage, frequency, harmonic, lag, phase, 0, 0, 0, absoluteTime, -1, 1, 0, 0, 0, 0, 0, 0, kill⟩, length, numKicks, model, integrator⟩

/-- `CrabCavity_track_local_particle`; crab_cavity.h:12-48. -/
def crabCavity (length voltage frequency lag phase : ℝ) (absoluteTime : ℤ) (numKicks : ℕ) (model integrator : ℤ) (kill : Bool) :
    RfElement :=
  ⟨⟨0, frequency, 0, 0, 0, voltage, lag, phase, absoluteTime, -1, 1, 0, 0, 0, 0, 0, 0, kill⟩, length, numKicks, model, integrator⟩

/-- `RFMultipole_track_local_particle`; rfmultipole.h:12-48. -/
def rfMultipole (voltage frequency lag phase : ℝ) (order : ℤ) (knl ksl pn ps phaseN phaseS : ℕ → ℝ) (kill : Bool) : RfElement :=
  ⟨⟨voltage, frequency, 0, lag, phase, 0, 0, 0, 0, order, 1, knl, ksl, pn, ps, phaseN, phaseS, kill⟩, 0, 1, -1, 0⟩

end

end Verif.Rf
