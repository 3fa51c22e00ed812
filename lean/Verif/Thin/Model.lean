import Verif.Cleanup.Merge
import Verif.Edges.Model
import Verif.Rf.Model
import Mathlib.Analysis.SpecialFunctions.Log.Basic
import Mathlib.Analysis.SpecialFunctions.Trigonometric.Inverse

/-!
# Thin elements

Source: /repo/xtrack/beam_elements/elements_src/{simplethinbend,simplethinquadrupole,wire,acdipole,track_acdipole,exciter,nonlinearlens,
elens,timedelay,multipoleedge}.h and /repo/xtrack/beam_elements/{acdipole,exciter,wire,elens,nonlinear_lens,time_delay}.py.

Simplifications: double and single precision numbers are real numbers and `PI` is exact; one particle which is not lost. Divisions by
zero are excluded in the theorems, except in `effGrad`, where they are the result `none`.
-/

namespace Verif.Thin

open Frames hiding curvature
open Rf (Ctx clight)

noncomputable section

/-- `SimpleThinBend_track_local_particle`, both directions; simplethinbend.h:12-53. -/
def thinBend (knl0 hxl length : ℝ) (back : Bool) (p : Part) : Part :=
  let sg : ℝ := if back then -1 else 1
  Cleanup.simpleBend (sg * knl0) (sg * hxl) (sg * length) p

/-- `SimpleThinQuadrupole_track_local_particle`, both directions; simplethinquadrupole.h:12-33. -/
def thinQuad (knl1 : ℝ) (back : Bool) (p : Part) : Part := Cleanup.simpleQuad (if back then -knl1 else knl1) p

/-- `TimeDelay_track_local_particle`; timedelay.h:11-23. -/
def timeDelay (shift : ℝ) (back : Bool) (p : Part) : Part := { p with zeta := p.zeta + -(if back then -shift else shift) }

/-! ### Wire -/

/-- wire.py:33-42. -/
structure Wire where
  lPhy : ℝ
  lInt : ℝ
  current : ℝ
  xma : ℝ
  yma : ℝ
  postPx : ℝ
  postPy : ℝ

/-- constants.h:22. -/
def mu0 : ℝ := Real.pi * 4e-7

/-- `Wire_track_local_particle`; wire.h:11-53. -/
def Wire.track (w : Wire) (c : Ctx) (p : Part) : Part :=
  let dx := p.x - w.xma
  let dy := p.y - w.yma
  let r2 := dx * dx + dy * dy
  let l1 := w.lInt + w.lPhy
  let l2 := w.lInt - w.lPhy
  let n := mu0 * w.current * c.q0 / (4 * Real.pi * c.p0c / clight)
  let dpx := -n * dx * (Real.sqrt (l1 * l1 + 4 * r2) - Real.sqrt (l2 * l2 + 4 * r2)) / r2
  let dpy := -n * dy * (Real.sqrt (l1 * l1 + 4 * r2) - Real.sqrt (l2 * l2 + 4 * r2)) / r2
  { p with px := p.px + (dpx - w.postPx), py := p.py + (dpy - w.postPy) }

/-! ### AC dipole -/

/-- The fields of an `ACDipole`; acdipole.py:73-88. The entries of `ramp` are `UInt32`. -/
structure AcDipole where
  volt : ℝ
  freq : ℝ
  lag : ℝ
  ramp1 : ℕ
  ramp2 : ℕ
  ramp3 : ℕ
  ramp4 : ℕ
  plane : ℕ
  twissMode : ℕ
  effGrad : ℝ

/-- Conversion to `uint16_t`, the type of the arguments `ramp1` to `ramp4` in track_acdipole.h:16-19. -/
def u16 (n : ℕ) : ℕ := n % 65536

/-- `vrf_scaled`; track_acdipole.h:25-40. -/
def vrfScaled (vrf : ℝ) (r1 r2 r3 r4 : ℕ) (atTurn : ℝ) : ℝ :=
  if atTurn < r1 then 0
  else if atTurn < r2 then (atTurn - r1) * vrf / ((r2 : ℝ) - r1)
  else if atTurn < r3 then vrf
  else if atTurn < r4 then (r4 - atTurn) * vrf / ((r4 : ℝ) - r3)
  else 0

/-- `track_ramped_ac_dipole_single_particle`; track_acdipole.h:10-48. -/
def rampedAc (vrf omega phirf : ℝ) (r1 r2 r3 r4 plane : ℕ) (c : Ctx) (p : Part) : Part :=
  let kick := vrfScaled vrf (u16 r1) (u16 r2) (u16 r3) (u16 r4) c.atTurn / (c.p0c / 1e9) * Real.sin (phirf + omega * c.atTurn)
  if plane = 1 then { p with px := p.px + kick } else { p with py := p.py + kick }

/-- `track_effgrad_ac_dipole_single_particle`; track_acdipole.h:50-67. -/
def effGradAc (g : ℝ) (plane : ℕ) (p : Part) : Part :=
  if g = 0 then p
  else if plane = 1 then { p with px := p.px + g * p.x } else { p with py := p.py + g * p.y }

/-- `ACDipole_track_local_particle`; acdipole.h:13-59. -/
def AcDipole.track (a : AcDipole) (c : Ctx) (p : Part) : Part :=
  if a.plane = 0 then p
  else if a.twissMode = 0 then
    rampedAc (a.volt * 300e-3) (a.freq * 2 * Real.pi) (a.lag * 2 * Real.pi) a.ramp1 a.ramp2 a.ramp3 a.ramp4 a.plane c p
  else effGradAc a.effGrad a.plane p

/-- `_set_eff_grad`; acdipole.py:166-176. `none`: the division by zero, whose result is infinite or NaN. -/
def effGrad (beta naturalQ freq : ℝ) : Option ℝ :=
  if beta = 0 then some 0
  else if Real.sin (2 * Real.pi * Int.fract naturalQ) = 0 then none
  else some (2 * (Real.cos (2 * Real.pi * Int.fract freq) - Real.cos (2 * Real.pi * Int.fract naturalQ))
    / (beta * Real.sin (2 * Real.pi * Int.fract naturalQ)))

/-- The Python object: the parameters of the twiss mode, and the gradient which was calculated last. -/
structure AcTwiss where
  freq : ℝ
  beta : ℝ
  naturalQ : ℝ
  grad : Option ℝ

/-- The constructor; acdipole.py:103-161. -/
def AcTwiss.new (freq beta naturalQ : Option ℝ) : AcTwiss :=
  let f := freq.getD 0
  let b := beta.getD 0
  let q := naturalQ.getD 0
  ⟨f, b, q, effGrad b q f⟩

/-- Assignments to `freq`, `beta_at_acdipole`, `natural_q`. -/
inductive AcOp
  | freq (v : ℝ)
  | beta (v : ℝ)
  | naturalQ (v : ℝ)

/-- The setters; acdipole.py:178-203. -/
def AcTwiss.step (a : AcTwiss) : AcOp → AcTwiss
  | .freq v => { a with freq := v, grad := effGrad a.beta a.naturalQ v }
  | .beta v => { a with beta := v, grad := effGrad v a.naturalQ a.freq }
  | .naturalQ v => { a with naturalQ := v, grad := effGrad a.beta v a.freq }

/-! ### Exciter -/

/-- exciter.py:85-95. -/
structure Exciter where
  order : ℤ
  nsamples : ℕ
  samplingFrequency : ℝ
  frev : ℝ
  startTurn : ℤ
  nduration : ℤ
  knl : ℕ → ℝ
  ksl : ℕ → ℝ
  samples : ℕ → ℝ

/-- Conversion of a double to `int64_t`: truncation towards zero. -/
def trunc (w : ℝ) : ℤ := if 0 ≤ w then ⌊w⌋ else ⌈w⌉

/-- The argument of the conversion; exciter.h:44. -/
def Exciter.phase (e : Exciter) (c : Ctx) (p : Part) : ℝ :=
  e.samplingFrequency * ((c.atTurn - e.startTurn) / e.frev - p.zeta / p.beta0 / clight)

/-- The variables of the loop; exciter.h:54-58. -/
structure ExSum where
  dpx : ℝ
  dpy : ℝ
  zre : ℝ
  zim : ℝ
  factorial : ℝ

/-- One pass of the loop over the orders; exciter.h:59-70. -/
def Exciter.step (e : Exciter) (sign x y : ℝ) (v : ExSum) (k : ℕ) : ExSum :=
  let factorial := if k > 0 then v.factorial * k else v.factorial
  { dpx := v.dpx + sign * (e.knl k * v.zre - e.ksl k * v.zim) / factorial
    dpy := v.dpy + sign * (e.knl k * v.zim + e.ksl k * v.zre) / factorial
    zre := v.zre * x - v.zim * y
    zim := v.zim * x + v.zre * y
    factorial := factorial }

/-- The loop over the orders. -/
def Exciter.sum (e : Exciter) (sign x y : ℝ) : ExSum := (List.range (e.order + 1).toNat).foldl (e.step sign x y) ⟨0, 0, 1, 0, 1⟩

/-- `Exciter_track_local_particle`; exciter.h:14-83. -/
def Exciter.track (e : Exciter) (c : Ctx) (back : Bool) (p : Part) : Part :=
  let i := trunc (e.phase c p)
  if 0 ≤ i ∧ i < e.nduration then
    let i := if i ≥ e.nsamples then i % e.nsamples else i
    let v := e.sum (if back then -1 else 1) p.x p.y
    { p with
      px := p.px + -p.chi * (v.dpx * e.samples i.toNat)
      py := p.py + p.chi * (v.dpy * e.samples i.toNat) }
  else p

/-! ### Nonlinear lens -/

/-- The elliptic coordinates; nonlinearlens.h:29-30. -/
def uOf (x y : ℝ) : ℝ := 0.5 * Real.sqrt ((x - 1) ^ 2 + y ^ 2) + 0.5 * Real.sqrt ((x + 1) ^ 2 + y ^ 2)
@[inherit_doc uOf]
def vOf (x y : ℝ) : ℝ := 0.5 * Real.sqrt ((x + 1) ^ 2 + y ^ 2) - 0.5 * Real.sqrt ((x - 1) ^ 2 + y ^ 2)

/-- `dUu`; nonlinearlens.h:32-43. -/
def dUu (u v : ℝ) : ℝ :=
  let dd := if u = 1 then 0 else u ^ 2 * Real.log (u + Real.sqrt (u ^ 2 - 1)) / Real.sqrt (u ^ 2 - 1)
  (u + Real.log (u + Real.sqrt (u * u - 1)) * Real.sqrt (u ^ 2 - 1) + dd) / (u ^ 2 - v ^ 2)
    - 2 * u * (u * Real.log (u + Real.sqrt (u * u - 1)) * Real.sqrt (u ^ 2 - 1)
      + v * (Real.arccos v - Real.pi / 2) * Real.sqrt (1 - v ^ 2)) / (u ^ 2 - v ^ 2) ^ 2

/-- `dUv`; nonlinearlens.h:44-48. -/
def dUv (u v : ℝ) : ℝ :=
  2 * v * (u * Real.log (u + Real.sqrt (u * u - 1)) * Real.sqrt (u ^ 2 - 1)
      + v * (Real.arccos v - Real.pi / 2) * Real.sqrt (1 - v ^ 2)) / (u ^ 2 - v ^ 2) ^ 2
    - (v - (Real.arccos v - Real.pi / 2) * Real.sqrt (1 - v ^ 2) + v ^ 2 * (Real.arccos v - Real.pi / 2) / Real.sqrt (1 - v ^ 2))
      / (u ^ 2 - v ^ 2)

/-- `dux`, `duy`, `dvx`, `dvy`; nonlinearlens.h:50-53. -/
def dux (x y : ℝ) : ℝ := 0.5 * (x - 1) / Real.sqrt ((x - 1) ^ 2 + y ^ 2) + 0.5 * (x + 1) / Real.sqrt ((x + 1) ^ 2 + y ^ 2)
@[inherit_doc dux]
def duy (x y : ℝ) : ℝ := 0.5 * y / Real.sqrt ((x - 1) ^ 2 + y ^ 2) + 0.5 * y / Real.sqrt ((x + 1) ^ 2 + y ^ 2)
@[inherit_doc dux]
def dvx (x y : ℝ) : ℝ := 0.5 * (x + 1) / Real.sqrt ((x + 1) ^ 2 + y ^ 2) - 0.5 * (x - 1) / Real.sqrt ((x - 1) ^ 2 + y ^ 2)
@[inherit_doc dux]
def dvy (x y : ℝ) : ℝ := 0.5 * y / Real.sqrt ((x + 1) ^ 2 + y ^ 2) - 0.5 * y / Real.sqrt ((x - 1) ^ 2 + y ^ 2)

/-- `NonLinearLens_track_local_particle`; nonlinearlens.h:15-60. -/
def nonlinearLens (knll cnll : ℝ) (p : Part) : Part :=
  let k := knll / cnll
  let x := p.x / cnll
  let y := p.y / cnll
  let u := uOf x y
  let v := vOf x y
  { p with
    px := p.px + k * (dUu u v * dux x y + dUv u v * dvx x y)
    py := p.py + k * (dUu u v * duy x y + dUv u v * dvy x y) }

/-! ### Electron lens -/

/-- elens.py:36-46. -/
structure Elens where
  current : ℝ
  innerRadius : ℝ
  outerRadius : ℝ
  length : ℝ
  voltage : ℝ
  residualX : ℝ
  residualY : ℝ
  order : ℕ
  coefs : ℕ → ℝ

/-- constants.h:14. -/
def epsilon0 : ℝ := 8.854187817620e-12

/-- `beta_e`; elens.h:34, 68-72. -/
def Elens.betaE (e : Elens) : ℝ :=
  let etot := e.voltage + 510998.928
  Real.sqrt (etot * etot - 510998.928 * 510998.928) / etot

/-- `frr`; elens.h:82-108. -/
def Elens.frr (e : Elens) (r : ℝ) : ℝ :=
  if r < e.innerRadius then 0
  else if r > e.outerRadius then 1
  else if e.order = 0 then (r * r - e.innerRadius * e.innerRadius) / (e.outerRadius * e.outerRadius - e.innerRadius * e.innerRadius)
  else (List.range (e.order + 1)).foldl (fun a i => a + e.coefs i * (r * 1e3) ^ (e.order - i)) 0

/-- `theta_max`; elens.h:64, 75, 111-119. -/
def Elens.thetaMax (e : Elens) (length : ℝ) (c : Ctx) (p : Part) : ℝ :=
  let betaP := p.rvv * p.beta0
  1 / (4 * Real.pi * epsilon0) * (2 * length * e.current) * (1 + e.betaE * betaP)
    / (e.outerRadius * (c.p0c / (c.q0 * clight)) * e.betaE * betaP) / (clight * clight)

/-- `Elens_track_local_particle`; elens.h:11-156. -/
def Elens.track (e : Elens) (c : Ctx) (back : Bool) (p : Part) : Part :=
  let length := if back then -e.length else e.length
  let r := Real.sqrt (p.x * p.x + p.y * p.y)
  if r > e.innerRadius then
    let t := -1 * e.frr r * e.thetaMax length c p * (e.outerRadius / r) * (1 / (p.rpp * p.chi))
    { p with px := p.px + p.x * t / r, py := p.py + p.y * t / r }
  else { p with px := p.px + e.residualX, py := p.py + e.residualY }

/-! ### Multipole edge -/

/-- The arguments which a `MultipoleEdge` passes on; multipoleedge.h:16-33. -/
def edgeArgs (kn ks : ℕ → ℝ) (order : ℕ) (isExit : Bool) : Edges.FringeArgs :=
  { kn := kn, ks := ks, kOrder := order, knl := fun _ => 0, ksl := fun _ => 0, klOrder := -1, length := 0, isExit := isExit, minOrder := 0 }

/-- `MultipoleEdge_track_local_particle`; multipoleedge.h:13-35. -/
def multipoleEdge (kn ks : ℕ → ℝ) (order : ℕ) (isExit : Bool) (p : Part) : Part := Edges.multFringe (edgeArgs kn ks order isExit) p

end

end Verif.Thin
