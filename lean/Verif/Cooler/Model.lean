import Mathlib.Analysis.SpecialFunctions.Log.Basic
import Mathlib.Analysis.SpecialFunctions.Complex.Arg
import Mathlib.Analysis.Real.Sqrt

/-!
# The electron cooler

Model of `ElectronCooler_track_local_particle`, xtrack/beam_elements/elements_src/electroncooler.h:11-137,
over the real numbers.  `none` is a result which is not a number.
-/

namespace Verif.Cooler

/-- `QELEM`, `MASS_ELECTRON`, `C_LIGHT`, `EPSILON_0`, `RADIUS_ELECTRON`, `PI`. -/
structure Const where
  e : ℝ
  m : ℝ
  c : ℝ
  eps : ℝ
  re : ℝ
  pi : ℝ

/-- The element: electron_cooler.py:50-67. -/
structure Elem where
  current : ℝ
  length : ℝ
  radius : ℝ
  tempPerp : ℝ
  tempLong : ℝ
  field : ℝ
  offX : ℝ := 0
  offPx : ℝ := 0
  offY : ℝ := 0
  offPy : ℝ := 0
  offEnergy : ℝ := 0
  ratio : ℝ := 0
  spaceCharge : ℝ := 0

/-- What is read of the reference particle: electroncooler.h:34-38. -/
structure Ref where
  p0c : ℝ
  q0 : ℝ
  beta0 : ℝ
  gamma0 : ℝ
  mass0 : ℝ

/-- A particle.  The two ratios say of which species it is. -/
structure Part where
  x : ℝ
  px : ℝ
  y : ℝ
  py : ℝ
  delta : ℝ
  chargeRatio : ℝ := 1
  chi : ℝ := 1

/-- `tau`: electroncooler.h:43. -/
noncomputable def tau (k : Const) (w : Elem) (r : Ref) : ℝ := w.length / (r.beta0 * k.c * r.gamma0)

/-- `electron_density`: electroncooler.h:41-44. -/
noncomputable def density (k : Const) (w : Elem) (r : Ref) : ℝ :=
  let volume := k.pi * w.radius ^ 2 * w.length
  let perSecond := w.current / k.e
  perSecond * tau k w r / volume

/-- `mass_electron_ev`: electroncooler.h:53. -/
noncomputable def massEv (k : Const) : ℝ := k.m * k.c ^ 2 / k.e

/-- `omega_e_beam`: electroncooler.h:59. -/
noncomputable def omega (k : Const) (w : Elem) (r : Ref) : ℝ :=
  w.spaceCharge * 1 / (2 * k.pi * k.eps * k.c) * (w.current / (w.radius ^ 2 * r.beta0 * r.gamma0 * w.field))

/-- `beta_total`, the speed of the electrons at a distance from the axis: electroncooler.h:54-55, 88-95. -/
noncomputable def betaElectron (k : Const) (w : Elem) (r : Ref) (radius : ℝ) : ℝ :=
  let initial := (r.gamma0 - 1) * massEv k
  let coefficient := w.spaceCharge * k.re / (k.e * k.c) * (r.gamma0 + 1) / r.gamma0 ^ 2
  let dE := coefficient * w.current * (radius / w.radius) ^ 2 / r.beta0 ^ 3
  let diff := dE * (initial + w.offEnergy)
  let kin := initial + w.offEnergy + diff
  let g := 1 + kin / massEv k
  Real.sqrt (1 - 1 / g ^ 2)

/-- `gamma` of the particle: electroncooler.h:72-73. -/
noncomputable def gammaOf (r : Ref) (delta : ℝ) : ℝ := Real.sqrt (1 + (r.p0c * (1 + delta) / r.mass0) ^ 2)

/-- The differences of the velocities, `dVx`, `dVy`, `dVz`: electroncooler.h:62-76, 97-102. -/
noncomputable def diffV (k : Const) (w : Elem) (r : Ref) (p : Part) : ℝ × ℝ × ℝ :=
  let x := p.x - w.offX
  let px := p.px - w.offPx
  let y := p.y - w.offY
  let py := p.py - w.offPy
  let theta := Complex.arg ⟨x, y⟩
  let radius := Real.sqrt (x ^ 2 + y ^ 2)
  let g := gammaOf r p.delta
  let beta := Real.sqrt (1 - 1 / g ^ 2)
  let bx := px * r.p0c / (r.mass0 * g)
  let by_ := py * r.p0c / (r.mass0 * g)
  (bx * k.c - omega k w r * radius * -Real.sin theta, by_ * k.c - omega k w r * radius * Real.cos theta,
    beta * k.c - betaElectron k w r radius * k.c)

/-- `log_coulomb` for the total velocity `V`; the logarithm of what is not positive and quotients with
zero are not numbers: electroncooler.h:48-50, 106-110. -/
noncomputable def coulombLog (k : Const) (w : Elem) (r : Ref) (V : ℝ) : Option ℝ :=
  if V = 0 then none else
  let larmor := k.m * Real.sqrt (k.e * w.tempPerp / k.m) / k.e / w.field
  let plasma := Real.sqrt (density k w r * k.e ^ 2 / (k.m * k.eps))
  let rhoMin := r.q0 * k.e ^ 2 / (4 * k.pi * k.eps * k.m * V ^ 2)
  let interaction := V * tau k w r
  let rhoMax := if plasma = 0 then interaction else min (V / plasma) interaction
  if rhoMin + larmor = 0 then none else
  let a := (rhoMax + rhoMin + larmor) / (rhoMin + larmor)
  if a ≤ 0 then none else some (Real.log a)

/-- `V_tot`: electroncooler.h:47, 51, 103-104. -/
noncomputable def totalV (k : Const) (w : Elem) (r : Ref) (d : ℝ × ℝ × ℝ) : ℝ :=
  let long := Real.sqrt (k.e * w.tempLong / k.m)
  let rms := r.beta0 * r.gamma0 * k.c * w.ratio
  Real.sqrt ((d.1 ^ 2 + d.2.1 ^ 2 + d.2.2 ^ 2) + long ^ 2 + rms ^ 2)

/-- `Fx`, `Fy`, `Fl`: electroncooler.h:58, 78-122. -/
noncomputable def force (k : Const) (w : Elem) (r : Ref) (p : Part) : Option (ℝ × ℝ × ℝ) :=
  let radius := Real.sqrt ((p.x - w.offX) ^ 2 + (p.y - w.offY) ^ 2)
  if radius < w.radius then
    let d := diffV k w r p
    let V := totalV k w r d
    let coefficient := density k w r * r.q0 ^ 2 * k.e ^ 4 / (4 * k.m * (k.pi * k.eps) ^ 2)
    match coulombLog k w r V with
    | none => none
    | some l => some (-coefficient * d.1 / V ^ 3 * l * 1 / k.e * k.c, -coefficient * d.2.1 / V ^ 3 * l * 1 / k.e * k.c,
        -coefficient * d.2.2 / V ^ 3 * l * 1 / k.e * k.c)
  else some (0, 0, 0)

/-- The particle after the cooler: electroncooler.h:123-127. -/
noncomputable def track (k : Const) (w : Elem) (r : Ref) (p : Part) : Option Part :=
  match force k w r p with
  | none => none
  | some f => some { p with delta := p.delta + f.2.2 * r.gamma0 * tau k w r / r.p0c,
                            px := p.px + f.1 * r.gamma0 * tau k w r / r.p0c,
                            py := p.py + f.2.1 * r.gamma0 * tau k w r / r.p0c }

/-- What is recorded: electroncooler.h:130-136. -/
noncomputable def recorded (k : Const) (w : Elem) (r : Ref) (p : Part) : Option (ℝ × ℝ × ℝ) :=
  (force k w r p).map (fun f => (f.1 / k.c, f.2.1 / k.c, f.2.2 / k.c))

end Verif.Cooler
