import Verif.Rf.Model
import Mathlib.Data.Nat.Factorial.Basic
import Mathlib.Algebra.Order.Floor.Defs
import Mathlib.Algebra.Order.Archimedean.Basic

/-!
# Linear maps of segments of a ring

Source: /repo/xtrack/beam_elements/elements_src/linesegmentmap.h and the constructor in
/repo/xtrack/beam_elements/line_segment_map.py; `LocalParticle_update_delta`, `LocalParticle_update_pzeta`,
`LocalParticle_add_to_energy` and `LocalParticle_update_p0c`, /repo/xtrack/particles/local_particle_custom_api.h:35-67, 195-245.

Simplifications: double precision numbers are real numbers; one particle which is not lost; the six normal deviates drawn for the
noise are an argument; the checks of the constructor that compare lengths of lists and exclude combinations of arguments are those
of the tunes only, the longitudinal arguments are given as the fields which the constructor stores. Where C computes the square root
of a negative number or divides by zero (mode 3, and reference energies below the rest energy) the result is `none`.
-/

namespace Verif.SegMap

open Frames

noncomputable section

/-- The optics of one plane at one end of the segment. -/
structure Optics where
  bet : ℝ
  alf : ℝ
  d : ℝ
  dp : ℝ
  ref : ℝ
  pref : ℝ

/-- The fields of the element; line_segment_map.py:15-61. -/
structure Seg where
  length : ℝ
  qx : ℝ
  qy : ℝ
  coeffsDqx : List ℝ
  coeffsDqy : List ℝ
  detXX : ℝ
  detXY : ℝ
  detYX : ℝ
  detYY : ℝ
  x0 : Optics
  x1 : Optics
  y0 : Optics
  y1 : Optics
  energyRefIncrement : ℝ
  energyIncrement : ℝ
  uncorrelatedDamping : Bool
  correlatedDamping : Bool
  damping : ℕ → ℕ → ℝ
  uncorrelatedNoise : Bool
  correlatedNoise : Bool
  noise : ℕ → ℕ → ℝ
  mode : ℤ
  qs : ℝ
  bets : ℝ
  bucketLength : ℝ
  alfp : ℝ
  slippageLength : ℝ
  /-- voltage, frequency, lag and phase -/
  rf : List (ℝ × ℝ × ℝ × ℝ)

/-- The tune and the coefficients of its expansion in `delta` which the constructor makes of `qx, dqx, ddqx, dnqx`; `none` when it
raises; line_segment_map.py:263-284. -/
def tuneFields (q dq ddq : ℝ) (dnq : Option (List ℝ)) : Option (ℝ × List ℝ) :=
  match dnq with
  | some l =>
    if q = 0 ∧ dq = 0 ∧ ddq = 0 then
      match l with
      | [] => none
      | q0 :: _ => some (q0, l.mapIdx fun i c => c / (i.factorial : ℝ))
    else none
  | none =>
    let l := [q]
    let l := if dq ≠ 0 then l ++ [dq] else l
    let l := if ddq ≠ 0 then l ++ [ddq] else l
    some (q, l.mapIdx fun i c => c / (i.factorial : ℝ))

/-- What the tracking code reads of the particle besides its coordinates and does not change. -/
structure Consts where
  mass0 : ℝ
  q0 : ℝ
  chargeRatio : ℝ
  /-- the flag which switches off the energy kick of cavities -/
  kill : Bool

/-- The particle and its reference momentum and Lorentz factor. -/
structure St where
  p : Part
  p0c : ℝ
  gamma0 : ℝ

/-- linesegmentmap.h:12-24. -/
def removeOrbit (e : Seg) (p : Part) : Part :=
  { p with x := p.x + -e.x0.ref, px := p.px + -e.x0.pref, y := p.y + -e.y0.ref, py := p.py + -e.y0.pref }

/-- linesegmentmap.h:26-38. -/
def addOrbit (e : Seg) (p : Part) : Part :=
  { p with x := p.x + e.x1.ref, px := p.px + e.x1.pref, y := p.y + e.y1.ref, py := p.py + e.y1.pref }

/-- linesegmentmap.h:40-60. -/
def removeDispersion (e : Seg) (p : Part) : Part :=
  { p with
    x := p.x + -e.x0.d * p.delta, px := p.px + -e.x0.dp * p.delta
    y := p.y + -e.y0.d * p.delta, py := p.py + -e.y0.dp * p.delta }

/-- linesegmentmap.h:62-82. -/
def addDispersion (e : Seg) (p : Part) : Part :=
  { p with
    x := p.x + e.x1.d * p.delta, px := p.px + e.x1.dp * p.delta
    y := p.y + e.y1.d * p.delta, py := p.py + e.y1.dp * p.delta }

/-- `any_chroma`: the loops run over all coefficients but look at the first one; linesegmentmap.h:110-118. -/
def anyChroma (e : Seg) : ℕ :=
  (List.range e.coeffsDqy.length).foldl (fun n _ => n + if e.coeffsDqy.getD 0 0 ≠ 0 then 1 else 0)
    ((List.range e.coeffsDqx.length).foldl (fun n _ => n + if e.coeffsDqx.getD 0 0 ≠ 0 then 1 else 0) 0)

/-- linesegmentmap.h:120-122. -/
def detuning (e : Seg) : Prop := anyChroma e ≠ 0 ∨ e.detXX ≠ 0 ∨ e.detXY ≠ 0 ∨ e.detYX ≠ 0 ∨ e.detYY ≠ 0

/-- `J_x`, `J_y`; linesegmentmap.h:140-153. -/
def actionOf (o : Optics) (x px : ℝ) : ℝ :=
  0.5 * ((1 + o.alf * o.alf) / o.bet * x * x + 2 * o.alf * x * px + o.bet * px * px)

/-- The loop which adds the chromatic terms; linesegmentmap.h:155-158. -/
def addChroma (l : List ℝ) (delta phase : ℝ) : ℝ :=
  (List.range' 1 (l.length - 1)).foldl (fun phase i => phase + 2 * Real.pi * (l.getD i 0 * delta ^ i)) phase

open Classical in
/-- The phases of the two planes; linesegmentmap.h:120-168. -/
def phases (e : Seg) (p : Part) : ℝ × ℝ :=
  if detuning e then
    let jx := actionOf e.x0 p.x p.px
    let jy := actionOf e.y0 p.y p.py
    (addChroma e.coeffsDqx p.delta (2 * Real.pi * (e.qx + e.detXX * jx + e.detXY * jy)),
      addChroma e.coeffsDqy p.delta (2 * Real.pi * (e.qy + e.detYX * jx + e.detYY * jy)))
  else (2 * Real.pi * e.qx, 2 * Real.pi * e.qy)

/-- The matrix of one plane; linesegmentmap.h:131-135, 170-186. -/
def planeMap (o0 o1 : Optics) (phase x px : ℝ) : ℝ × ℝ :=
  let betprod := Real.sqrt (o1.bet * o0.bet)
  let betratio := Real.sqrt (o1.bet / o0.bet)
  let s := Real.sin phase
  let c := Real.cos phase
  let m00 := betratio * (c + o0.alf * s)
  let m01 := betprod * s
  let m10 := ((o0.alf - o1.alf) * c - (1 + o0.alf * o1.alf) * s) / betprod
  let m11 := (c - o1.alf * s) / betratio
  (m00 * x + m01 * px, m10 * x + m11 * px)

/-- `transverse_motion`; linesegmentmap.h:84-193. -/
def transverse (e : Seg) (p : Part) : Part :=
  let x := planeMap e.x0 e.x1 (phases e p).1 p.x p.px
  let y := planeMap e.y0 e.y1 (phases e p).2 p.y p.py
  { p with x := x.1, px := x.2, y := y.1, py := y.2 }

/-- `LocalParticle_update_pzeta`; local_particle_custom_api.h:61-65. -/
def updatePzeta (p : Part) (pzeta : ℝ) : Part := Rf.updatePtau p (p.beta0 * pzeta)

/-- `LocalParticle_add_to_energy` with `pz_only`; local_particle_custom_api.h:195-216. -/
def addToEnergy (k : Consts) (s : St) (dE : ℝ) : St :=
  { s with p := Rf.updatePtau s.p (s.p.ptau + dE / s.p0c / (k.chargeRatio / s.p.chi)) }

/-- The rotation in the longitudinal plane; linesegmentmap.h:201-224. -/
def longRotate (qs bets bucket : ℝ) (kill : Bool) (p : Part) : Part :=
  let s := Real.sin (2 * Real.pi * qs)
  let c := Real.cos (2 * Real.pi * qs)
  let shift := if bucket > 0 then bucket * (⌊p.zeta / bucket + 0.5⌋ : ℝ) else 0
  let zeta := if bucket > 0 then p.zeta + -shift else p.zeta
  let newZeta := c * zeta - bets * s * (p.ptau / p.beta0)
  let newPzeta := s * zeta / bets + c * (p.ptau / p.beta0)
  let p := { p with zeta := newZeta + shift }
  if kill then p else updatePzeta p newPzeta

/-- `eta`; linesegmentmap.h:234. -/
def etaOf (e : Seg) (gamma0 : ℝ) : ℝ := e.alfp - 1 / (gamma0 * gamma0)

/-- Half of the slippage; linesegmentmap.h:232-237, 262-267. -/
def slip (e : Seg) (s : St) : St :=
  { s with p := { s.p with zeta := s.p.zeta + -0.5 * etaOf e s.gamma0 * e.slippageLength * s.p.delta } }

/-- One RF kick; linesegmentmap.h:240-260. -/
def rfKick (k : Consts) (s : St) (c : ℝ × ℝ × ℝ × ℝ) : St :=
  if c.2.1 = 0 then s
  else
    let tau := s.p.zeta / s.p.beta0
    let phase := Rf.deg2rad * c.2.2.1 + c.2.2.2 - 2 * Real.pi / Rf.clight * c.2.1 * tau
    addToEnergy k s (|k.q0| * k.chargeRatio * c.1 * Real.sin phase)

/-- Under the square root of the synchrotron tune in mode 3; linesegmentmap.h:290-291. -/
def qsRadicand (e : Seg) (k : Consts) (s : St) (v f : ℝ) : ℝ :=
  k.q0 * |etaOf e s.gamma0| * e.slippageLength * f * v
    / (2 * Real.pi * s.p.beta0 * s.p.beta0 * s.p.beta0 * (k.mass0 * s.gamma0) * Rf.clight)

/-- `longitudinal_motion`; linesegmentmap.h:195-307. `none`: a square root of a negative number or a division by zero. -/
def longitudinal (e : Seg) (k : Consts) (s : St) : Option St :=
  if e.mode = 1 then
    if e.bets = 0 then none
    else some { s with p := longRotate e.qs e.bets (e.bucketLength * s.p.beta0 * Rf.clight) k.kill s.p }
  else if e.mode = 2 then some (slip e (e.rf.foldl (rfKick k) (slip e s)))
  else if e.mode = 3 then
    match e.rf with
    | [] => none
    | (v, f, _, _) :: _ =>
      if f = 0 then none
      else if qsRadicand e k s v f ≤ 0 then none
      else
        let qs := Real.sqrt (qsRadicand e k s v f)
        let bets := etaOf e s.gamma0 * e.slippageLength / (2 * Real.pi * qs)
        let bucket := s.p.beta0 * Rf.clight / f
        let sn := Real.sin (2 * Real.pi * qs)
        let c := Real.cos (2 * Real.pi * qs)
        let shift := bucket * (⌊s.p.zeta / bucket + 0.5⌋ : ℝ)
        let zeta := s.p.zeta + -shift
        let newZeta := c * zeta - bets * sn * (s.p.ptau / s.p.beta0)
        let newPzeta := sn * zeta / bets + c * (s.p.ptau / s.p.beta0)
        some { s with p := updatePzeta { s.p with zeta := newZeta + shift } newPzeta }
  else some s

/-- `LocalParticle_update_delta`; local_particle_custom_api.h:35-50. -/
def updateDelta (p : Part) (delta : ℝ) : Part :=
  let db := delta * p.beta0
  let ptauBeta0 := Real.sqrt (db * db + 2 * db * p.beta0 + 1) - 1
  { p with delta := delta, rvv := (1 + delta) / (1 + ptauBeta0), rpp := 1 / (1 + delta), ptau := ptauBeta0 / p.beta0 }

/-- `LocalParticle_update_p0c`; local_particle_custom_api.h:219-245. -/
def updateP0c (k : Consts) (s : St) (p0c : ℝ) : St :=
  let ppc := s.p0c * s.p.delta + s.p0c
  let energy0 := Real.sqrt (p0c * p0c + k.mass0 * k.mass0)
  let beta0 := p0c / energy0
  let p := updateDelta { s.p with beta0 := beta0 } ((ppc - p0c) / p0c)
  { p := { p with px := p.px * (s.p0c / p0c), py := p.py * (s.p0c / p0c), zeta := p.zeta * (beta0 / s.p.beta0) }
    p0c := p0c
    gamma0 := energy0 / k.mass0 }

/-- `energy_and_reference_increments`; linesegmentmap.h:360-392. `none`: the new reference energy is not above the rest energy. -/
def increments (e : Seg) (k : Consts) (s : St) : Option St :=
  let s := if e.energyIncrement ≠ 0 then addToEnergy k s e.energyIncrement else s
  if e.energyRefIncrement ≠ 0 then
    let energy0 := k.mass0 * s.gamma0 + e.energyRefIncrement
    if energy0 * energy0 - k.mass0 * k.mass0 ≤ 0 then none
    else
      let p0c := Real.sqrt (energy0 * energy0 - k.mass0 * k.mass0)
      let beta0 := p0c / energy0
      let gamma0 := energy0 / k.mass0
      let factor := Real.sqrt (s.p.beta0 * s.gamma0 / beta0 / gamma0)
      let s1 := updateP0c k s p0c
      some { s1 with p := { s1.p with px := s.p.px * factor, py := s.p.py * factor, x := s1.p.x * factor, y := s1.p.y * factor } }
  else some s

/-- `uncorrelated_radiation_damping`; linesegmentmap.h:309-327. -/
def dampUncorrelated (e : Seg) (p : Part) : Part :=
  updatePzeta { p with
      x := e.damping 0 0 * p.x, px := e.damping 1 1 * p.px, y := e.damping 2 2 * p.y, py := e.damping 3 3 * p.py
      zeta := e.damping 4 4 * p.zeta }
    (e.damping 5 5 * (p.ptau / p.beta0))

/-- The products of the rows of a matrix and the coordinates. -/
def rowTimes (m : ℕ → ℕ → ℝ) (i : ℕ) (v : ℕ → ℝ) : ℝ := (List.range 6).foldl (fun a j => a + m i j * v j) 0

/-- `correlated_radiation_damping`; linesegmentmap.h:329-358. -/
def dampCorrelated (e : Seg) (kill : Bool) (p : Part) : Part :=
  let v : ℕ → ℝ := fun j => [p.x, p.px, p.y, p.py, p.zeta, p.ptau / p.beta0].getD j 0
  let out := fun i => rowTimes e.damping i v
  let p := { p with x := out 0, px := out 1, y := out 2, py := out 3, zeta := out 4 }
  if kill then p else updatePzeta p (out 5)

/-- `uncorrelated_gaussian_noise`; linesegmentmap.h:394-419. -/
def noiseUncorrelated (e : Seg) (r : ℕ → ℝ) (p : Part) : Part :=
  updatePzeta { p with
      x := p.x + r 0 * e.noise 0 0, px := p.px + r 1 * e.noise 1 1, y := p.y + r 2 * e.noise 2 2, py := p.py + r 3 * e.noise 3 3
      zeta := p.zeta + r 4 * e.noise 4 4 }
    (p.ptau / p.beta0 + r 5 * e.noise 5 5)

/-- `correlated_gaussian_noise`; linesegmentmap.h:421-445. -/
def noiseCorrelated (e : Seg) (r : ℕ → ℝ) (p : Part) : Part :=
  let out := fun i => rowTimes e.noise i r
  updatePzeta { p with
      x := p.x + out 0, px := p.px + out 1, y := p.y + out 2, py := p.py + out 3, zeta := p.zeta + out 4 }
    (p.ptau / p.beta0 + out 5)

/-- `LineSegmentMap_track_local_particle`; linesegmentmap.h:447-505. `r1`, `r2`: the normal deviates. -/
def track (e : Seg) (k : Consts) (r1 r2 : ℕ → ℝ) (s : St) : Option St :=
  match longitudinal e k { s with p := transverse e (removeDispersion e (removeOrbit e s.p)) } with
  | none => none
  | some s =>
    match increments e k s with
    | none => none
    | some s =>
      let p := if e.uncorrelatedDamping then dampUncorrelated e s.p else s.p
      let p := if e.correlatedDamping then dampCorrelated e k.kill p else p
      let p := if e.uncorrelatedNoise then noiseUncorrelated e r1 p else p
      let p := if e.correlatedNoise then noiseCorrelated e r2 p else p
      let p := addOrbit e (addDispersion e p)
      some { s with p := { p with s := p.s + e.length } }

end

end Verif.SegMap
