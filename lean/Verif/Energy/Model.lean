import Mathlib.Analysis.Real.Sqrt

/-!
# Energy variables of a particle

Transcription of the functions which keep `delta`, `ptau`, `pzeta`, `rpp`, `rvv`
and the reference quantities `p0c`, `gamma0`, `beta0` of one particle
(`xtrack/particles/local_particle_custom_api.h`, `xtrack/particles/particles.py`).

Simplifications.
* Double precision numbers are real numbers; rounding and overflow are not modelled.
* A square root of a negative number and a division by zero do not silently
  return a number: the model functions return `none` (the code gets a NaN or an
  infinity).
* The Python functions act on whole arrays; each line acts on every particle
  separately, so one particle is modelled.  `mask` is modelled by the flag
  `state > 0` and by `Option` for the entries that are NaN in the array given
  by the user.
* `FREEZE_VAR_...` is not defined (nothing frozen).
-/

namespace Verif.Energy

noncomputable section

/-- `sqrt` of C and numpy; `none` stands for NaN. -/
def csqrt (x : ℝ) : Option ℝ := if 0 ≤ x then some (Real.sqrt x) else none

/-- `/` of C and numpy; `none` stands for infinity or NaN. -/
def cdiv (a b : ℝ) : Option ℝ := if b = 0 then none else some (a / b)

/-- The fields of one particle used here (`particles.py:70-150`); `mass0` and `q0`
are scalars of the `Particles` object. -/
@[ext] structure Part where
  mass0 : ℝ
  q0 : ℝ
  p0c : ℝ
  gamma0 : ℝ
  beta0 : ℝ
  x : ℝ
  px : ℝ
  y : ℝ
  py : ℝ
  zeta : ℝ
  delta : ℝ
  ptau : ℝ
  rpp : ℝ
  rvv : ℝ
  chi : ℝ
  chargeRatio : ℝ
  state : Int

/-! ## C functions used during tracking -/

/-- `LocalParticle_get_energy0`, `local_particle_custom_api.h:12-17`. -/
def energy0 (p : Part) : Option ℝ := csqrt (p.p0c * p.p0c + p.mass0 * p.mass0)

/-- `LocalParticle_update_ptau`, `local_particle_custom_api.h:20-32`. -/
def updatePtau (p : Part) (ptau : ℝ) : Option Part := do
  let a ← cdiv (2 * ptau) p.beta0
  let irpp ← csqrt (ptau * ptau + a + 1)
  let newRpp ← cdiv 1 irpp
  let newRvv ← cdiv irpp (1 + p.beta0 * ptau)
  some { p with delta := irpp - 1, rvv := newRvv, ptau := ptau, rpp := newRpp }

/-- `LocalParticle_update_delta`, `local_particle_custom_api.h:35-49`. -/
def updateDelta (p : Part) (delta : ℝ) : Option Part := do
  let deltaBeta0 := delta * p.beta0
  let r ← csqrt (deltaBeta0 * deltaBeta0 + 2 * deltaBeta0 * p.beta0 + 1)
  let ptauBeta0 := r - 1
  let onePlusDelta := 1 + delta
  let rvv ← cdiv onePlusDelta (1 + ptauBeta0)
  let rpp ← cdiv 1 onePlusDelta
  let ptau ← cdiv ptauBeta0 p.beta0
  some { p with delta := delta, rvv := rvv, rpp := rpp, ptau := ptau }

/-- `LocalParticle_get_pzeta`, `local_particle_custom_api.h:52-57`. -/
def getPzeta (p : Part) : Option ℝ := cdiv p.ptau p.beta0

/-- `LocalParticle_update_pzeta`, `local_particle_custom_api.h:60-64`. -/
def updatePzeta (p : Part) (pzeta : ℝ) : Option Part := updatePtau p (p.beta0 * pzeta)

/-- `LocalParticle_add_to_energy`, `local_particle_custom_api.h:195-216`. -/
def addToEnergy (p : Part) (dE : ℝ) (pzOnly : Bool) : Option Part := do
  let massRatio ← cdiv p.chargeRatio p.chi
  let a ← cdiv dE p.p0c
  let b ← cdiv a massRatio
  let ptau := p.ptau + b
  let oldRpp := p.rpp
  let q ← updatePtau p ptau
  if pzOnly then some q
  else do
    let f ← cdiv oldRpp q.rpp
    some { q with px := q.px * f, py := q.py * f }

/-- `LocalParticle_update_p0c`, `local_particle_custom_api.h:219-245`. -/
def updateP0c (p : Part) (newP0c : ℝ) : Option Part := do
  let oldP0c := p.p0c
  let oldBeta0 := p.beta0
  let ppc := oldP0c * p.delta + oldP0c
  let newDelta ← cdiv (ppc - newP0c) newP0c
  let newEnergy0 ← csqrt (newP0c * newP0c + p.mass0 * p.mass0)
  let newBeta0 ← cdiv newP0c newEnergy0
  let newGamma0 ← cdiv newEnergy0 p.mass0
  let q ← updateDelta { p with p0c := newP0c, gamma0 := newGamma0, beta0 := newBeta0 } newDelta
  let f ← cdiv oldP0c newP0c
  let g ← cdiv newBeta0 oldBeta0
  some { q with px := q.px * f, py := q.py * f, zeta := q.zeta * g }

/-! ## Python methods of `Particles` -/

/-- Which of the keyword arguments of `Particles(...)` sets the reference
(`particles.py:699-707`); exactly one is given. -/
inductive Ref where
  | p0c (v : ℝ)
  | energy0 (v : ℝ)
  | gamma0 (v : ℝ)
  | beta0 (v : ℝ)
  | kineticEnergy0 (v : ℝ)
  | rigidity0 (v : ℝ)

/-- Speed of light, `scipy.constants.c`. -/
def clight : ℝ := 299792458

/-- `Particles._update_refs`, `particles.py:1900-1954`, for a particle selected by
the mask; exactly one argument given.  The consistency assertions compare a
given value with itself or with the value it was computed from and are left out. -/
def pyUpdateRefs (p : Part) (r : Ref) : Option Part := do
  let (p0c, gamma0, beta0) ← match r with
    | .p0c v => do
        let e ← csqrt (v ^ 2 + p.mass0 ^ 2)
        let b ← cdiv v e
        let g ← cdiv e p.mass0
        some (v, g, b)
    | .energy0 v => do
        let pc ← csqrt (v ^ 2 - p.mass0 ^ 2)
        let b ← cdiv pc v
        let g ← cdiv v p.mass0
        some (pc, g, b)
    | .gamma0 v => do
        let i ← cdiv 1 (v ^ 2)
        let b ← csqrt (1 - i)
        let e := p.mass0 * v
        some (e * b, v, b)
    | .beta0 v => do
        let r ← csqrt (1 - v ^ 2)
        let g ← cdiv 1 r
        let e := p.mass0 * g
        some (e * v, g, v)
    | .kineticEnergy0 v => do
        let e := v + p.mass0
        let pc ← csqrt (e ^ 2 - p.mass0 ^ 2)
        let b ← cdiv pc e
        let g ← cdiv e p.mass0
        some (pc, g, b)
    | .rigidity0 v => do
        let pc := v * |p.q0| * clight
        let e ← csqrt (pc ^ 2 + p.mass0 ^ 2)
        let b ← cdiv pc e
        let g ← cdiv e p.mass0
        some (pc, g, b)
  some { p with p0c := p0c, gamma0 := gamma0, beta0 := beta0 }

/-- Which of the keyword arguments sets the energy deviation. -/
inductive Dev where
  | delta (v : ℝ)
  | ptau (v : ℝ)
  | pzeta (v : ℝ)

/-- `Particles._update_energy_deviations`, `particles.py:1956-2008`, for a particle
selected by the mask; exactly one of `delta`, `ptau`, `pzeta` given, `_rpp` and
`_rvv` not given. -/
def pyUpdateDev (p : Part) (d : Dev) : Option Part := do
  let beta0 := p.beta0
  let (delta, ptau) ← match d with
    | .delta v => do
        let i2 ← cdiv 1 (beta0 ^ 2)
        let r ← csqrt (v ^ 2 + 2 * v + i2)
        let i ← cdiv 1 beta0
        some (v, r - i)
    | .ptau v => do
        let a ← cdiv (2 * v) beta0
        let r ← csqrt (v ^ 2 + a + 1)
        some (r - 1, v)
    | .pzeta v => do
        let t := v * beta0
        let a ← cdiv (2 * t) beta0
        let r ← csqrt (t ^ 2 + a + 1)
        some (r - 1, t)
  let deltaBeta0 := delta * beta0
  let r ← csqrt (deltaBeta0 ^ 2 + 2 * deltaBeta0 * beta0 + 1)
  let ptauBeta0 := r - 1
  let newRvv ← cdiv (1 + delta) (1 + ptauBeta0)
  let newRpp ← cdiv 1 (1 + delta)
  some { p with delta := delta, ptau := ptau, rpp := newRpp, rvv := newRvv }

/-- `particles.delta = v` / `particles.delta[i] = v`, `particles.py:1450-1484`:
NaN entries and lost particles are left alone. -/
def pySetDelta (p : Part) (v : Option ℝ) : Option Part :=
  match v with
  | some d => if p.state > 0 then pyUpdateDev p (.delta d) else some p
  | none => some p

/-- `particles.ptau = v`, `particles.py:1486-1520`. -/
def pySetPtau (p : Part) (v : Option ℝ) : Option Part :=
  match v with
  | some d => if p.state > 0 then pyUpdateDev p (.ptau d) else some p
  | none => some p

/-- `particles.p0c = v`, `particles.py:1522-1556`. -/
def pySetP0c (p : Part) (v : Option ℝ) : Option Part :=
  match v with
  | some d => if p.state > 0 then pyUpdateRefs p (.p0c d) else some p
  | none => some p

/-- `particles.gamma0 = v`, `particles.py:1578-1610`. -/
def pySetGamma0 (p : Part) (v : Option ℝ) : Option Part :=
  match v with
  | some d => if p.state > 0 then pyUpdateRefs p (.gamma0 d) else some p
  | none => some p

/-- `particles.add_to_energy(dE)`, `particles.py:1791-1796`:
`self.ptau += delta_energy / self.p0c / self.mass_ratio`. -/
def pyAddToEnergy (p : Part) (dE : ℝ) : Option Part := do
  let massRatio ← cdiv p.chargeRatio p.chi
  let a ← cdiv dE p.p0c
  let b ← cdiv a massRatio
  pySetPtau p (some (p.ptau + b))

/-- `Particles.update_p0c_and_energy_deviations`, `particles.py:2071-2096`, for one
particle (the mask is `state > 0`). -/
def pyUpdateP0cAndDev (p : Part) (p0c : ℝ) (updatePxpy : Bool) : Option Part :=
  if p.state > 0 then do
    let oldP0c := p.p0c
    let oldBeta0 := p.beta0
    let pc := (p.delta + 1) * oldP0c
    let r ← cdiv pc p0c
    let newDelta := r - 1
    let newP0c := p0c + 0 * oldP0c
    let p1 ← pyUpdateRefs p (.p0c newP0c)
    let p2 ← pyUpdateDev p1 (.delta newDelta)
    let z ← cdiv (p2.zeta * p2.beta0) oldBeta0
    let p3 := { p2 with zeta := z }
    if updatePxpy then do
      let f ← cdiv oldP0c newP0c
      some { p3 with px := p3.px * f, py := p3.py * f }
    else some p3
  else some p

/-- Getter of `rigidity0`, `particles.py:1565-1572`. -/
def pyGetRigidity0 (p : Part) : Option ℝ := do
  let a ← cdiv p.p0c clight
  cdiv a p.q0

/-- Setter of `rigidity0`, `particles.py:1558-1563`, for an alive particle. -/
def pySetRigidity0 (p : Part) (v : ℝ) : Option Part :=
  pySetP0c p (some (v * clight * p.q0))

/-- Getter of `energy`, `particles.py:1665-1713`. -/
def pyEnergy (p : Part) : Option ℝ := do
  let e0 ← csqrt (p.p0c * p.p0c + p.mass0 * p.mass0)
  let m ← cdiv p.chargeRatio p.chi
  some ((e0 + p.ptau * p.p0c) * m)

/-! ## Exact slopes (generated C source, `particles.py:254-380`) -/

/-- `LocalParticle_get_exact_xp`, `particles.py:260-285`. -/
def getExactXp (p : Part) : Option ℝ := do
  let opd := 1 + p.delta
  let r ← csqrt (opd * opd - p.px * p.px - p.py * p.py)
  let rpp ← cdiv 1 r
  some (p.px * rpp)

/-- `LocalParticle_get_exact_yp`, `particles.py:260-285`. -/
def getExactYp (p : Part) : Option ℝ := do
  let opd := 1 + p.delta
  let r ← csqrt (opd * opd - p.px * p.px - p.py * p.py)
  let rpp ← cdiv 1 r
  some (p.py * rpp)

/-- `LocalParticle_set_exact_xp_yp`, `particles.py:344-357`. -/
def setExactXpYp (p : Part) (xp yp : ℝ) : Option Part := do
  let r ← csqrt (1 + xp * xp + yp * yp)
  let rpp := p.rpp * r
  let px ← cdiv xp rpp
  let py ← cdiv yp rpp
  some { p with px := px, py := py }

/-- `LocalParticle_set_exact_xp`, `particles.py:288-314`. -/
def setExactXp (p : Part) (xp : ℝ) : Option Part := do
  let yp ← getExactYp p
  let r ← csqrt (1 + xp * xp + yp * yp)
  let rpp := p.rpp * r
  let px ← cdiv xp rpp
  some { p with px := px }

/-- `LocalParticle_add_to_exact_xp_yp`, `particles.py:359-368`. -/
def addToExactXpYp (p : Part) (dxp dyp : ℝ) : Option Part := do
  let xp ← getExactXp p
  let yp ← getExactYp p
  setExactXpYp p (xp + dxp) (yp + dyp)

/-- `LocalParticle_scale_exact_xp_yp`, `particles.py:370-379`. -/
def scaleExactXpYp (p : Part) (vx vy : ℝ) : Option Part := do
  let xp ← getExactXp p
  let yp ← getExactYp p
  setExactXpYp p (xp * vx) (yp * vy)

end

end Verif.Energy
