import Verif.Energy.Model

/-!
# What the energy variables of a particle mean

Relativistic kinematics of one particle, written without the functions of the
model.  All energies are per unit of the mass ratio: a particle of mass
`mass_ratio * mass0` has energy `mass_ratio * energy p` and momentum
`mass_ratio * momentum p`.
-/

namespace Verif.Energy

noncomputable section

/-- Energy of the reference particle. -/
def refEnergy (p : Part) : ℝ := Real.sqrt (p.p0c ^ 2 + p.mass0 ^ 2)

/-- Energy described by `ptau` (divided by the mass ratio). -/
def energyOf (p : Part) : ℝ := refEnergy p + p.ptau * p.p0c

/-- Momentum described by `delta` (divided by the mass ratio). -/
def momentumOf (p : Part) : ℝ := p.p0c * (1 + p.delta)

/-- Mass of the particle over reference mass. -/
def massRatioOf (p : Part) : ℝ := p.chargeRatio / p.chi

/-- The reference quantities describe a massive particle of momentum `p0c > 0`. -/
structure RefOk (p : Part) : Prop where
  mass : 0 < p.mass0
  p0c : 0 < p.p0c
  gamma0 : p.gamma0 = refEnergy p / p.mass0
  beta0 : p.beta0 = p.p0c / refEnergy p

/-- All the energy variables describe one and the same moving particle. -/
structure Consistent (p : Part) : Prop extends RefOk p where
  /-- the particle moves forward -/
  momentum_pos : 0 < momentumOf p
  energy_pos : 0 < energyOf p
  /-- `ptau` and `delta` describe the same particle -/
  mass_shell : energyOf p ^ 2 = momentumOf p ^ 2 + p.mass0 ^ 2
  /-- `rpp` is the ratio of reference momentum and momentum -/
  rpp : p.rpp = p.p0c / momentumOf p
  /-- `rvv` is the ratio of velocity and reference velocity -/
  rvv : p.rvv = (momentumOf p / energyOf p) / (p.p0c / refEnergy p)

/-- Everything that is not an energy deviation is the same. -/
structure SameButDeviation (p q : Part) : Prop where
  mass0 : q.mass0 = p.mass0
  q0 : q.q0 = p.q0
  p0c : q.p0c = p.p0c
  gamma0 : q.gamma0 = p.gamma0
  beta0 : q.beta0 = p.beta0
  x : q.x = p.x
  px : q.px = p.px
  y : q.y = p.y
  py : q.py = p.py
  zeta : q.zeta = p.zeta
  chi : q.chi = p.chi
  chargeRatio : q.chargeRatio = p.chargeRatio
  state : q.state = p.state

/-- The same physical particle, whatever the reference: momentum vector, energy,
arrival time, position, mass, charge. -/
structure SamePhysical (p q : Part) : Prop where
  momentum : momentumOf q = momentumOf p
  momentum_x : q.p0c * q.px = p.p0c * p.px
  momentum_y : q.p0c * q.py = p.p0c * p.py
  energy : energyOf q = energyOf p
  time : q.zeta / q.beta0 = p.zeta / p.beta0
  x : q.x = p.x
  y : q.y = p.y
  mass0 : q.mass0 = p.mass0
  q0 : q.q0 = p.q0
  chi : q.chi = p.chi
  chargeRatio : q.chargeRatio = p.chargeRatio
  state : q.state = p.state

end

end Verif.Energy
