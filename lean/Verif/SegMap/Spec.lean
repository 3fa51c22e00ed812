import Verif.SegMap.Model
import Mathlib.Algebra.BigOperators.Group.Finset.Basic

/-!
# Betatron and synchrotron motion: specification
-/

namespace Verif.SegMap

open Frames

noncomputable section

/-- The normalised coordinates of one plane: distance to the orbit of the particle's momentum, in units in which the motion is a
rotation. -/
def normal (o : Optics) (delta x px : ℝ) : ℝ × ℝ :=
  ((x - o.ref - o.d * delta) / Real.sqrt o.bet,
    (o.alf * (x - o.ref - o.d * delta) + o.bet * (px - o.pref - o.dp * delta)) / Real.sqrt o.bet)

/-- Rotation by the phase advance `a`. -/
def turn (a : ℝ) (w : ℝ × ℝ) : ℝ × ℝ := (Real.cos a * w.1 + Real.sin a * w.2, -Real.sin a * w.1 + Real.cos a * w.2)

/-- The action. -/
def action (w : ℝ × ℝ) : ℝ := (w.1 ^ 2 + w.2 ^ 2) / 2

/-- The arguments `qx, dqx, ddqx, dnqx` (or those of the vertical plane). -/
structure TuneArgs where
  q : ℝ
  dq : ℝ
  ddq : ℝ
  dnq : Option (List ℝ)

/-- The tune of a particle as a function of `delta`: `dnq` lists the derivatives of the tune. -/
def TuneArgs.at (t : TuneArgs) (delta : ℝ) : ℝ :=
  match t.dnq with
  | some l => ∑ i ∈ Finset.range l.length, l.getD i 0 / (i.factorial : ℝ) * delta ^ i
  | none => t.q + t.dq * delta + t.ddq / 2 * delta ^ 2

/-- The element was made with these arguments for the tunes. -/
def Built (e : Seg) (tx ty : TuneArgs) : Prop :=
  tuneFields tx.q tx.dq tx.ddq tx.dnq = some (e.qx, e.coeffsDqx) ∧ tuneFields ty.q ty.dq ty.ddq ty.dnq = some (e.qy, e.coeffsDqy)

/-- Positive beta functions; neither damping nor noise. -/
structure Plain (e : Seg) : Prop where
  x0 : 0 < e.x0.bet
  x1 : 0 < e.x1.bet
  y0 : 0 < e.y0.bet
  y1 : 0 < e.y1.bet
  noDamping : e.uncorrelatedDamping = false ∧ e.correlatedDamping = false
  noNoise : e.uncorrelatedNoise = false ∧ e.correlatedNoise = false

/-- `beta0 * gamma0`. -/
def betaGamma (s : St) : ℝ := s.p.beta0 * s.gamma0

/-- The normalised coordinates of the particle in the two planes. -/
def nx (o : Optics) (s : St) : ℝ × ℝ := normal o s.p.delta s.p.x s.p.px
@[inherit_doc nx]
def ny (o : Optics) (s : St) : ℝ × ℝ := normal o s.p.delta s.p.y s.p.py

/-- The phase advances of the particle `s` in the segment. -/
def advX (e : Seg) (tx : TuneArgs) (s : St) : ℝ :=
  2 * Real.pi * (tx.at s.p.delta + e.detXX * action (nx e.x0 s) + e.detXY * action (ny e.y0 s))
@[inherit_doc advX]
def advY (e : Seg) (ty : TuneArgs) (s : St) : ℝ :=
  2 * Real.pi * (ty.at s.p.delta + e.detYX * action (nx e.x0 s) + e.detYY * action (ny e.y0 s))

end

end Verif.SegMap
