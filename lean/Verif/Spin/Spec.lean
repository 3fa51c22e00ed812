import Verif.Spin.Model

/-! # Specification for the motion of the spin (C108, C109) -/

namespace Verif.Spin

open Verif.Frames

noncomputable section

def dot (a b : V3) : ℝ := a.x * b.x + a.y * b.y + a.z * b.z

def cross (a b : V3) : V3 := ⟨a.y * b.z - a.z * b.y, a.z * b.x - a.x * b.z, a.x * b.y - a.y * b.x⟩

def add (a b : V3) : V3 := ⟨a.x + b.x, a.y + b.y, a.z + b.z⟩

def smul (c : ℝ) (a : V3) : V3 := ⟨c * a.x, c * a.y, c * a.z⟩

/-- A rotation: linear, keeps lengths and angles, and is not a reflection. -/
structure IsRotation (R : V3 → V3) : Prop where
  add : ∀ a b, R (add a b) = add (R a) (R b)
  smul : ∀ c a, R (smul c a) = smul c (R a)
  dot : ∀ a b, dot (R a) (R b) = dot a b
  cross : ∀ a b, cross (R a) (R b) = R (cross a b)

/-- Turn by an angle around an axis of length one. -/
def turn (n : V3) (phi : ℝ) (s : V3) : V3 :=
  add (smul (Real.cos phi) s) (add (smul (Real.sin phi) (cross n s)) (smul ((1 - Real.cos phi) * dot n s) n))

/-- The direction of the kinetic momentum, in units of which the length is one. -/
def trueDirection (p : Part) (e : Extra) : V3 :=
  ⟨(p.px - e.ax) / (1 + p.delta), (p.py - e.ay) / (1 + p.delta),
    Real.sqrt (1 - ((p.px - e.ax) / (1 + p.delta)) ^ 2 - ((p.py - e.ay) / (1 + p.delta)) ^ 2)⟩

/-- The Thomas-BMT equation in a magnetic field: angle of precession per length, for a particle moving along `v`
(of length one). -/
def thomasBMT (G gamma brho : ℝ) (B v : V3) : V3 :=
  let along := smul (dot B v) v
  smul (-1 / brho) (add (smul (1 + G * gamma) (add B (smul (-1) along))) (smul (1 + G) along))

/-- What happens to a particle with spin in a line.  `other` are all effects which neither change the spin nor depend on it.
The field, the length of the path and so on can depend on the orbit. -/
inductive Step where
  | magnet (e : Part → Extra) (B : Part → V3) (hx length : ℝ) (lpath : Part → ℝ)
  | legacy (e : Part → Extra) (oldPx oldPy : Part → ℝ) (hx length : ℝ) (lpath : Part → ℝ) (B : Part → V3)
  | rotS (angle : ℝ)
  | rotX (angle : ℝ)
  | rotY (angle : ℝ)
  | wedge (theta : ℝ)
  | other (f : Part → Part)

/-- Nothing but the spin depends on the spin. -/
def Step.Blind : Step → Prop
  | .magnet e B _ _ l => ∀ p s, e (setSpin p s) = e p ∧ B (setSpin p s) = B p ∧ l (setSpin p s) = l p
  | .legacy e x y _ _ l B => ∀ p s, e (setSpin p s) = e p ∧ B (setSpin p s) = B p ∧ l (setSpin p s) = l p
      ∧ x (setSpin p s) = x p ∧ y (setSpin p s) = y p
  | .other f => ∀ p s, f (setSpin p s) = setSpin (f p) s
  | _ => True

def Step.track : Step → Part → Option Part
  | .magnet e B hx length l, p => magnetSpin p (e p) (B p) hx length (l p) false
  | .legacy e x y hx length l B, p => legacySpin p (e p) (x p) (y p) hx length (l p) (B p) false
  | .rotS a, p => some (sRot p (Real.sin a) (Real.cos a))
  | .rotX a, p => some (xRot p (Real.sin a) (Real.cos a) (Real.tan a))
  | .rotY a, p => some (yRot p (Real.sin a) (Real.cos a) (Real.tan a))
  | .wedge a, p => some (wedgeSpin a p)
  | .other f, p => some (f p)

def track : List Step → Part → Option Part
  | [], p => some p
  | st :: rest, p => (st.track p).bind (track rest)

end

end Verif.Spin
