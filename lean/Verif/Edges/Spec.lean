import Verif.Frames.Spec
import Mathlib.Analysis.Calculus.Deriv.Basic

/-!
# Motion in a uniform vertical field between two planes

The particle starts in the plane of the present frame and is described again where it crosses the plane of another frame.  Between the
two it moves in a uniform vertical field: position and momentum obey the Lorentz equation in Cartesian coordinates of the first frame.
-/

namespace Verif.Edges

open Frames

/-- Position and horizontal momentum as functions of the parameter `u`, which is the path divided by the total momentum. -/
structure Orbit where
  X : ℝ → ℝ
  Y : ℝ → ℝ
  Z : ℝ → ℝ
  PX : ℝ → ℝ
  PY : ℝ → ℝ
  PZ : ℝ → ℝ

/-- The equations of motion in a uniform vertical field of strength `b` (force over momentum). -/
structure Orbit.Lorentz (o : Orbit) (b : ℝ) : Prop where
  X : ∀ u, HasDerivAt o.X (o.PX u) u
  Y : ∀ u, HasDerivAt o.Y (o.PY u) u
  Z : ∀ u, HasDerivAt o.Z (o.PZ u) u
  PX : ∀ u, HasDerivAt o.PX (-(b * o.PZ u)) u
  PY : ∀ u, HasDerivAt o.PY 0 u
  PZ : ∀ u, HasDerivAt o.PZ (b * o.PX u) u

/-- `p'` describes in the frame which is turned by the yaw `-t` the particle `p` after the motion in the field `b` from the plane of
the present frame to that of the turned one.  The momentum turns by `b u`, less than half a turn away from `t`.  The spin is the same
vector as before. -/
structure Crossing (t b : ℝ) (p p' : Part) : Prop where
  kind : SameKind p p'
  s : p'.s = p.s
  spin : (Frame.yaw (-t)).dir p'.spin = p.spin
  orbit : ∃ (o : Orbit) (u : ℝ), o.Lorentz b ∧
    o.X 0 = p.x ∧ o.Y 0 = p.y ∧ o.Z 0 = 0 ∧ o.PX 0 = p.px ∧ o.PY 0 = p.py ∧ o.PZ 0 = p.pz ∧
    (Frame.yaw (-t)).point ⟨p'.x, p'.y, 0⟩ = ⟨o.X u, o.Y u, o.Z u⟩ ∧
    (Frame.yaw (-t)).dir p'.mom = ⟨o.PX u, o.PY u, o.PZ u⟩ ∧
    p'.zeta = p.zeta - u * (1 + p.delta) / p.rvv ∧
    (b ≠ 0 → |b * u - t| < Real.pi)

end Verif.Edges
