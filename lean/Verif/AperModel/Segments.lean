import Verif.AperModel.Poses
import Mathlib.Algebra.Order.Floor.Ring

/-!
Segments of the survey, the planes of profiles and points, xtrack/aperture/headers/segment3d.h. Numbers are reals instead of floating
point numbers; NaN is `none`.
-/
namespace Verif.AperModel.Segments
open Poses (Pose P3 apply eps atan2 inverse arcPoint)

/-- `point3d_dot` and `point3d_sub`, base.h:314-324. -/
def dot (a b : P3) : ℝ := a.x * b.x + a.y * b.y + a.z * b.z
def sub (a b : P3) : P3 := ⟨a.x - b.x, a.y - b.y, a.z - b.z⟩

/-- `line_segment_point_at`, segment3d.h:64-68. -/
def linePoint (a b : P3) (t : ℝ) : P3 := ⟨a.x + t * (b.x - a.x), a.y + t * (b.y - a.y), a.z + t * (b.z - a.z)⟩

/-- `line_segment_plane_intersect`, segment3d.h:143-197: the plane is given by a point and its normal. -/
noncomputable def lineT (a b q n : P3) : Option ℝ :=
  let na := dot n (sub a q)
  let nb := dot n (sub b q)
  if dot (sub b a) (sub b a) < eps * eps then (if |na| < eps then some 0 else none)
  else if |nb - na| < eps then
    if |na| < eps then some 0 else if |nb| < eps then some 1 else none
  else some (-na / (nb - na))

/-- `round` of C: to the nearest integer, halves away from zero. -/
noncomputable def cround (x : ℝ) : ℤ := if 0 ≤ x then ⌊x + 1 / 2⌋ else ⌈x - 1 / 2⌉

/-- How far a parameter is from the segment, segment3d.h:355-357. -/
noncomputable def outside (t : ℝ) : ℝ := if t < 0 then -t else if t > 1 then t - 1 else 0

/-- The candidates of one family of solutions, segment3d.h:341-351. -/
noncomputable def candidates (t0 period : ℝ) : List ℝ :=
  let m0 : ℝ := cround ((0 - t0) / period)
  let m1 : ℝ := cround ((1 - t0) / period)
  [t0 + (m0 - 1) * period, t0 + m0 * period, t0 + (m0 + 1) * period,
   t0 + (m1 - 1) * period, t0 + m1 * period, t0 + (m1 + 1) * period]

/-- segment3d.h:353-363: keep the candidate which is less far, the first of equal ones; `none` stands for the distance INFINITY. -/
noncomputable def keep (best : Option ℝ) (t : ℝ) : Option ℝ := match best with
  | none => some t
  | some b => if outside t < outside b then some t else some b

/-- The parameters of segment3d.h:296-327 in the frame of the arc: `alpha`, `beta` and `delta`. -/
noncomputable def coeffs (start : Pose) (roll : ℝ) (q n : P3) : ℝ × ℝ × ℝ :=
  let inv := inverse start
  let ql := apply inv q
  let nl : P3 := ⟨inv 0 0 * n.x + inv 0 1 * n.y + inv 0 2 * n.z, inv 1 0 * n.x + inv 1 1 * n.y + inv 1 2 * n.z,
    inv 2 0 * n.x + inv 2 1 * n.y + inv 2 2 * n.z⟩
  (nl.x * Real.cos roll + nl.y * Real.sin roll, nl.z, dot nl ql)

/-- `clamp_value` with the limits −1 and 1. -/
noncomputable def clamp1 (x : ℝ) : ℝ := if x < -1 then -1 else if x > 1 then 1 else x

/-- `arc_segment_plane_intersect`, segment3d.h:222-368. -/
noncomputable def arcT (start : Pose) (length curvature roll : ℝ) (q n : P3) : Option ℝ :=
  if length ≤ eps then some 0
  else if |curvature| < eps then
    lineT (arcPoint start length curvature roll 0) (arcPoint start length curvature roll 1) q n
  else
    let k := coeffs start roll q n
    let a := k.1
    let b := k.2.1
    let c := -(a + curvature * k.2.2)
    let r := Real.sqrt (a * a + b * b)
    if r < eps then (if |c| < eps then some 0 else none)
    else if -c / r < -(1 + eps) ∨ -c / r > 1 + eps then none
    else
      let phi := atan2 b a
      let gamma := Real.arccos (clamp1 (-c / r))
      let scale := curvature * length
      let period := 2 * Real.pi / scale
      (candidates ((phi + gamma) / scale) period ++ candidates ((phi - gamma) / scale) period).foldl keep none

/-- `closest_t_on_line_segment`, segment3d.h:388-406: the square of the length is compared with the limit. -/
noncomputable def closestLine (p a b : P3) : ℝ :=
  if dot (sub b a) (sub b a) < eps then 0 else dot (sub p a) (sub b a) / dot (sub b a) (sub b a)

/-- `closest_t_on_arc_segment`, segment3d.h:409-451. -/
noncomputable def closestArc (p : P3) (start : Pose) (length curvature roll : ℝ) : ℝ :=
  if length < eps then 0
  else
    let q := apply (inverse start) p
    let x := Real.cos roll * q.x + Real.sin roll * q.y
    if |curvature| < eps then q.z / length
    else atan2 (curvature * q.z) (1 + curvature * x) / (curvature * length)

end Verif.AperModel.Segments
