import Verif.AperModel.Segments

/-!
Coordinates along the bent axis of a pipe, and the walls between two profiles of a bent pipe, xtrack/aperture/headers/convert_curvilinear.h
and cross_sections.h. Numbers are reals instead of floating point numbers.
-/
namespace Verif.AperModel.Curvilinear
open Poses (Pose P3 apply eps atan2)
open Segments (linePoint lineT)

/-- `curvilinear_to_cartesian_point`, convert_curvilinear.h:6-34. -/
noncomputable def toCartesian (p : P3) (h : ℝ) : P3 :=
  if |h| < eps then p
  else ⟨(1 / h + p.x) * Real.cos (h * p.z) - 1 / h, p.y, (1 / h + p.x) * Real.sin (h * p.z)⟩

/-- `sgn`, convert_curvilinear.h:65. -/
noncomputable def sgn (h : ℝ) : ℝ := if 0 ≤ h then 1 else -1

/-- `cartesian_to_curvilinear_point`, convert_curvilinear.h:37-74. -/
noncomputable def toCurvilinear (p : P3) (h : ℝ) : P3 :=
  if |h| < eps then p
  else ⟨sgn h * Real.sqrt ((p.x + 1 / h) ^ 2 + p.z ^ 2) - 1 / h, p.y, atan2 (sgn h * p.z) (sgn h * (p.x + 1 / h)) * (1 / h)⟩

/-- `cartesian_vector_to_curvilinear_at_point`, convert_curvilinear.h:77-118; `none` is a vector of NaN. -/
noncomputable def vectorToCurvilinear (p v : P3) (h : ℝ) : Option P3 :=
  if |h| < eps then some v
  else if |1 + h * p.x| < eps then none
  else some ⟨Real.cos (h * p.z) * v.x + Real.sin (h * p.z) * v.z, v.y,
    (-Real.sin (h * p.z) * v.x + Real.cos (h * p.z) * v.z) / (1 + h * p.x)⟩

/-- The point of `intersect_segment_with_plane_and_project_xy`, cross_sections.h:342-413, before it is expressed in the frame of the
plane, in the case that a parameter is found (`isfinite(t)`) and accepted; `none` otherwise. `curvature` is over the limit. -/
noncomputable def wallHit (a b q n : P3) (curvature : ℝ) : Option P3 :=
  match vectorToCurvilinear (toCurvilinear q curvature) n curvature with
  | none => none
  | some nc =>
    match lineT (toCurvilinear a curvature) (toCurvilinear b curvature) (toCurvilinear q curvature) nc with
    | none => none
    | some t =>
      if t < -eps ∨ 1 + eps < t then none
      else some (toCartesian (linePoint (toCurvilinear a curvature) (toCurvilinear b curvature)
        (if t < 0 then 0 else if t > 1 then 1 else t)) curvature)

end Verif.AperModel.Curvilinear
