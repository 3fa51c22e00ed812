import Mathlib.Data.Matrix.Mul
import Mathlib.LinearAlgebra.Matrix.Notation
import Mathlib.LinearAlgebra.Matrix.NonsingularInverse
import Mathlib.Analysis.SpecialFunctions.Complex.Arg
import Mathlib.Tactic.FinCases

/-!
Poses in the aperture model: 4 × 4 matrices made of a rotation and a shift, xtrack/aperture/headers/base.h, survey_tools.h and
xtrack/aperture/transform.py. Numbers are reals instead of floating point numbers.
-/
namespace Verif.AperModel.Poses

/-- `Pose`, base.h:46-48. -/
abbrev Pose := Matrix (Fin 4) (Fin 4) ℝ

/-- `Transform`, base.h:36-43, and the named tuple of transform.py:9-15. -/
@[ext] structure Transform where
  x : ℝ := 0
  y : ℝ := 0
  s : ℝ := 0
  rotX : ℝ := 0
  rotY : ℝ := 0
  rotS : ℝ := 0

/-- `atan2` of C and of numpy; both are 0 if both arguments are. -/
noncomputable def atan2 (y x : ℝ) : ℝ := Complex.arg ⟨x, y⟩

/-- `transform_to_matrix`, base.h:268-299, and `transform_matrix`, transform.py:18-65. -/
noncomputable def toMatrix (t : Transform) : Pose :=
  !![-Real.sin t.rotX * Real.sin t.rotS * Real.sin t.rotY + Real.cos t.rotS * Real.cos t.rotY,
     -Real.cos t.rotS * Real.sin t.rotX * Real.sin t.rotY - Real.cos t.rotY * Real.sin t.rotS,
     Real.cos t.rotX * Real.sin t.rotY, t.x;
     Real.cos t.rotX * Real.sin t.rotS, Real.cos t.rotX * Real.cos t.rotS, Real.sin t.rotX, t.y;
     -Real.cos t.rotY * Real.sin t.rotX * Real.sin t.rotS - Real.cos t.rotS * Real.sin t.rotY,
     -Real.cos t.rotS * Real.cos t.rotY * Real.sin t.rotX + Real.sin t.rotS * Real.sin t.rotY,
     Real.cos t.rotX * Real.cos t.rotY, t.s;
     0, 0, 0, 1]

/-- `matrix_to_transform` in C, base.h:302-311. -/
noncomputable def fromMatrix (m : Pose) : Transform where
  x := m 0 3
  y := m 1 3
  s := m 2 3
  rotX := atan2 (m 1 2) (Real.sqrt (m 1 0 * m 1 0 + m 1 1 * m 1 1))
  rotY := atan2 (m 0 2) (m 2 2)
  rotS := atan2 (m 1 0) (m 1 1)

/-- `matrix_to_transform` in python, transform.py:68-114, of a matrix which passes the two checks. -/
noncomputable def pyFromMatrix (m : Pose) : Transform where
  x := m 0 3
  y := m 1 3
  s := m 2 3
  rotX := Real.arcsin (m 1 2)
  rotY := atan2 (m 0 2) (m 2 2)
  rotS := atan2 (m 1 0) (m 1 1)

/-- `pose_inverse_rigid`, base.h:236-264. -/
def inverse (p : Pose) : Pose :=
  !![p 0 0, p 1 0, p 2 0, -(p 0 0 * p 0 3 + p 1 0 * p 1 3 + p 2 0 * p 2 3);
     p 0 1, p 1 1, p 2 1, -(p 0 1 * p 0 3 + p 1 1 * p 1 3 + p 2 1 * p 2 3);
     p 0 2, p 1 2, p 2 2, -(p 0 2 * p 0 3 + p 1 2 * p 1 3 + p 2 2 * p 2 3);
     0, 0, 0, 1]

/-- `APER_PRECISION`, base.h:13. -/
noncomputable abbrev eps : ℝ := 1 / 1000000

/-- `arc_matrix` in C with the tilt zero, base.h:80-104; it is never called with another one (cross_sections.h:190). -/
noncomputable def pipeArc (length angle : ℝ) : Pose :=
  if |angle| < eps then toMatrix { s := length }
  else !![Real.cos angle, 0, -Real.sin angle, length * (Real.cos angle - 1) / angle;
          0, 1, 0, 0;
          Real.sin angle, 0, Real.cos angle, length * Real.sin angle / angle;
          0, 0, 0, 1]

/-- `survey_arc_matrix`, survey_tools.h:21-52. -/
noncomputable def surveyArc (length angle tilt : ℝ) : Pose :=
  if |angle| < eps then toMatrix { s := length }
  else
    !![Real.cos tilt * Real.cos tilt * Real.cos angle + Real.sin tilt * Real.sin tilt,
       Real.cos tilt * Real.sin tilt * (Real.cos angle - 1), -Real.cos tilt * Real.sin angle,
       Real.cos tilt * (length * (Real.cos angle - 1) / angle);
       Real.cos tilt * Real.sin tilt * (Real.cos angle - 1),
       Real.sin tilt * Real.sin tilt * Real.cos angle + Real.cos tilt * Real.cos tilt, -Real.sin tilt * Real.sin angle,
       Real.sin tilt * (length * (Real.cos angle - 1) / angle);
       Real.cos tilt * Real.sin angle, Real.sin tilt * Real.sin angle, Real.cos angle, length * Real.sin angle / angle;
       0, 0, 0, 1]

/-- `Point3D`, base.h:29-33. -/
@[ext] structure P3 where
  x : ℝ
  y : ℝ
  z : ℝ

/-- `pose_apply_point`, base.h:337-344. -/
def apply (p : Pose) (v : P3) : P3 :=
  ⟨p 0 0 * v.x + p 0 1 * v.y + p 0 2 * v.z + p 0 3, p 1 0 * v.x + p 1 1 * v.y + p 1 2 * v.z + p 1 3,
   p 2 0 * v.x + p 2 1 * v.y + p 2 2 * v.z + p 2 3⟩

/-- The pose of a position within a segment which is not a straight magnet in a bent frame, survey_tools.h:203-240: the position is
`t` of the length, and neither end is within `APER_PRECISION`. -/
noncomputable def interpolate (start : Pose) (length angle tilt t : ℝ) : Pose :=
  start * surveyArc (t * length) (t * angle) tilt

/-- `arc_segment_point_at`, segment3d.h:72-98: the point at the fraction `t` of an arc. -/
noncomputable def arcPoint (start : Pose) (length curvature roll t : ℝ) : P3 :=
  let dx := if |curvature| < eps then 0 else (Real.cos (curvature * (t * length)) - 1) / curvature
  let ds := if |curvature| < eps then t * length else Real.sin (curvature * (t * length)) / curvature
  apply start ⟨Real.cos roll * dx, Real.sin roll * dx, ds⟩

/-- The segment of the survey with the length and angle as a curve, `survey_arc_segment`, survey_tools.h:125-137. -/
noncomputable def surveyPoint (start : Pose) (length angle tilt t : ℝ) : P3 := arcPoint start length (angle / length) tilt t

end Verif.AperModel.Poses
