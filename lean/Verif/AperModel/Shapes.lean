import Verif.Apertures.Spec
import Mathlib.Analysis.SpecialFunctions.Trigonometric.Inverse
import Mathlib.Analysis.SpecialFunctions.Complex.Arg

/-!
The outlines of profiles as segments, and the points put on them: xtrack/aperture/headers/path.h and profile.h. Numbers are reals
instead of floating point numbers. The incomplete elliptic integral of the second kind, which the code computes numerically
(base.h:161-217), is a parameter: nothing depends on its values.
-/
namespace Verif.AperModel.Shapes

/-- `Point2D`. -/
abbrev P := ℝ × ℝ

/-- `Segment2D`, path.h:41-50. The rotation of ellipses is left out, it is zero in all calls. -/
inductive Seg where
  | line (x0 y0 x1 y1 : ℝ)
  | arc (cx cy r a b : ℝ)
  | ell (cx cy rx ry a b : ℝ)

/-- `APER_PRECISION`, base.h:13. -/
noncomputable abbrev eps : ℝ := 1 / 1000000

/-- `hypot`. -/
noncomputable def hypot (x y : ℝ) : ℝ := Real.sqrt (x ^ 2 + y ^ 2)

/-- `ellipse_cumulative_length`, path.h:315-332; `E phi k` is `elliptic_E`. -/
noncomputable def cumulative (E : ℝ → ℝ → ℝ) (angle rx ry : ℝ) : ℝ :=
  if rx ≤ 0 ∨ ry ≤ 0 then 0
  else if rx = ry then rx * |angle|
  else if rx ≥ ry then
    let k := Real.sqrt (1 - ry * ry / (rx * rx))
    rx * (E (Real.pi / 2) k - E (Real.pi / 2 - angle) k)
  else ry * E angle (Real.sqrt (1 - rx * rx / (ry * ry)))

/-- `ellipse_arc_length_between`, path.h:334-338. -/
noncomputable def between (E : ℝ → ℝ → ℝ) (a b rx ry : ℝ) : ℝ := |cumulative E b rx ry - cumulative E a rx ry|

/-- The halvings of `ellipse_angle_at_length`, path.h:359-368: the interval after `n` of them. -/
noncomputable def halve (E : ℝ → ℝ → ℝ) (a dir rx ry target : ℝ) : ℕ → ℝ × ℝ → ℝ × ℝ
  | 0, p => p
  | n + 1, p =>
    let mid := (p.1 + p.2) / 2
    halve E a dir rx ry target n (if between E a (a + dir * mid) rx ry < target then (mid, p.2) else (p.1, mid))

/-- `ellipse_angle_at_length`, path.h:340-372. -/
noncomputable def angleAt (E : ℝ → ℝ → ℝ) (a b rx ry target : ℝ) : ℝ :=
  if rx ≤ 0 ∨ ry ≤ 0 then a
  else if between E a b rx ry = 0 then a
  else if target ≤ 0 then a
  else if target ≥ between E a b rx ry then b
  else
    let dir : ℝ := if b ≥ a then 1 else -1
    if rx = ry then a + dir * (target / rx)
    else
      let p := halve E a dir rx ry target 60 (0, |b - a|)
      a + dir * ((p.1 + p.2) / 2)

/-- `segment2d_get_length`, path.h:529-543, with path.h:129-137, 243-251 and 374-382. -/
noncomputable def len (E : ℝ → ℝ → ℝ) : Seg → ℝ
  | .line x0 y0 x1 y1 => hypot (x1 - x0) (y1 - y0)
  | .arc _ _ r a b => |b - a| * r
  | .ell _ _ rx ry a b => between E a b rx ry

/-- The point of a segment at a length along it, path.h:139-170, 253-286 and 384-410. -/
noncomputable def point (E : ℝ → ℝ → ℝ) (s : Seg) (at_ : ℝ) : P := match s with
  | .line x0 y0 x1 y1 =>
    if hypot (x1 - x0) (y1 - y0) ≤ eps then (x0, y0)
    else (x0 + (x1 - x0) / hypot (x1 - x0) (y1 - y0) * at_, y0 + (y1 - y0) / hypot (x1 - x0) (y1 - y0) * at_)
  | .arc cx cy r a b =>
    if |b - a| * r ≤ eps then (cx + r * Real.cos a, cy + r * Real.sin a)
    else (cx + r * Real.cos (a + at_ / (|b - a| * r) * (b - a)), cy + r * Real.sin (a + at_ / (|b - a| * r) * (b - a)))
  | .ell cx cy rx ry a b =>
    (cx + rx * Real.cos (angleAt E a b rx ry at_), cy + ry * Real.sin (angleAt E a b rx ry at_))

/-! ## Outlines of shapes -/

/-- `maybe_ellipse_arc_segment_from_center_radii_rotation_angles`, path.h:304-313. -/
noncomputable def maybeEll (cx cy rx ry a b : ℝ) : Seg := if rx = ry then .arc cx cy rx a b else .ell cx cy rx ry a b

/-- `segments_from_rectangle`, path.h:549-559. -/
def rectangle (w h : ℝ) : List Seg :=
  [.line (-w) (-h) w (-h), .line w (-h) w h, .line w h (-w) h, .line (-w) h (-w) (-h)]

/-- `segments_from_circle`, path.h:561-568. -/
noncomputable def circle (r : ℝ) : List Seg := [.arc 0 0 r 0 (2 * Real.pi)]

/-- `segments_from_ellipse`, path.h:570-582. -/
noncomputable def ellipse (rx ry : ℝ) : List Seg := if rx = ry then circle rx else [.ell 0 0 rx ry 0 (2 * Real.pi)]

/-- `segments_from_rectellipse`, path.h:584-652. Where `acos` or `asin` give NaN in the code, the comparison is false and the number is
not used. -/
noncomputable def rectEllipse (w h rx ry : ℝ) : List Seg :=
  let arg1 := if w / rx > 1 then 1 else w / rx
  let arg2 := if h / ry > 1 then 1 else h / ry
  if arg1 = 1 ∧ arg2 = 1 then ellipse rx ry
  else
    let a1 := Real.arccos (w / rx)
    let a2 := Real.arcsin (h / ry)
    if w / rx ≤ 1 ∧ h / ry ≤ 1 ∧ a2 < a1 then rectangle w h
    else
      let iy := ry * Real.sin a1
      let ix := rx * Real.cos a2
      if arg1 < 1 ∧ arg2 < 1 then
        [.line w (-iy) w iy, maybeEll 0 0 rx ry a1 a2, .line ix h (-ix) h, maybeEll 0 0 rx ry (Real.pi - a2) (Real.pi - a1),
         .line (-w) iy (-w) (-iy), maybeEll 0 0 rx ry (Real.pi + a1) (Real.pi + a2), .line (-ix) (-h) ix (-h),
         maybeEll 0 0 rx ry (2 * Real.pi - a2) (2 * Real.pi - a1)]
      else if arg1 < 1 then
        [.line w (-iy) w iy, maybeEll 0 0 rx ry a1 (Real.pi - a1), .line (-w) iy (-w) (-iy),
         maybeEll 0 0 rx ry (Real.pi + a1) (2 * Real.pi - a1)]
      else
        [maybeEll 0 0 rx ry (-a2) a2, .line ix h (-ix) h, maybeEll 0 0 rx ry (Real.pi - a2) (Real.pi + a2),
         .line (-ix) (-h) ix (-h)]

/-- `segments_from_racetrack`, path.h:416-470. -/
noncomputable def racetrack (w h rx ry : ℝ) : List Seg :=
  if rx ≤ 0 ∨ ry ≤ 0 then rectangle w h
  else if rx = w ∧ ry = h then ellipse rx ry
  else if rx = w then
    [.line w (-h + ry) w (h - ry), maybeEll 0 (h - ry) rx ry 0 Real.pi, .line (-w) (h - ry) (-w) (-h + ry),
     maybeEll 0 (-h + ry) rx ry Real.pi (2 * Real.pi)]
  else if ry = h then
    [maybeEll (w - rx) 0 rx ry (-Real.pi / 2) (Real.pi / 2), .line (w - rx) h (-w + rx) h,
     maybeEll (-w + rx) 0 rx ry (Real.pi / 2) (3 * Real.pi / 2), .line (-w + rx) (-h) (w - rx) (-h)]
  else
    [.line w (-h + ry) w (h - ry), maybeEll (w - rx) (h - ry) rx ry 0 (Real.pi / 2), .line (w - rx) h (-w + rx) h,
     maybeEll (-w + rx) (h - ry) rx ry (Real.pi / 2) Real.pi, .line (-w) (h - ry) (-w) (-h + ry),
     maybeEll (-w + rx) (-h + ry) rx ry Real.pi (3 * (Real.pi / 2)), .line (-w + rx) (-h) (w - rx) (-h),
     maybeEll (w - rx) (-h + ry) rx ry (3 * (Real.pi / 2)) (2 * Real.pi)]

/-- `segments_from_octagon`, path.h:473-499. -/
noncomputable def octagon (w h d : ℝ) : List Seg :=
  let dx := d * Real.sqrt 2 - h
  let dy := d * Real.sqrt 2 - w
  if dx < 0 ∨ dy < 0 then []
  else
    [.line w (-dy) w dy, .line w dy dx h, .line dx h (-dx) h, .line (-dx) h (-w) dy, .line (-w) dy (-w) (-dy),
     .line (-w) (-dy) (-dx) (-h), .line (-dx) (-h) dx (-h), .line dx (-h) w (-dy)]

/-- The shapes of a profile which are given by numbers, structures.py. -/
inductive Shape where
  | circle (r : ℝ)
  | rectangle (w h : ℝ)
  | ellipse (rx ry : ℝ)
  | rectEllipse (w h rx ry : ℝ)
  | racetrack (w h rx ry : ℝ)
  | octagon (w h d : ℝ)

/-- profile.h:22-95. -/
noncomputable def Shape.path : Shape → List Seg
  | .circle r => Shapes.circle r
  | .rectangle w h => Shapes.rectangle w h
  | .ellipse rx ry => Shapes.ellipse rx ry
  | .rectEllipse w h rx ry => Shapes.rectEllipse w h rx ry
  | .racetrack w h rx ry => Shapes.racetrack w h rx ry
  | .octagon w h d => Shapes.octagon w h d

/-! ## Points on the outline -/

/-- The inner loop of `poly_get_n_uniform_points`, path.h:930-947: the points written, and the next index. `m` is `n_points - 1`. -/
noncomputable def onSegment (pt : ℝ → P) (ds start stop : ℝ) (m : ℕ) : ℕ → ℕ → List P × ℕ
  | 0, i => ([], i)
  | fuel + 1, i =>
    if i < m ∧ i * ds ≤ stop then
      let r := onSegment pt ds start stop m fuel (i + 1)
      (pt (i * ds - start) :: r.1, r.2)
    else ([], i)

/-- The loop over the segments, path.h:923-949. -/
noncomputable def onPath (E : ℝ → ℝ → ℝ) (ds : ℝ) (m : ℕ) : List Seg → ℝ → ℕ → List P
  | [], _, _ => []
  | s :: rest, start, i =>
    let r := onSegment (point E s) ds start (start + len E s) m m i
    r.1 ++ onPath E ds m rest (start + len E s) r.2

/-- `path_get_length`, path.h:688-700. -/
noncomputable def total (E : ℝ → ℝ → ℝ) (path : List Seg) : ℝ := (path.map (len E)).sum

/-- `poly_get_n_uniform_points`, path.h:913-955; `none` if not all of the points are written. -/
noncomputable def uniform (E : ℝ → ℝ → ℝ) (path : List Seg) (n : ℕ) : Option (List P) :=
  let pts := onPath E (total E path / ((n : ℝ) - 1)) (n - 1) path 0 0
  if pts.length = n - 1 then pts.head?.map fun p => pts ++ [p] else none

end Verif.AperModel.Shapes
