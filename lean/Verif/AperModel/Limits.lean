import Verif.AperModel.Shapes
import Verif.AperModel.Poses
import Verif.Apertures.Model
import Verif.Frames.Model

/-!
# Aperture models made from elements of a line

Aperture elements (`LimitRect`, `LimitEllipse`, `LimitRectEllipse`, `LimitRacetrack`) with shifts and rotations, what happens to a particle
tracked through them, and the profile which an aperture model has in their place (aperture/aperture.py:503-580,
aperture/profile_converters.py). Pipes made from associated apertures (aperture/aperture.py:408-500). Apertures of MAD-X
(aperture/profile_converters.py:93-154).

Simplified: real numbers instead of floating point; polygons are not modelled; of the pipe of a limit element there is only its profile,
in the plane of the element (the shift along s is zero, where `arc_matrix` is the identity).
-/
namespace Verif.AperModel.Limits
open Verif.Apertures Verif.AperModel.Shapes Verif.AperModel.Poses

/-! ## Limit elements -/

/-- The aperture elements. -/
inductive Limit where
  | rect (e : Rect)
  | ellipse (e : Ell)
  | rectEllipse (e : RectEll)
  | racetrack (e : Race)

open Classical in
/-- The track functions of the elements, limitrect.h, limitellipse.h, limitrectellipse.h, limitracetrack.h. -/
noncomputable def Limit.track : Limit → Pt → Pt
  | .rect e => trackRect e false
  | .ellipse e => trackEllipse e false
  | .rectEllipse e => trackRectEllipse e false
  | .racetrack e => trackRacetrack e false

/-- The particle is still there after the element: the misalignments are applied (track_local_particle_with_transformations.h:88-170 calls
`track_misalignment_entry_straight`), then the element. -/
noncomputable def survives (l : Limit) (m : Frames.Mis) (p : Frames.Part) : Prop :=
  let q := Frames.entryStraight m false p
  (l.track ⟨q.x, q.y, q.zeta, 0, 1, fun _ => 0⟩).state = 1

/-- `profile_from_limit_element`, profile_converters.py:40-82: the shape and its centre. The properties `a` and `b` of the ellipses are
square roots (limit_ellipse.py:66-79, limit_rect_ellipse.py:80-93). -/
noncomputable def profileOf : Limit → Shape × ℝ × ℝ
  | .rect e => (.rectangle ((e.maxX - e.minX) / 2) ((e.maxY - e.minY) / 2), (e.minX + e.maxX) / 2, (e.minY + e.maxY) / 2)
  | .ellipse e => (.ellipse (Real.sqrt e.aSqu) (Real.sqrt e.bSqu), 0, 0)
  | .rectEllipse e => (.rectEllipse e.maxX e.maxY (Real.sqrt e.ell.aSqu) (Real.sqrt e.ell.bSqu), 0, 0)
  | .racetrack e =>
    (.racetrack ((e.maxX - e.minX) / 2) ((e.maxY - e.minY) / 2) e.a e.b, (e.minX + e.maxX) / 2, (e.minY + e.maxY) / 2)

/-- The position of the profile, aperture.py:538-551 (and 449-459 for associated apertures). If the transformations are not active all of
the numbers are zero. -/
noncomputable def position (l : Limit) (m : Frames.Mis) : Transform where
  x := (profileOf l).2.1 + m.dx
  y := (profileOf l).2.2 + m.dy
  s := m.ds
  rotX := m.phi
  rotY := m.theta
  rotS := m.psi

/-- Where a point of the profile is, cross_sections.h:168-207 for a pipe at the element: the point is put into the frame of the pipe. -/
noncomputable def place (t : Transform) (q : P) : P3 := apply (toMatrix t) ⟨q.1, q.2, 0⟩

/-! ## Associated apertures -/

/-- An element with an associated aperture: is it thick, its length and its curvature (`getattr(element, 'h', 0)`). -/
structure Elem where
  aper : String
  thick : Bool
  length : ℚ
  h : ℚ

/-- `Pipe`: the curvature, and the positions of the profiles along s. -/
structure Pipe where
  curvature : ℚ
  at_ : List ℚ
deriving DecidableEq

/-- The pipe made for an element, aperture.py:461-475, if the aperture is not shifted. -/
def newPipe (e : Elem) : Pipe := if e.thick then ⟨e.h, [0, 0 + e.length]⟩ else ⟨0, [0]⟩

/-- One step of the loop, aperture.py:431-497: the pipes known, and the pipe used at each element so far. -/
def associate (st : List (String × Pipe) × List Pipe) (e : Elem) : List (String × Pipe) × List Pipe :=
  match st.1.find? fun q => q.1 == e.aper with
  | some q => (st.1, st.2 ++ [q.2])
  | none => (st.1 ++ [(e.aper, newPipe e)], st.2 ++ [newPipe e])

/-- `from_line_with_associated_apertures`, aperture.py:408-500: the pipes at the elements. -/
def associated (es : List Elem) : List Pipe := (es.foldl associate ([], [])).2

/-! ## Apertures of MAD-X -/

/-- The names of shapes, profile_converters.py:94-101. -/
inductive MadShape where
  | circle | rectangle | ellipse | rectellipse | racetrack | octagon
deriving DecidableEq

/-- Results of the conversion. -/
inductive Conv where
  | extra      -- ValueError
  | nothing    -- None
  | arity      -- TypeError of the call
  | shape (s : Shape)

/-- The number of parameters, profile_converters.py:94-101. -/
def MadShape.arity : MadShape → ℕ
  | .circle => 1
  | .rectangle => 2
  | .ellipse => 2
  | .rectellipse => 4
  | .racetrack => 4
  | .octagon => 4

/-- The converters, profile_converters.py:121-154. -/
noncomputable def MadShape.convert : MadShape → List ℝ → Conv
  | .circle, [r] => .shape (.circle r)
  | .rectangle, [w, h] => .shape (.rectangle w h)
  | .ellipse, [a, b] => .shape (.ellipse a b)
  | .rectellipse, [w, h, a, b] => .shape (.rectEllipse w h a b)
  | .racetrack, [w, h, a, b] => .shape (.racetrack w h a b)
  | .octagon, [w, h, phi, _] => .shape (.octagon w h (Real.sqrt 2 * (0.5 * w * (Real.tan phi + 1))))
  | _, _ => .arity

open Classical in
/-- `profile_from_madx_aperture`, profile_converters.py:93-118. The parameters are a list (mad_loader.py:630-643), for which
`params == 0` is false. -/
noncomputable def fromMadx (s : MadShape) (params : List ℝ) : Conv :=
  let ps := params.take s.arity
  if ∃ v ∈ ps.drop s.arity, v ≠ 0 then .extra
  else s.convert ps

/-- The corners of the polygon which the loader of MAD-X files makes of an octagon, mad_parser/loader.py:686-703. -/
noncomputable def loaded (w h phi1 phi2 : ℝ) : List P :=
  let y := w * Real.tan phi1
  let x := h / Real.tan phi2
  let xs := [w, x, -x, -w]
  let ys := [y, h, h, y]
  (xs ++ xs.reverse).zip (ys ++ ys.map (- ·))

end Verif.AperModel.Limits
