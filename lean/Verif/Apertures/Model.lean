import Mathlib.Analysis.Real.Sqrt

/-!
# Apertures

Transcription of `limitrect.h`, `limitellipse.h`, `limitrectellipse.h`, `limitracetrack.h`,
`longitudinallimitrect.h`, `limitpolygon.h` (in `xtrack/beam_elements/elements_src`) and of the
Python classes which hold their parameters (`limit_*.py`, `longitudinal_limit_rect.py` in
`xtrack/beam_elements`).

Simplifications: real numbers instead of double precision; one particle (the loop applies the same
function to each); the particle is alive when the function is called, as the code assumes.
-/

namespace Verif.Apertures

noncomputable section

open Classical

/-- `XT_LOST_ON_APERTURE`, `headers/particle_states.h:9`. -/
abbrev lostOnAperture : Int := 0
/-- `XT_LOST_ON_LONG_CUT`. -/
abbrev lostOnLongCut : Int := -2

/-- One particle; `rest` stands for all the other variables. -/
structure Pt where
  x : ℝ
  y : ℝ
  zeta : ℝ
  pzeta : ℝ
  state : Int
  rest : ℕ → ℝ

/-- `LocalParticle_set_state` if the particle is outside. -/
def Pt.kill (p : Pt) (state : Int) : Pt := { p with state := state }

/-! ## Rectangles -/

/-- The fields of `LimitRect`, `limit_rect.py:23-28`. -/
structure Rect where
  minX : ℝ
  maxX : ℝ
  minY : ℝ
  maxY : ℝ

/-- `LimitRect_track_local_particle`, `limitrect.h:11-42`; `ignore` is the track flag
`XS_FLAG_IGNORE_LOCAL_APERTURE`. -/
def trackRect (e : Rect) (ignore : Bool) (p : Pt) : Pt :=
  if ignore then p
  else if p.x ≥ e.minX ∧ p.x ≤ e.maxX ∧ p.y ≥ e.minY ∧ p.y ≤ e.maxY then p
  else p.kill lostOnAperture

/-- `LongitudinalLimitRect_track_local_particle`, `longitudinallimitrect.h:12-40`; there is no test
of the track flag. -/
def trackLong (minZeta maxZeta minPzeta maxPzeta : ℝ) (p : Pt) : Pt :=
  if p.zeta ≥ minZeta ∧ p.zeta ≤ maxZeta ∧ p.pzeta ≥ minPzeta ∧ p.pzeta ≤ maxPzeta then p
  else p.kill lostOnLongCut

/-! ## Ellipses -/

/-- The stored fields of `LimitEllipse` (`limit_ellipse.py:25-29`), also of the ellipse of
`LimitRectEllipse`. -/
structure Ell where
  aSqu : ℝ
  bSqu : ℝ
  abSqu : ℝ

/-- `UNLIMITED`, `_aperture_common.py`. -/
def unlimited : ℝ := 10 ^ 10

/-- The squares computed by the constructors, `limit_ellipse.py:45-55` and
`limit_rect_ellipse.py:53-63`: the half axis wins over the square, both missing is unlimited. -/
def argSqu (a aSqu : Option ℝ) : ℝ :=
  match a, aSqu with
  | some v, _ => v * v
  | none, some s => s
  | none, none => unlimited * unlimited

/-- `LimitEllipse.__init__`, `limit_ellipse.py:43-64`, without `a_b_squ` among the arguments;
`none` is the exception. -/
def newEllipse (a b aSqu bSqu : Option ℝ) : Option Ell :=
  if argSqu a aSqu > 0 ∧ argSqu b bSqu > 0 then
    some ⟨argSqu a aSqu, argSqu b bSqu, argSqu a aSqu * argSqu b bSqu⟩
  else none

/-- The changes a user can make to an ellipse: the properties `a` and `b`, the methods
`set_half_axes` and `set_half_axes_squ` (`limit_ellipse.py:66-93`), and the stored fields
themselves, which are attributes too. -/
inductive EllOp where
  | setA (a : ℝ)
  | setB (b : ℝ)
  | setHalfAxes (a b : ℝ)
  | setHalfAxesSqu (aSqu bSqu : ℝ)
  | fieldASqu (v : ℝ)
  | fieldBSqu (v : ℝ)

@[inherit_doc EllOp]
def EllOp.apply (e : Ell) : EllOp → Ell
  | .setA a => { e with aSqu := a * a, abSqu := a * a * e.bSqu }
  | .setB b => { e with bSqu := b * b, abSqu := e.aSqu * (b * b) }
  | .setHalfAxes a b => ⟨a * a, b * b, a * a * (b * b)⟩
  | .setHalfAxesSqu s t => ⟨s, t, s * t⟩
  | .fieldASqu v => { e with aSqu := v }
  | .fieldBSqu v => { e with bSqu := v }

/-- `LimitEllipse_track_local_particle`, `limitellipse.h:13-40`. -/
def trackEllipse (e : Ell) (ignore : Bool) (p : Pt) : Pt :=
  if ignore then p
  else if p.x * p.x * e.bSqu + p.y * p.y * e.aSqu ≤ e.abSqu then p
  else p.kill lostOnAperture

/-- The fields of `LimitRectEllipse`, `limit_rect_ellipse.py:31-38`. -/
structure RectEll where
  maxX : ℝ
  maxY : ℝ
  ell : Ell

/-- `LimitRectEllipse.__init__`, `limit_rect_ellipse.py:41-78`. -/
def newRectEllipse (maxX maxY : ℝ) (a b aSqu bSqu : Option ℝ) : Option RectEll :=
  if maxX < 0 ∨ maxY < 0 ∨ argSqu a aSqu < 0 ∨ argSqu b bSqu < 0 then none
  else some ⟨maxX, maxY, ⟨argSqu a aSqu, argSqu b bSqu, argSqu a aSqu * argSqu b bSqu⟩⟩

/-- `LimitRectEllipse_track_local_particle`, `limitrectellipse.h:13-46`. -/
def trackRectEllipse (e : RectEll) (ignore : Bool) (p : Pt) : Pt :=
  if ignore then p
  else if p.x ≤ e.maxX ∧ p.x ≥ -e.maxX ∧ p.y ≤ e.maxY ∧ p.y ≥ -e.maxY ∧
      p.x * p.x * e.ell.bSqu + p.y * p.y * e.ell.aSqu ≤ e.ell.abSqu then p
  else p.kill lostOnAperture

/-! ## Racetrack -/

/-- The fields of `LimitRacetrack`, `limit_racetrack.py:31-38`. -/
structure Race where
  minX : ℝ
  maxX : ℝ
  minY : ℝ
  maxY : ℝ
  a : ℝ
  b : ℝ

/-- `LimitRacetrack.__init__`, `limit_racetrack.py:46-76`. -/
def newRacetrack (minX maxX minY maxY a b : ℝ) : Option Race :=
  if a ≥ 0 ∧ b ≥ 0 ∧ maxX ≥ minX ∧ maxY ≥ minY then
    if a > 0.5 * (maxX - minX) ∨ b > 0.5 * (maxY - minY) then none
    else some ⟨minX, maxX, minY, maxY, a, b⟩
  else none

/-- The test of the rounded corner, `limitracetrack.h:76-79`. -/
def corner (e : Race) (dx dy : ℝ) : Prop :=
  dx * dx * e.b * e.b + dy * dy * e.a * e.a ≤ e.a * e.a * e.b * e.b

/-- `is_alive`, `limitracetrack.h:34-80`. -/
def raceAlive (e : Race) (x y : ℝ) : Prop :=
  if x ≥ e.minX ∧ x ≤ e.maxX ∧ y ≥ e.minY ∧ y ≤ e.maxY then
    let rectMinX := e.minX + e.a
    let rectMaxX := e.maxX - e.a
    let rectMinY := e.minY + e.b
    let rectMaxY := e.maxY - e.b
    if x > rectMaxX ∧ y > rectMaxY then corner e (x - rectMaxX) (y - rectMaxY)
    else if x < rectMinX ∧ y > rectMaxY then corner e (x - rectMinX) (y - rectMaxY)
    else if x < rectMinX ∧ y < rectMinY then corner e (x - rectMinX) (y - rectMinY)
    else if x > rectMaxX ∧ y < rectMinY then corner e (x - rectMaxX) (y - rectMinY)
    else True
  else False

/-- `LimitRacetrack_track_local_particle`, `limitracetrack.h:13-86`. -/
def trackRacetrack (e : Race) (ignore : Bool) (p : Pt) : Pt :=
  if ignore then p
  else if raceAlive e p.x p.y then p
  else p.kill lostOnAperture

/-! ## Polygon -/

/-- A point of the transverse plane. -/
abbrev Pnt := ℝ × ℝ

/-- The condition of the loop for the vertices `ii` and `jj`, `limitpolygon.h:77`. -/
def crossed (q vi vj : Pnt) : Prop :=
  ((vi.2 > q.2) ≠ (vj.2 > q.2)) ∧
    q.1 < (vj.1 - vi.1) * (q.2 - vi.2) / (vj.2 - vi.2) + vi.1

/-- The loop over the vertices, `limitpolygon.h:68-82`: `prev` is the vertex `jj`. -/
def polyLoop (q : Pnt) : Pnt → List Pnt → Bool → Bool
  | _, [], alive => alive
  | prev, v :: vs, alive => polyLoop q v vs (if crossed q v prev then !alive else alive)

/-- `is_alive`, `limitpolygon.h:68-82`; `jj` starts with the last vertex. -/
def polyAlive (vs : List Pnt) (q : Pnt) : Bool :=
  match vs.getLast? with
  | none => false
  | some l => polyLoop q l vs false

/-- Squared distance from the origin to an edge, `limitpolygon.h:36-58`. -/
def edgeDistSq (v0 v1 : Pnt) : ℝ :=
  let dx := v1.1 - v0.1
  let dy := v1.2 - v0.2
  let segLenSq := dx * dx + dy * dy
  if segLenSq > 0 then
    let t := -(v0.1 * dx + v0.2 * dy) / segLenSq
    let t := if t < 0 then 0 else if t > 1 then 1 else t
    let xp := v0.1 + t * dx
    let yp := v0.2 + t * dy
    xp * xp + yp * yp
  else v0.1 * v0.1 + v0.2 * v0.2

/-- The loop which computes `inner_radius_sq`, `limitpolygon.h:31-63`: `none` before the first
vertex (`ii == 0`); the vertex `jj` is the next one, the first one `f` after the last. -/
def innerLoop (f : Pnt) : List Pnt → Option ℝ → Option ℝ
  | [], r => r
  | v :: vs, r =>
    let d := edgeDistSq v (vs.headD f)
    innerLoop f vs (match r with
      | none => some d
      | some r => if d < r then some d else some r)

/-- `inner_radius_sq`; `cpu` says whether `XO_CONTEXT_CPU` is defined, `limitpolygon.h:26-64`. -/
def innerRadiusSq (cpu : Bool) (vs : List Pnt) : ℝ :=
  if cpu then
    match vs with
    | [] => 0
    | f :: _ => (innerLoop f vs none).getD 0
  else 0

/-- `LimitPolygon_track_local_particle`, `limitpolygon.h:14-91`. -/
def trackPolygon (cpu : Bool) (vs : List Pnt) (ignore : Bool) (p : Pt) : Pt :=
  if ignore then p
  else if p.x * p.x + p.y * p.y > innerRadiusSq cpu vs then
    if polyAlive vs (p.x, p.y) then p else p.kill lostOnAperture
  else p

/-- The closed list of vertices `x_closed`, `y_closed`, `limit_polygon.py:158-168`. -/
def closed (vs : List Pnt) : List Pnt := vs ++ vs.head?.toList

/-- `get_area(signed=True)`, `limit_polygon.py:210-217`. -/
def signedArea (vs : List Pnt) : ℝ :=
  -(0.5) * (((closed vs).zip (closed vs).tail).map
    (fun e => (e.2.2 + e.1.2) * (e.2.1 - e.1.1))).sum

/-- `centroid`, `limit_polygon.py:219-233`; both coordinates are read from `x_vertices`, and the
closing edge is not used. -/
def centroid (vs : List Pnt) : Pnt :=
  let x := vs.map (·.1)
  let y := vs.map (·.1)
  let px := x.zip x.tail
  let py := y.zip y.tail
  let pr := px.zip py
  (1 / (6 * |signedArea vs|) *
      (pr.map (fun e => (e.1.1 + e.1.2) * (e.1.1 * e.2.2 - e.1.2 * e.2.1))).sum,
   1 / (6 * |signedArea vs|) *
      (pr.map (fun e => (e.2.1 + e.2.2) * (e.2.1 * e.1.2 - e.2.2 * e.1.1))).sum)

end

end Verif.Apertures
