import Verif.Frames.Model

/-!
# What a change of reference frame does to a free particle

Geometry in three dimensions, written without the functions of the model.

A frame `F'` is described in a frame `F` by the place of its origin and the
directions of its axes (`Frame`).  The coordinates of a particle in a frame say
where the straight line on which it flies crosses the plane `z = 0` of the frame,
with which momentum, and when.  `Moves F a p p'` says that `p` (coordinates in the
first frame) and `p'` (coordinates in the second frame) describe one and the same
free particle.
-/

namespace Verif.Frames

noncomputable section

/-- A vector in three dimensions. -/
@[ext] structure Vec where
  x : ℝ
  y : ℝ
  z : ℝ

/-- A frame seen from another frame: a point with coordinates `q` in the new frame
has coordinates `R q + d` in the old one.  The columns of `R` are the axes of the
new frame. -/
@[ext] structure Frame where
  r11 : ℝ
  r12 : ℝ
  r13 : ℝ
  r21 : ℝ
  r22 : ℝ
  r23 : ℝ
  r31 : ℝ
  r32 : ℝ
  r33 : ℝ
  d1 : ℝ
  d2 : ℝ
  d3 : ℝ

/-- A direction of the new frame seen from the old frame. -/
def Frame.dir (F : Frame) (q : Vec) : Vec :=
  ⟨F.r11 * q.x + F.r12 * q.y + F.r13 * q.z,
   F.r21 * q.x + F.r22 * q.y + F.r23 * q.z,
   F.r31 * q.x + F.r32 * q.y + F.r33 * q.z⟩

/-- A point of the new frame seen from the old frame. -/
def Frame.point (F : Frame) (q : Vec) : Vec :=
  ⟨(F.dir q).x + F.d1, (F.dir q).y + F.d2, (F.dir q).z + F.d3⟩

/-- The third frame seen from the first one, when `F` is the second seen from the
first and `G` the third seen from the second. -/
def Frame.comp (F G : Frame) : Frame :=
  { r11 := F.r11 * G.r11 + F.r12 * G.r21 + F.r13 * G.r31
    r12 := F.r11 * G.r12 + F.r12 * G.r22 + F.r13 * G.r32
    r13 := F.r11 * G.r13 + F.r12 * G.r23 + F.r13 * G.r33
    r21 := F.r21 * G.r11 + F.r22 * G.r21 + F.r23 * G.r31
    r22 := F.r21 * G.r12 + F.r22 * G.r22 + F.r23 * G.r32
    r23 := F.r21 * G.r13 + F.r22 * G.r23 + F.r23 * G.r33
    r31 := F.r31 * G.r11 + F.r32 * G.r21 + F.r33 * G.r31
    r32 := F.r31 * G.r12 + F.r32 * G.r22 + F.r33 * G.r32
    r33 := F.r31 * G.r13 + F.r32 * G.r23 + F.r33 * G.r33
    d1 := F.r11 * G.d1 + F.r12 * G.d2 + F.r13 * G.d3 + F.d1
    d2 := F.r21 * G.d1 + F.r22 * G.d2 + F.r23 * G.d3 + F.d2
    d3 := F.r31 * G.d1 + F.r32 * G.d2 + F.r33 * G.d3 + F.d3 }

/-- The frame itself. -/
def Frame.id : Frame := ⟨1, 0, 0, 0, 1, 0, 0, 0, 1, 0, 0, 0⟩

/-- A translated frame. -/
def Frame.shift (a b c : ℝ) : Frame := ⟨1, 0, 0, 0, 1, 0, 0, 0, 1, a, b, c⟩

/-- A frame turned around the vertical axis by the yaw `t`; positive from s to x. -/
def Frame.yaw (t : ℝ) : Frame :=
  ⟨Real.cos t, 0, Real.sin t, 0, 1, 0, -Real.sin t, 0, Real.cos t, 0, 0, 0⟩

/-- A frame turned around the horizontal axis by the pitch `t`; positive from s to y. -/
def Frame.pitch (t : ℝ) : Frame :=
  ⟨1, 0, 0, 0, Real.cos t, Real.sin t, 0, -Real.sin t, Real.cos t, 0, 0, 0⟩

/-- A frame turned around the longitudinal axis by the roll `t`. -/
def Frame.roll (t : ℝ) : Frame :=
  ⟨Real.cos t, -Real.sin t, 0, Real.sin t, Real.cos t, 0, 0, 0, 1, 0, 0, 0⟩

/-- The frame at the end of an arc of angle `a` on a circle of curvature `h` which
bends away from the direction `x`. -/
def Frame.arc (a h : ℝ) : Frame :=
  ⟨Real.cos a, 0, -Real.sin a, 0, 1, 0, Real.sin a, 0, Real.cos a,
    (Real.cos a - 1) / h, 0, Real.sin a / h⟩

/-- The axes of the frame are orthonormal and right-handed. -/
structure Frame.Ortho (F : Frame) : Prop where
  c11 : F.r11 * F.r11 + F.r21 * F.r21 + F.r31 * F.r31 = 1
  c22 : F.r12 * F.r12 + F.r22 * F.r22 + F.r32 * F.r32 = 1
  c33 : F.r13 * F.r13 + F.r23 * F.r23 + F.r33 * F.r33 = 1
  c12 : F.r11 * F.r12 + F.r21 * F.r22 + F.r31 * F.r32 = 0
  c13 : F.r11 * F.r13 + F.r21 * F.r23 + F.r31 * F.r33 = 0
  c23 : F.r12 * F.r13 + F.r22 * F.r23 + F.r32 * F.r33 = 0
  det : F.r11 * (F.r22 * F.r33 - F.r23 * F.r32) - F.r12 * (F.r21 * F.r33 - F.r23 * F.r31)
    + F.r13 * (F.r21 * F.r32 - F.r22 * F.r31) = 1

/-- The old frame seen from the new one. -/
def Frame.inv (F : Frame) : Frame :=
  { r11 := F.r11, r12 := F.r21, r13 := F.r31
    r21 := F.r12, r22 := F.r22, r23 := F.r32
    r31 := F.r13, r32 := F.r23, r33 := F.r33
    d1 := -(F.r11 * F.d1 + F.r21 * F.d2 + F.r31 * F.d3)
    d2 := -(F.r12 * F.d1 + F.r22 * F.d2 + F.r32 * F.d3)
    d3 := -(F.r13 * F.d1 + F.r23 * F.d2 + F.r33 * F.d3) }

/-! ## Particles -/

/-- Longitudinal momentum over reference momentum. -/
def Part.pz (p : Part) : ℝ := Real.sqrt ((1 + p.delta) ^ 2 - p.px ^ 2 - p.py ^ 2)

/-- Momentum over reference momentum. -/
def Part.mom (p : Part) : Vec := ⟨p.px, p.py, p.pz⟩

/-- Spin. -/
def Part.spin (p : Part) : Vec := ⟨p.spinX, p.spinY, p.spinZ⟩

/-- The particle moves forward through the plane in which its coordinates are given. -/
def Part.Forward (p : Part) : Prop := 0 < (1 + p.delta) ^ 2 - p.px ^ 2 - p.py ^ 2

/-- The energy variables describe one moving particle: `delta` and `ptau` the same
momentum, `rvv` and `rpp` its velocity and momentum. -/
structure Part.Kin (p : Part) : Prop where
  beta0 : 0 < p.beta0
  rvv : 0 < p.rvv
  delta : 0 < 1 + p.delta
  shell : (1 + p.delta) ^ 2 = 1 + 2 * p.ptau / p.beta0 + p.ptau ^ 2
  energy : 1 + p.delta = p.rvv * (1 + p.beta0 * p.ptau)
  rpp : p.rpp * (1 + p.delta) = 1

/-- Everything which a free particle keeps whatever the frame. -/
structure SameKind (p q : Part) : Prop where
  delta : q.delta = p.delta
  ptau : q.ptau = p.ptau
  rpp : q.rpp = p.rpp
  rvv : q.rvv = p.rvv
  beta0 : q.beta0 = p.beta0
  chi : q.chi = p.chi

/-- `p'` describes in the frame `F`, which is `a` meters further along the reference
path, the free particle which `p` describes in the present frame: momentum and spin
are the same vectors, the place where it crosses the plane of `F` is on its line of
flight, a multiple `l` of the momentum away, and it is there later by the flight
time: the path is `l (1 + delta)`, the velocity is `rvv` times the reference
velocity, and `zeta` is the reference path minus the time multiplied with the
reference velocity. -/
structure Moves (F : Frame) (a : ℝ) (p p' : Part) : Prop where
  kind : SameKind p p'
  s : p'.s = p.s + a
  mom : F.dir p'.mom = p.mom
  spin : F.dir p'.spin = p.spin
  line : ∃ l : ℝ,
    F.point ⟨p'.x, p'.y, 0⟩ = ⟨p.x + l * p.px, p.y + l * p.py, l * p.pz⟩ ∧
    p'.zeta = p.zeta + a - l * (1 + p.delta) / p.rvv

/-- The same, at the same place of the reference path. -/
abbrev Same (F : Frame) (p p' : Part) : Prop := Moves F 0 p p'

/-- The direction of the particle has a positive component along the third axis of
the frame: it crosses the plane of the frame forward. -/
def Crosses (F : Frame) (p : Part) : Prop :=
  0 < F.r13 * p.px + F.r23 * p.py + F.r33 * p.pz

/-- The frame of a rigid body which is turned by yaw, pitch and roll and moved by
`(dx, dy, ds)`. -/
def moved (m : Mis) : Frame :=
  (Frame.shift m.dx m.dy m.ds).comp
    ((Frame.yaw m.theta).comp ((Frame.pitch m.phi).comp (Frame.roll m.psi)))

/-- The reference frame of a straight element, `a` meters downstream. -/
def straightRef (a : ℝ) : Frame := Frame.shift 0 0 a

/-- The reference frame of an element bending with curvature `h` in a plane rolled by
`tilt`, after an angle `a`. -/
def curvedRef (a h tilt : ℝ) : Frame :=
  (Frame.roll tilt).comp ((Frame.arc a h).comp (Frame.roll (-tilt)))

/-- Entry frame of a misaligned straight element: walk to the anchor, move the
element as a rigid body, walk back to the entry of the element; roll with the
element. -/
def straightEntry (m : Mis) : Frame :=
  ((straightRef m.anchor).comp ((moved m).comp (straightRef (-m.anchor)))).comp
    (Frame.roll m.tilt)

/-- The same for an element which bends with curvature `h`. -/
def curvedEntry (m : Mis) (h : ℝ) : Frame :=
  ((curvedRef (m.anchor * h) h m.tilt).comp
    ((moved m).comp (curvedRef (m.anchor * h) h m.tilt).inv)).comp (Frame.roll m.tilt)

/-- Exit of a misaligned straight element: undo the roll with the element, walk back
to the anchor, undo the motion of the rigid body, walk to the exit of the element. -/
def straightExit (m : Mis) : Frame :=
  (Frame.roll (-m.tilt)).comp
    ((straightRef (m.length - m.anchor)).inv.comp
      ((moved m).inv.comp (straightRef (m.length - m.anchor))))

/-- The same for an element which bends with curvature `h` and total angle `angle`. -/
def curvedExit (m : Mis) (angle h : ℝ) : Frame :=
  (Frame.roll (-m.tilt)).comp
    ((curvedRef (angle - h * m.anchor) h m.tilt).inv.comp
      ((moved m).inv.comp (curvedRef (angle - h * m.anchor) h m.tilt)))

/-- The particle crosses the plane turned around the vertical axis towards the third
axis of `F`, and the plane of `F`. -/
structure Passes (F : Frame) (p : Part) : Prop where
  side : F.r33 ≠ 0
  yawed : 0 < F.r13 * p.px + F.r33 * p.pz
  plane : Crosses F p

/-! ## Placed elements -/

/-- Curvature of the reference path of an element. -/
def Placed.kappa (e : Placed) : ℝ :=
  match e.curved with
  | some (_, h) => h
  | none => 0

/-- Length along the reference path of the piece which the element (slice) stands for;
thin slices have none. -/
def Placed.len (e : Placed) : ℝ := (if e.thick then e.mis.length else 0) * e.weight

/-- Angle by which the reference path turns on it. -/
def Placed.turn (e : Placed) : ℝ := e.kappa * (e.mis.length * e.weight)

/-- Angle and curvature of the element agree: `angle = h * length`. -/
def Placed.Coherent (e : Placed) : Prop :=
  ∀ angle h, e.curved = some (angle, h) → angle = h * e.mis.length

/-- The misalignment seen from the beginning of the slice. -/
def Placed.local (e : Placed) : Mis :=
  { e.mis with anchor := e.mis.anchor - e.sliceOffset, length := e.len }

open Classical in
/-- Where the entry of the misaligned element is, seen from the reference frame. -/
def entryFrame (e : Placed) : Frame :=
  if e.kappa = 0 then straightEntry e.local else curvedEntry e.local e.kappa

open Classical in
/-- The reference frame at the exit, seen from the exit of the misaligned element. -/
def exitFrame (e : Placed) : Frame :=
  if e.kappa = 0 then straightExit e.local else curvedExit e.local e.turn e.kappa

open Classical in
/-- The reference frame at the exit seen from the reference frame at the entry. -/
def refFrame (e : Placed) : Frame :=
  if e.kappa = 0 then straightRef e.len else curvedRef (e.kappa * e.len) e.kappa e.mis.tilt

open Classical in
/-- The same, of the frames in which the body of the element is described; they are
rolled with the element. -/
def bodyFrame (e : Placed) : Frame :=
  if e.kappa = 0 then straightRef e.len else Frame.arc (e.kappa * e.len) e.kappa

/-- The exit frame of a straight element: the particle crosses the plane turned by
the yaw, and the plane of the frame. -/
structure PassesBack (m : Mis) (q : Part) : Prop where
  side : Real.cos m.theta ≠ 0
  yawed : Crosses ((straightExit m).comp (Frame.yaw m.theta)) q
  plane : Crosses (straightExit m) q

/-- The exit frame of a curved element: as `Passes`, in the frame in which the roll of
the element has been undone. -/
def PassesCurved (m : Mis) (angle h : ℝ) (q : Part) : Prop :=
  ∃ q1, Same (Frame.roll (-m.tilt)) q q1 ∧
    Passes ((Frame.roll m.tilt).comp (curvedExit m angle h)) q1

/-- A particle which comes to the entry of the element and moves forward through the
planes it has to cross there. -/
structure Comes (e : Placed) (p : Part) : Prop where
  kin : p.Kin
  forward : p.Forward
  pitch : e.kappa = 0 → 0 < Real.cos e.mis.phi
  passes : Passes (entryFrame e) p

/-- A particle which leaves the element in the same way. -/
structure Leaves (e : Placed) (q : Part) : Prop where
  kin : q.Kin
  forward : q.Forward
  pitch : e.kappa = 0 → 0 < Real.cos e.mis.phi
  straight : e.kappa = 0 → PassesBack e.local q
  curved : e.kappa ≠ 0 → PassesCurved e.local e.turn e.kappa q

/-- The frame of one step of `Rotation`. -/
def axisFrame (rs rx ry : ℝ) : Axis → Frame
  | .x => Frame.pitch (-rx)
  | .y => Frame.yaw ry
  | .s => Frame.roll rs

/-- The frame after several steps. -/
def axesFrame (rs rx ry : ℝ) : List Axis → Frame
  | [] => Frame.id
  | a :: l => (axisFrame rs rx ry a).comp (axesFrame rs rx ry l)

/-! ## Slices of an element -/

/-- A slice: its weight, whether it is thick, and how it tracks in its own frame. -/
structure Slice where
  weight : ℝ
  thick : Bool
  body : Part → Part

/-- The slice which starts at `off`. -/
def Placed.sliceAt (e : Placed) (off : ℝ) (w : ℝ) (thick : Bool) : Placed :=
  { e with weight := w, sliceOffset := off, thick := thick }

/-- Track through the slices one after the other, each with the transformations of
the parent; each slice starts where the one before it ends. -/
def runSlices (e : Placed) : ℝ → List Slice → Part → Part
  | _, [], p => p
  | off, sl :: rest, p =>
    let e1 := e.sliceAt off sl.weight sl.thick
    runSlices e (off + e1.len) rest (trackPlaced e1 (fun _ => sl.body) false p)

/-- Track through the bodies of the slices only. -/
def runBodies : List Slice → Part → Part
  | [], q => q
  | sl :: rest, q => runBodies rest (sl.body q)

/-- Length along the reference path of all the slices. -/
def lenSlices (e : Placed) : List Slice → ℝ
  | [] => 0
  | sl :: rest => (e.sliceAt 0 sl.weight sl.thick).len + lenSlices e rest

/-- Where a slice ends and the next begins the particle moves forward through the
planes of the frames. -/
def RunsThrough (e : Placed) : ℝ → List Slice → Part → Prop
  | _, [], _ => True
  | _, [_], _ => True
  | off, sl :: nxt :: rest, q =>
    let e1 := e.sliceAt off sl.weight sl.thick
    let off2 := off + e1.len
    Leaves e1 (sl.body q) ∧
      (∃ r, Same (exitFrame e1) (sl.body q) r ∧
        Comes (e.sliceAt off2 nxt.weight nxt.thick) r) ∧
      RunsThrough e off2 (nxt :: rest) (sl.body q)

end

end Verif.Frames
