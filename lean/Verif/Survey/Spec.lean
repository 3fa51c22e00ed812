import Verif.Survey.Model
import Verif.Frames.Props
import Mathlib.Analysis.Calculus.Deriv.Basic

/-!
# What a survey should say

Written without the functions of the model: a row of the survey is a frame in space; between two rows the frame moves along
the reference path of the element.
-/

namespace Verif.Survey

open Verif.Frames (Frame Axis Part Moves Same axesFrame Vec)

noncomputable section

/-- The frame which a row of the survey describes: the columns of `E` are its axes, `V` is its origin. -/
def Pose.frame (p : Pose) : Frame :=
  ⟨p.w 0 0, p.w 0 1, p.w 0 2, p.w 1 0, p.w 1 1, p.w 1 2, p.w 2 0, p.w 2 1, p.w 2 2, p.v 0, p.v 1, p.v 2⟩

/-- The third frame seen from the second one, both given in the laboratory. -/
def seenFrom (F G : Frame) : Frame := F.inv.comp G

/-- A frame is carried from `F` to `F'` along a path of length `len` whose direction turns by `angle`, in the plane of the
third axis and the direction which is rolled by `tilt` from the first axis; away from this direction when the angle is
positive.  At every moment the origin moves along the third axis, and the axes turn around the normal of the plane. -/
def Follows (len angle tilt : ℝ) (F F' : Frame) : Prop :=
  ∃ P : ℝ → Frame, P 0 = F ∧ P 1 = F' ∧ ∀ u,
    (HasDerivAt (fun u => (P u).d1) (len * (P u).r13) u ∧
     HasDerivAt (fun u => (P u).d2) (len * (P u).r23) u ∧
     HasDerivAt (fun u => (P u).d3) (len * (P u).r33) u) ∧
    (HasDerivAt (fun u => (P u).r11) (angle * Real.cos tilt * (P u).r13) u ∧
     HasDerivAt (fun u => (P u).r21) (angle * Real.cos tilt * (P u).r23) u ∧
     HasDerivAt (fun u => (P u).r31) (angle * Real.cos tilt * (P u).r33) u) ∧
    (HasDerivAt (fun u => (P u).r12) (angle * Real.sin tilt * (P u).r13) u ∧
     HasDerivAt (fun u => (P u).r22) (angle * Real.sin tilt * (P u).r23) u ∧
     HasDerivAt (fun u => (P u).r32) (angle * Real.sin tilt * (P u).r33) u) ∧
    (HasDerivAt (fun u => (P u).r13) (-angle * (Real.cos tilt * (P u).r11 + Real.sin tilt * (P u).r12)) u ∧
     HasDerivAt (fun u => (P u).r23) (-angle * (Real.cos tilt * (P u).r21 + Real.sin tilt * (P u).r22)) u ∧
     HasDerivAt (fun u => (P u).r33) (-angle * (Real.cos tilt * (P u).r31 + Real.sin tilt * (P u).r32)) u)

/-- Angle of an element: `hxl` (multipoles) and `h * length` (bends). -/
def Own.turn (a : Own) : ℝ := a.hxl + a.h * a.length

/-- What the element does to the reference frame. -/
def Carries : El → Frame → Frame → Prop
  | .own a thick, F, F' => Follows (if thick then a.length else 0) a.turn a.rotS F F'
  | .slice .thick a w, F, F' => Follows (w * a.length) (w * a.turn) a.rotS F F'
  | .slice .thin a w, F, F' => Follows 0 (w * a.turn) a.rotS F F'
  | .slice .drift a w, F, F' => Follows (w * a.length) 0 0 F F'
  | .slice .entry _ _, F, F' => F' = F
  | .slice .exit _ _, F, F' => F' = F
  | .rbend b, F, F' => Follows b.state.length (b.state.h * b.state.length) b.rotS F F'
  | .rslice .thick b w, F, F' =>
    if b.straight then F' = F.comp (Frame.shift 0 0 (w * b.state.lengthStraight))
    else Follows (w * b.state.length) (w * b.state.angle) b.rotS F F'
  | .rslice .thin b w, F, F' =>
    if b.straight then F' = F else Follows 0 (w * (b.state.h * b.state.length)) b.rotS F F'
  | .rslice .drift b w, F, F' =>
    F' = F.comp (Frame.shift 0 0 (w * (if b.straight then b.state.lengthStraight else b.state.length)))
  | .rslice .entry b _, F, F' =>
    -- turn into the direction of the body, then move from the reference path to the axis of the body
    if b.straight then
      F' = F.comp ((Frame.roll b.rotS).comp ((Frame.yaw (-b.angleIn)).comp
        ((Frame.shift (if |b.state.angle| > 1e-10 then -b.x0In else 0) 0 0).comp (Frame.roll (-b.rotS)))))
    else F' = F
  | .rslice .exit b _, F, F' =>
    if b.straight then
      F' = F.comp ((Frame.roll b.rotS).comp ((Frame.shift (if |b.state.angle| > 1e-10 then b.x0Out else 0) 0 0).comp
        ((Frame.yaw (-b.angleOut)).comp (Frame.roll (-b.rotS)))))
    else F' = F
  | .translation sx sy, F, F' => F' = F.comp (Frame.shift sx sy 0)
  | .rotation rs rx ry a b c, F, F' => F' = F.comp (axesFrame rs rx ry [a, b, c])
  | .xRotation t, F, F' => F' = F.comp (Frame.pitch (-t))
  | .yRotation t, F, F' => F' = F.comp (Frame.yaw t)
  | .sRotation t, F, F' => F' = F.comp (Frame.roll t)
  | .replica e, F, F' => Carries e F F'

/-- The elements which the survey treats as they are: no replica of an element with its own way of moving the reference
frame, and no replica of a slice. -/
def Direct : El → Prop
  | .replica e =>
    match e.resolve with
    | .own _ _ => True
    | .rbend _ => True
    | _ => False
  | _ => True

/-- A free particle `p` passes the element and comes out as `p'`, `ds` further along the reference path, according to the
tracking functions of the elements. -/
inductive FreePass : El → ℝ → Part → Part → Prop
  | translation (sx sy : ℝ) (p : Part) :
    FreePass (.translation sx sy) 0 p (Frames.translationElement sx sy false p)
  | xRotation {t : ℝ} {p : Part} (k : p.Kin) (f : p.Forward) (hc : Real.cos t ≠ 0)
    (hx : Frames.Crosses (Frame.pitch (-t)) p) : FreePass (.xRotation t) 0 p (Frames.xRotationElement t false p)
  | yRotation {t : ℝ} {p : Part} (k : p.Kin) (f : p.Forward) (hc : Real.cos t ≠ 0)
    (hx : Frames.Crosses (Frame.yaw t) p) : FreePass (.yRotation t) 0 p (Frames.yRotationElement t false p)
  | sRotation {t : ℝ} {p : Part} (f : p.Forward) : FreePass (.sRotation t) 0 p (Frames.sRotationElement t false p)
  | rotation {rs rx ry : ℝ} {a b c : Axis} {p : Part} (k : p.Kin) (f : p.Forward) (hcx : Real.cos rx ≠ 0)
    (hcy : Real.cos ry ≠ 0) (hx : ∀ l, l <+: [a, b, c] → Frames.Crosses (axesFrame rs rx ry l) p) :
    FreePass (.rotation rs rx ry a b c) 0 p (Frames.rotationElement rs rx ry a b c false p)
  /-- a drift -/
  | drift {a : Own} {p : Part} (f : p.Forward) (h : a.h = 0) (hxl : a.hxl = 0) :
    FreePass (.own a true) a.length p (Frames.driftExact p a.length)
  /-- a magnet (or a slice of it, then `a` is the parent) with any misalignment, switched off: its body lets particles fly -/
  | magnet {a : Own} {q : Frames.Placed} {body : Bool → Part → Part} {p : Part} (hc : q.Coherent) (hw : q.Whole)
    (hk : q.kappa = a.h) (hl : q.mis.length = a.length) (ht : q.thick = true) (hw1 : q.weight = 1)
    (hr : q.mis.tilt = a.rotS) (hxl : a.hxl = 0)
    (hp : Frames.Comes q p) (hb : Moves (Frames.bodyFrame q) q.len (Frames.misalignEntry q false p)
      (body false (Frames.misalignEntry q false p)))
    (hq : Frames.Leaves q (body false (Frames.misalignEntry q false p))) :
    FreePass (.own a true) a.length p (Frames.trackPlaced q body false p)
  | slice {a : Own} {w : ℝ} {q : Frames.Placed} {body : Bool → Part → Part} {p : Part} (hc : q.Coherent) (hw : q.Whole)
    (hk : q.kappa = a.h) (hl : q.mis.length = a.length) (ht : q.thick = true) (hw1 : q.weight = w)
    (hr : q.mis.tilt = a.rotS) (hxl : a.hxl = 0)
    (hp : Frames.Comes q p) (hb : Moves (Frames.bodyFrame q) q.len (Frames.misalignEntry q false p)
      (body false (Frames.misalignEntry q false p)))
    (hq : Frames.Leaves q (body false (Frames.misalignEntry q false p))) :
    FreePass (.slice .thick a w) (w * a.length) p (Frames.trackPlaced q body false p)

/-- A free particle passes a line. -/
inductive FreeLine : List El → ℝ → Part → Part → Prop
  | nil (p : Part) : FreeLine [] 0 p p
  | cons {e : El} {es : List El} {a b : ℝ} {p q r : Part} (h : FreePass e a p q) (t : FreeLine es b q r) :
    FreeLine (e :: es) (a + b) p r

end

end Verif.Survey
