import Verif.Frames.Model
import Verif.Magnets.BendFields
import Mathlib.Algebra.BigOperators.Fin
import Mathlib.Analysis.SpecialFunctions.Trigonometric.Basic
import Mathlib.Algebra.Order.Floor.Ring

/-!
# The survey of a line

`xtrack/survey.py` and the methods `_propagate_survey` of the elements.  Simplifications:

* Real numbers instead of floats.
* Of an element the model keeps what the survey reads: the attributes of the table (`line.py:7330-7341`, 8322-8379), the
  parameters of the elements with an own `_propagate_survey`, and for a slice its parent.  An attribute which the element
  does not have counts as 0 (`LineAttrItem.get_full_array`, `line.py:8066-8070`).
* A replica carries its target instead of the name of it.
* The angle of `XRotation`, `YRotation`, `SRotation` is in radians (`np.deg2rad` is not modelled).
* A failed `assert` is `none`.
-/

namespace Verif.Survey

open Verif.Frames (Axis atan2)
open Verif.Magnets (RBendState)

noncomputable section

/-- A vector and a matrix of numpy. -/
abbrev V3 := Fin 3 → ℝ
/-- See `V3`. -/
abbrev M3 := Fin 3 → Fin 3 → ℝ

/-- `np.dot` of a matrix and a vector. -/
def dotV (m : M3) (r : V3) : V3 := fun i => ∑ j, m i j * r j

/-- `np.dot` of two matrices. -/
def dotM (m s : M3) : M3 := fun i j => ∑ k, m i k * s k j

/-- A literal matrix `np.array([[a, b, c], [d, e, f], [g, h, i]])`. -/
def lit (a b c d e f g h i : ℝ) : M3 := ![![a, b, c], ![d, e, f], ![g, h, i]]

/-- Position and orientation: `v` and `w` of the code. -/
@[ext] structure Pose where
  v : V3
  w : M3

/-- `get_E_from_angles`; survey.py:17-36. -/
def fromAngles (theta phi psi : ℝ) : M3 :=
  let ct := Real.cos theta
  let cp := Real.cos phi
  let cs := Real.cos psi
  let st := Real.sin theta
  let sp := Real.sin phi
  let ss := Real.sin psi
  lit (ct * cs - st * sp * ss) (-ct * ss - st * sp * cs) (st * cp)
    (cp * ss) (cp * cs) sp
    (-st * cs - ct * sp * ss) (st * ss - ct * sp * cs) (ct * cp)

/-- `theta` of `_get_survey_quantities_from_v_w`, before `np.unwrap`; survey.py:576. -/
def thetaOf (w : M3) : ℝ := atan2 (w 0 2) (w 2 2)
/-- `psi`; survey.py:577. -/
def psiOf (w : M3) : ℝ := atan2 (w 1 0) (w 1 1)
/-- `phi`; survey.py:578. -/
def phiOf (w : M3) : ℝ := atan2 (w 1 2) (w 1 1 / Real.cos (psiOf w))

/-- `advance_bend`; survey.py:55-58. -/
def advanceBend (p : Pose) (R : V3) (S : M3) : Pose := ⟨fun i => dotV p.w R i + p.v i, dotM p.w S⟩

/-- `advance_rotation`; survey.py:61-64. -/
def advanceRotation (p : Pose) (S : M3) : Pose := ⟨p.v, dotM p.w S⟩

/-- `advance_drift`; survey.py:67-70. -/
def advanceDrift (p : Pose) (R : V3) : Pose := ⟨fun i => dotV p.w R i + p.v i, p.w⟩

open Classical in
/-- `advance_element`; survey.py:73-159. -/
def advanceElement (p : Pose) (length angle tilt shiftX shiftY rotX rotY rotS : ℝ) : Option Pose :=
  if shiftX ≠ 0 ∨ shiftY ≠ 0 then
    if angle = 0 ∧ tilt = 0 ∧ length = 0 then some (advanceDrift p ![shiftX, shiftY, 0]) else none
  else if rotX ≠ 0 then
    if angle = 0 ∧ tilt = 0 ∧ length = 0 then
      let cr := Real.cos (-rotX)
      let sr := Real.sin (-rotX)
      some (advanceRotation p (lit 1 0 0 0 cr sr 0 (-sr) cr))
    else none
  else if rotY ≠ 0 then
    if angle = 0 ∧ tilt = 0 ∧ length = 0 then
      let cr := Real.cos rotY
      let sr := Real.sin rotY
      some (advanceRotation p (lit cr 0 (-sr) 0 1 0 sr 0 cr))
    else none
  else if rotS ≠ 0 then
    if angle = 0 ∧ tilt = 0 ∧ length = 0 then
      let cr := Real.cos rotS
      let sr := Real.sin rotS
      some (advanceRotation p (lit cr (-sr) 0 sr cr 0 0 0 1))
    else none
  else if angle = 0 then some (advanceDrift p ![0, 0, length])
  else if tilt = 0 then
    let ca := Real.cos angle
    let sa := Real.sin angle
    let rho := length / angle
    some (advanceBend p ![rho * (ca - 1), 0, rho * sa] (lit ca 0 (-sa) 0 1 0 sa 0 ca))
  else
    let ca := Real.cos angle
    let sa := Real.sin angle
    let ct := Real.cos tilt
    let st := Real.sin tilt
    let rho := length / angle
    let R : V3 := ![rho * (ca - 1), 0, rho * sa]
    let S := lit ca 0 (-sa) 0 1 0 sa 0 ca
    let T := lit ct (-st) 0 st ct 0 0 0 1
    let Tinv := lit ct st 0 (-st) ct 0 0 0 1
    some (advanceBend p (dotV T R) (dotM T (dotM S Tinv)))

/-! ## Elements -/

/-- The attributes of an element of its own: `length`, `h`, `hxl` and `rot_s_rad`; line.py:7200-7317. -/
structure Own where
  length : ℝ
  h : ℝ
  hxl : ℝ
  rotS : ℝ

/-- An `RBend`: the fields of the setters, `rot_s_rad`, `rbend_shift`, `rbend_compensate_sagitta` and whether `rbend_model`
is `straight-body`. -/
structure RB where
  state : RBendState
  rotS : ℝ
  shift : ℝ
  sagitta : Bool
  straight : Bool

/-- `_angle_in`; rbend.py:236-238. -/
def RB.angleIn (b : RB) : ℝ := 0.5 * b.state.angle - b.state.angleDiff / 2
/-- `_angle_out`; rbend.py:240-242. -/
def RB.angleOut (b : RB) : ℝ := 0.5 * b.state.angle + b.state.angleDiff / 2
/-- `_x0_in`. -/
def RB.x0In (b : RB) : ℝ := b.state.x0In b.shift b.sagitta
/-- `_x0_out`. -/
def RB.x0Out (b : RB) : ℝ := b.state.x0Out b.shift b.sagitta

/-- Kinds of slices: slice_elements_thick.py, _thin.py, _drift.py, _edge.py. -/
inductive Piece
  | thick
  | thin
  | drift
  | entry
  | exit
  deriving DecidableEq

/-- `isthick` of the classes of slices. -/
def Piece.isThick : Piece → Bool
  | .thick => true
  | .drift => true
  | _ => false

/-- `_inherit_strengths`; slice_elements_thick.py:22, _thin.py:26, _drift.py:23, _edge.py:39. -/
def Piece.inherits : Piece → Bool
  | .thick => true
  | .thin => true
  | _ => false

/-- `rot_and_shift_from_parent`; slice_elements_thick.py:19, _thin.py:23, _drift.py:20, _edge.py:36. -/
def Piece.tilts : Piece → Bool
  | .drift => false
  | _ => true

/-- What the survey sees of an element. -/
inductive El
  /-- an element without `_propagate_survey` which is not a slice: drift, magnet, cavity, marker, ... -/
  | own (a : Own) (thick : Bool)
  /-- a slice of such an element -/
  | slice (k : Piece) (parent : Own) (weight : ℝ)
  /-- an `RBend`; it is thick -/
  | rbend (b : RB)
  /-- a slice of it -/
  | rslice (k : Piece) (parent : RB) (weight : ℝ)
  /-- `Translation` or `XYShift` -/
  | translation (sx sy : ℝ)
  /-- `Rotation` -/
  | rotation (rs rx ry : ℝ) (first second third : Axis)
  | xRotation (angle : ℝ)
  | yRotation (angle : ℝ)
  | sRotation (angle : ℝ)
  | replica (target : El)

/-- `Replica.resolve`; a replica of a replica is followed to the end. -/
def El.resolve : El → El
  | .replica e => e.resolve
  | e => e

/-- The attributes of an `RBend` in the table. -/
def RB.attrs (b : RB) : Own := ⟨b.state.length, b.state.h, 0, b.rotS⟩

/-- The columns `_own_...`. -/
def El.ownOf : El → Own
  | .own a _ => a
  | .rbend b => b.attrs
  | .rotation rs _ _ _ _ _ => ⟨0, 0, 0, rs⟩
  | _ => ⟨0, 0, 0, 0⟩

/-- The columns `_parent_...`. -/
def El.parentOf : El → Own
  | .slice _ a _ => a
  | .rslice _ b _ => b.attrs
  | _ => ⟨0, 0, 0, 0⟩

/-- The column `weight`. -/
def El.weightOf : El → ℝ
  | .slice _ _ w => w
  | .rslice _ _ w => w
  | _ => 0

/-- The array `_inherit_strengths`, taken from the element as it is in the line; line.py:8110-8116. -/
def El.inheritFlag : El → ℝ
  | .slice k _ _ => if k.inherits then 1 else 0
  | .rslice k _ _ => if k.inherits then 1 else 0
  | _ => 0

/-- The array `_rot_and_shift_from_parent`; line.py:8112-8118. -/
def El.tiltFlag : El → ℝ
  | .slice k _ _ => if k.tilts then 1 else 0
  | .rslice k _ _ => if k.tilts then 1 else 0
  | _ => 0

/-- `_is_thick`, which resolves replicas; line.py:7740-7743. -/
def El.isThick (e : El) : Bool :=
  match e.resolve with
  | .own _ t => t
  | .slice k _ _ => k.isThick
  | .rbend _ => true
  | .rslice k _ _ => k.isThick
  | _ => false

/-- The column `length`; line.py:7331-7332.  The own and parent columns follow replicas (line.py:8012-8017), the flags do
not. -/
def El.length (e : El) : ℝ := e.resolve.ownOf.length + e.resolve.parentOf.length * e.resolve.weightOf

/-- `drift_length`; survey.py:419-421. -/
def El.driftLength (e : El) : ℝ := if e.isThick then e.length else 0

/-- `_angle_force_body`; line.py:8322-8343. -/
def El.angleBody (e : El) : ℝ :=
  let o := e.resolve.ownOf
  let p := e.resolve.parentOf
  let w := e.resolve.weightOf
  (o.hxl + o.h * o.length) + (p.hxl * w + p.h * p.length * w) * e.inheritFlag

/-- The column `angle`; line.py:8345-8379. -/
def El.angle (e : El) : ℝ :=
  match e.resolve with
  | .rslice k b _ =>
    if b.straight then
      match k with
      | .thick => 0
      | .thin => 0
      | .entry => 0.5 * (b.attrs.h * b.attrs.length - b.state.angleDiff)
      | .exit => 0.5 * (b.attrs.h * b.attrs.length + b.state.angleDiff)
      | .drift => e.angleBody
    else e.angleBody
  | _ => e.angleBody

/-- The column `rot_s_rad`; line.py:7338-7340. -/
def El.tilt (e : El) : ℝ := e.resolve.ownOf.rotS + e.resolve.parentOf.rotS * e.tiltFlag

/-- Several calls one after the other. -/
def chain (l : List (Pose → Option Pose)) (p : Pose) : Option Pose := l.foldl (fun o f => o.bind f) (some p)

/-- A call of `advance_element` with length, angle and tilt only. -/
def moveCall (length angle tilt : ℝ) (p : Pose) : Option Pose := advanceElement p length angle tilt 0 0 0 0 0

/-- A call of `advance_element` with a shift only. -/
def shiftCall (sx sy : ℝ) (p : Pose) : Option Pose := advanceElement p 0 0 0 sx sy 0 0 0

/-- A call of `advance_element` from the elements which rotate; rotation.py:107-118, x_rotation.py:109-120,
y_rotation.py:121-132, s_rotation.py:100-111. -/
def rotCall (fback rx ry rs : ℝ) (p : Pose) : Option Pose := advanceElement p 0 0 0 0 0 (fback * rx) (-fback * ry) (fback * rs)

/-- One pass of the loop in `Rotation._propagate_survey`; rotation.py:97-118. -/
def axisCall (fback rs rx ry : ℝ) : Axis → Pose → Option Pose
  | .x => rotCall fback rx 0 0
  | .y => rotCall fback 0 ry 0
  | .s => rotCall fback 0 0 rs

/-- `ThinSliceRBendEntry._propagate_survey`; slice_elements_edge.py:315-370. -/
def entryCalls (b : RB) (back : Bool) : List (Pose → Option Pose) :=
  if b.straight then
    if back then
      (if |b.state.angle| > 1e-10 then [shiftCall (b.x0In * Real.cos b.rotS) (b.x0In * Real.sin b.rotS)] else [])
        ++ [moveCall 0 (-b.angleIn) b.rotS]
    else
      [moveCall 0 b.angleIn b.rotS]
        ++ (if |b.state.angle| > 1e-10 then [shiftCall (-b.x0In * Real.cos b.rotS) (-b.x0In * Real.sin b.rotS)] else [])
  else []

/-- `ThinSliceRBendExit._propagate_survey`; slice_elements_edge.py:407-463. -/
def exitCalls (b : RB) (back : Bool) : List (Pose → Option Pose) :=
  if b.straight then
    if back then
      [moveCall 0 (-b.angleOut) b.rotS]
        ++ (if |b.state.angle| > 1e-10 then [shiftCall (-b.x0Out * Real.cos b.rotS) (-b.x0Out * Real.sin b.rotS)] else [])
    else
      (if |b.state.angle| > 1e-10 then [shiftCall (b.x0Out * Real.cos b.rotS) (b.x0Out * Real.sin b.rotS)] else [])
        ++ [moveCall 0 b.angleOut b.rotS]
  else []

/-- The method `_propagate_survey`, when the object in the line has it. -/
def El.propagate (back : Bool) : El → Option (Pose → Option Pose)
  | .translation sx sy =>
    -- translation.py:39-61, xy_shift.py:50-72
    let fback : ℝ := if back then -1 else 1
    some (shiftCall (fback * sx) (fback * sy))
  | .rotation rs rx ry a b c =>
    -- rotation.py:89-119
    let fback : ℝ := if back then -1 else 1
    let seq := if back then [c, b, a] else [a, b, c]
    some (chain (seq.map (axisCall fback rs rx ry)))
  | .xRotation t => some (rotCall (if back then -1 else 1) t 0 0) -- x_rotation.py:101-123
  | .yRotation t => some (rotCall (if back then -1 else 1) 0 t 0) -- y_rotation.py:113-135
  | .sRotation t => some (rotCall (if back then -1 else 1) 0 0 t) -- s_rotation.py:92-114
  | .rslice .thick b w =>
    -- slice_elements_thick.py:40-66
    let ll := if b.straight then b.state.lengthStraight * w else b.state.length * w
    let aa := if b.straight then 0 else b.state.angle * w
    some (moveCall (if back then ll * -1 else ll) (if back then aa * -1 else aa) b.rotS)
  | .rslice .drift b w =>
    -- slice_elements_drift.py:51-74
    let ll := if b.straight then b.state.lengthStraight * w else b.state.length * w
    some (moveCall (if back then ll * -1 else ll) 0 0)
  | .rslice .entry b _ => some (chain (entryCalls b back))
  | .rslice .exit b _ => some (chain (exitCalls b back))
  | _ => none

/-- The body of the loop of `get_survey`; survey.py:530-552. -/
def El.advance (back : Bool) (e : El) (p : Pose) : Option Pose :=
  match e.propagate back with
  | some f => f p
  | none => moveCall (if back then -e.driftLength else e.driftLength) (if back then -e.angle else e.angle) e.tilt p

/-- The loop of `get_survey`: the pose before every element and the last one; survey.py:513-561. -/
def walk (back : Bool) : List El → Pose → Option (List Pose)
  | [], p => some [p]
  | e :: es, p => (e.advance back p).bind fun q => (walk back es q).bind fun rows => some (p :: rows)

/-- `get_survey`; survey.py:458-561. -/
def getSurvey (els : List El) (start : Pose) (element0 : ℕ) : Option (List Pose) :=
  if element0 ≠ 0 then
    (walk false (els.drop element0) start).bind fun fwd =>
      (walk true (els.take element0).reverse start).bind fun bwd =>
        some (bwd.reverse.dropLast ++ fwd)
  else walk false els start

/-- `survey_from_line` with the arguments of the user; survey.py:389-455. -/
def survey (els : List El) (X0 Y0 Z0 theta0 phi0 psi0 : ℝ) (element0 : ℕ) : Option (List Pose) :=
  getSurvey els ⟨![X0, Y0, Z0], fromAngles theta0 phi0 psi0⟩ element0

/-! ## The table -/

/-- One row of `SurveyTable.reverse`: the rows 0 and 2 of `V` and `E` change sign, then the columns 0 and 2 of `E`;
survey.py:286-294. -/
def flipPose (p : Pose) : Pose :=
  let sgn : Fin 3 → ℝ := ![-1, 1, -1]
  ⟨fun i => p.v i * sgn i, fun i j => p.w i j * sgn i * sgn j⟩

/-- `new[:-1] = new[1:][::-1]; new[-1] = old[0]`; survey.py:268-284. -/
def revRows {α : Type} : List α → List α
  | [] => []
  | a :: l => l.reverse ++ [a]

/-- The geometric columns of `SurveyTable.reverse`. -/
def reversePoses (rows : List Pose) : List Pose := (revRows rows).map flipPose

/-- The column `s` of `SurveyTable.reverse`; survey.py:268-273. -/
def reverseS (s : List ℝ) : List ℝ := (revRows s).map fun x => s.getLastD 0 - x

/-- The columns `name`, `element_type`, ...: all but the last entry in reverse order; survey.py:258-264. -/
def reverseProps {α : Type} (l : List α) : List α := l.dropLast.reverse ++ l.drop (l.length - 1)

/-- One step of `np.unwrap`: the new value differs from the previous one by the given difference taken modulo `2 pi`. -/
def wrap (d : ℝ) : ℝ :=
  let m := d + Real.pi - 2 * Real.pi * ⌊(d + Real.pi) / (2 * Real.pi)⌋ - Real.pi
  if m = -Real.pi ∧ 0 < d then Real.pi else m

/-- `np.unwrap`. -/
def unwrap : List ℝ → List ℝ
  | [] => []
  | x :: l => x :: go x x l
where
  /-- `prev` is the last value read and `acc` the last value written. -/
  go (prev acc : ℝ) : List ℝ → List ℝ
  | [] => []
  | y :: l => (acc + wrap (y - prev)) :: go y (acc + wrap (y - prev)) l

/-- The columns `theta`, `phi`, `psi`; survey.py:574-592. -/
def thetaCol (rows : List Pose) : List ℝ := unwrap (rows.map fun p => thetaOf p.w)
/-- See `thetaCol`. -/
def phiCol (rows : List Pose) : List ℝ := unwrap (rows.map fun p => phiOf p.w)
/-- See `thetaCol`. -/
def psiCol (rows : List Pose) : List ℝ := unwrap (rows.map fun p => psiOf p.w)

end

end Verif.Survey
