import Mathlib.Analysis.Real.Sqrt
import Mathlib.Analysis.SpecialFunctions.Trigonometric.Basic
import Mathlib.Analysis.SpecialFunctions.Complex.Arg

/-!
# Drifts, rotations, shifts and misalignments of one particle

Transcription of `track_drift.h`, `track_xyshift.h`, `track_srotation.h`,
`track_xrotation.h`, `track_yrotation.h`, `track_misalignments.h` (all in
`xtrack/beam_elements/elements_src`), of the polar drift in
`track_magnet_drift.h`, of the elements that call them, and of
`xtrack/headers/track_local_particle_with_transformations.h`.

Simplifications.
* Double precision numbers are real numbers; rounding is not modelled.
* The loops over particles apply the same function to each particle, so one
  particle is modelled.
* Division by zero and square roots of negative numbers are not given a value by
  the theorems: each of them assumes that the radicands are positive and the
  denominators different from zero.
* Spin is tracked (`XTRACK_MULTIPOLE_NO_SYNRAD` not defined), nothing is frozen.
-/

namespace Verif.Frames

noncomputable section

/-- The coordinates of one particle (`particles.py:70-150`) used here. -/
@[ext] structure Part where
  x : ℝ
  px : ℝ
  y : ℝ
  py : ℝ
  zeta : ℝ
  s : ℝ
  delta : ℝ
  ptau : ℝ
  rpp : ℝ
  rvv : ℝ
  beta0 : ℝ
  chi : ℝ
  spinX : ℝ
  spinY : ℝ
  spinZ : ℝ

/-- `Drift_single_particle_expanded`, `track_drift.h:10-23`. -/
def driftExpanded (p : Part) (length : ℝ) : Part :=
  let rv0v := 1 / p.rvv
  let xp := p.px * p.rpp
  let yp := p.py * p.rpp
  let dzeta := 1 - rv0v * (1 + (xp * xp + yp * yp) / 2)
  { p with
    x := p.x + xp * length
    y := p.y + yp * length
    s := p.s + length
    zeta := p.zeta + length * dzeta }

/-- `Drift_single_particle_exact`, `track_drift.h:26-42`. -/
def driftExact (p : Part) (length : ℝ) : Part :=
  let rv0v := 1 / p.rvv
  let opd := 1 + p.delta
  let oneOverPz := 1 / Real.sqrt (opd * opd - p.px * p.px - p.py * p.py)
  let dzeta := 1 - rv0v * opd * oneOverPz
  { p with
    x := p.x + p.px * oneOverPz * length
    y := p.y + p.py * oneOverPz * length
    zeta := p.zeta + dzeta * length
    s := p.s + length }

/-- `XYShift_single_particle`, `track_xyshift.h:9-15`. -/
def xyShift (p : Part) (dx dy : ℝ) : Part := { p with x := p.x - dx, y := p.y - dy }

/-- `SRotation_single_particle`, `track_srotation.h:12-43`. -/
def sRot (p : Part) (sinZ cosZ : ℝ) : Part :=
  let q := { p with
    x := cosZ * p.x + sinZ * p.y
    y := -sinZ * p.x + cosZ * p.y
    px := cosZ * p.px + sinZ * p.py
    py := -sinZ * p.px + cosZ * p.py }
  if p.spinX ≠ 0 ∨ p.spinY ≠ 0 then
    { q with spinX := cosZ * p.spinX + sinZ * p.spinY
             spinY := -sinZ * p.spinX + cosZ * p.spinY }
  else q

/-- `XRotation_single_particle`, `track_xrotation.h:12-50`.  `LocalParticle_get_pzeta`
is `ptau / beta0`. -/
def xRot (p : Part) (sinA cosA tanA : ℝ) : Part :=
  let t := p.zeta / p.beta0
  let pt := p.ptau / p.beta0 * p.beta0
  let pz := Real.sqrt (1 + 2 * pt / p.beta0 + pt * pt - p.px * p.px - p.py * p.py)
  let ptt := 1 - tanA * p.py / pz
  let tHat := t - tanA * p.y * (1 / p.beta0 + pt) / (pz * ptt)
  let q := { p with
    x := p.x + tanA * p.y * p.px / (pz * ptt)
    py := cosA * p.py + sinA * pz
    y := p.y / (cosA * ptt)
    zeta := tHat * p.beta0 }
  if p.spinY ≠ 0 ∨ p.spinZ ≠ 0 then
    { q with spinY := cosA * p.spinY + sinA * p.spinZ
             spinZ := -sinA * p.spinY + cosA * p.spinZ }
  else q

/-- `YRotation_single_particle`, `track_yrotation.h:12-50`. -/
def yRot (p : Part) (sinA cosA tanA : ℝ) : Part :=
  let t := p.zeta / p.beta0
  let pt := p.ptau / p.beta0 * p.beta0
  let pz := Real.sqrt (1 + 2 * pt / p.beta0 + pt * pt - p.px * p.px - p.py * p.py)
  let ptt := 1 + tanA * p.px / pz
  let tHat := t + tanA * p.x * (1 / p.beta0 + pt) / (pz * ptt)
  let q := { p with
    x := p.x / (cosA * ptt)
    px := cosA * p.px - sinA * pz
    y := p.y - tanA * p.x * p.py / (pz * ptt)
    zeta := tHat * p.beta0 }
  if p.spinX ≠ 0 ∨ p.spinZ ≠ 0 then
    { q with spinX := cosA * p.spinX - sinA * p.spinZ
             spinZ := sinA * p.spinX + cosA * p.spinZ }
  else q

/-- `track_polar_drift_single_particle`, `track_magnet_drift.h:47-91`. -/
def polarDrift (p : Part) (length h : ℝ) : Part :=
  let opd := p.delta + 1
  let pz := Real.sqrt (opd ^ 2 - p.px ^ 2 - p.py ^ 2)
  let rho := 1 / h
  let ca := Real.cos (h * length)
  let sa := Real.sin (h * length)
  let sa2 := Real.sin (0.5 * h * length)
  let ipz := 1 / pz
  let pxt := p.px * ipz
  let iptt := 1 / (ca - sa * pxt)
  let pst := (p.x + rho) * sa * ipz * iptt
  let deltaEll := opd * (p.x + rho) * sa / ca / pz / (1 - p.px * sa / ca / pz)
  { p with
    x := (p.x + rho * (2 * sa2 * sa2 + sa * pxt)) * iptt
    px := ca * p.px + sa * pz
    y := p.y + pst * p.py
    zeta := p.zeta + (length - deltaEll / p.rvv)
    s := p.s + length }

/-! ## Macros of `track_misalignments.h:16-31` -/

/-- `Y_ROTATE`. -/
def yRotate (p : Part) (theta : ℝ) : Part :=
  if theta ≠ 0 then yRot p (Real.sin theta) (Real.cos theta) (Real.tan theta) else p

/-- `X_ROTATE` (with the flipped signs). -/
def xRotate (p : Part) (phi : ℝ) : Part :=
  if phi ≠ 0 then xRot p (-Real.sin phi) (Real.cos phi) (-Real.tan phi) else p

/-- `S_ROTATE`. -/
def sRotate (p : Part) (psi : ℝ) : Part :=
  if psi ≠ 0 then sRot p (Real.sin psi) (Real.cos psi) else p

/-- `S_SHIFT`. -/
def sShift (p : Part) (ds : ℝ) : Part :=
  if ds ≠ 0 then
    let q := driftExact p ds
    { q with zeta := q.zeta - ds, s := q.s - ds }
  else p

/-! ## Misalignment of straight elements -/

/-- The parameters of the misalignment functions: shifts, yaw, pitch, roll without
the frame, anchor, length, roll with the frame. -/
structure Mis where
  dx : ℝ
  dy : ℝ
  ds : ℝ
  theta : ℝ
  phi : ℝ
  psi : ℝ
  anchor : ℝ
  length : ℝ
  tilt : ℝ

/-- `track_misalignment_entry_straight`, `track_misalignments.h:38-78`. -/
def entryStraight (m : Mis) (backtrack : Bool) (p : Part) : Part :=
  let misX := m.dx - m.anchor * Real.cos m.phi * Real.sin m.theta
  let misY := m.dy - m.anchor * Real.sin m.phi
  let misS := m.ds - m.anchor * (Real.cos m.phi * Real.cos m.theta - 1)
  if !backtrack then
    let p1 := xyShift p misX misY
    let p2 := sShift p1 misS
    let p3 := yRotate p2 m.theta
    let p4 := xRotate p3 m.phi
    let p5 := sRotate p4 m.psi
    sRotate p5 m.tilt
  else
    let p1 := sRotate p (-m.tilt)
    let p2 := sRotate p1 (-m.psi)
    let p3 := xRotate p2 (-m.phi)
    let p4 := yRotate p3 (-m.theta)
    let p5 := sShift p4 (-misS)
    xyShift p5 (-misX) (-misY)

/-- `track_misalignment_exit_straight`, `track_misalignments.h:81-120`. -/
def exitStraight (m : Mis) (backtrack : Bool) (p : Part) : Part :=
  let npl := m.anchor - m.length
  let misX := npl * Real.cos m.phi * Real.sin m.theta - m.dx
  let misY := npl * Real.sin m.phi - m.dy
  let misS := npl * (Real.cos m.phi * Real.cos m.theta - 1) - m.ds
  if !backtrack then
    let p1 := sRotate p (-m.tilt)
    let p2 := sRotate p1 (-m.psi)
    let p3 := xRotate p2 (-m.phi)
    let p4 := yRotate p3 (-m.theta)
    let p5 := sShift p4 misS
    xyShift p5 misX misY
  else
    let p1 := xyShift p (-misX) (-misY)
    let p2 := sShift p1 (-misS)
    let p3 := yRotate p2 m.theta
    let p4 := xRotate p3 m.phi
    let p5 := sRotate p4 m.psi
    sRotate p5 m.tilt

/-! ## 4x4 matrices -/

/-- `double[4][4]`. -/
abbrev M4 := Fin 4 → Fin 4 → ℝ

/-- `matrix_multiply_4x4`, `track_misalignments.h:383-392`. -/
def mul4 (a b : M4) : M4 := fun i j =>
  a i 0 * b 0 j + a i 1 * b 1 j + a i 2 * b 2 j + a i 3 * b 3 j

/-- Rows of a matrix literal of the code. -/
def lit4 (a00 a01 a02 a03 a10 a11 a12 a13 a20 a21 a22 a23 : ℝ) : M4 :=
  ![![a00, a01, a02, a03], ![a10, a11, a12, a13], ![a20, a21, a22, a23], ![0, 0, 0, 1]]

/-- `matrix_rigid_affine_inverse`, `track_misalignments.h:395-425`. -/
def inv4 (m : M4) : M4 :=
  lit4
    (m 0 0) (m 1 0) (m 2 0) (-m 0 0 * m 0 3 - m 1 0 * m 1 3 - m 2 0 * m 2 3)
    (m 0 1) (m 1 1) (m 2 1) (-m 0 1 * m 0 3 - m 1 1 * m 1 3 - m 2 1 * m 2 3)
    (m 0 2) (m 1 2) (m 2 2) (-m 0 2 * m 0 3 - m 1 2 * m 1 3 - m 2 2 * m 2 3)

/-- The C function `atan2`. -/
def atan2 (y x : ℝ) : ℝ := Complex.arg ⟨x, y⟩

/-- `misalignment_matrix`, `track_misalignments.h:161-181` and `285-306`. -/
def misMatrix (m : Mis) : M4 :=
  let sphi := Real.sin m.phi
  let cphi := Real.cos m.phi
  let sth := Real.sin m.theta
  let cth := Real.cos m.theta
  let spsi := Real.sin m.psi
  let cpsi := Real.cos m.psi
  lit4
    (-sphi * spsi * sth + cpsi * cth) (-cpsi * sphi * sth - cth * spsi) (cphi * sth) m.dx
    (cphi * spsi) (cphi * cpsi) sphi m.dy
    (-cth * sphi * spsi - cpsi * sth) (-cpsi * cth * sphi + spsi * sth) (cphi * cth) m.ds

/-- `matrix_first_part` (`track_misalignments.h:185-212`) and `matrix_second_part`
(`314-344`), which are the same function of the angle. -/
def partMatrix (partAngle h tilt : ℝ) : M4 :=
  let c := Real.cos partAngle
  let s := Real.sin partAngle
  let ct := Real.cos tilt
  let st := Real.sin tilt
  lit4
    ((c - 1) * ct ^ 2 + 1) ((c - 1) * ct * st) (-ct * s) ((c - 1) * ct / h)
    ((c - 1) * ct * st) ((c - 1) * st ^ 2 + 1) (-s * st) ((c - 1) * st / h)
    (ct * s) (s * st) c (s / h)

/-- The rotation angles read off a matrix, `track_misalignments.h:227-229`, `357-359`. -/
def rotTheta (a : M4) : ℝ := atan2 (a 0 2) (a 2 2)
@[inherit_doc rotTheta]
def rotPhi (a : M4) : ℝ := atan2 (a 1 2) (Real.sqrt (a 1 0 * a 1 0 + a 1 1 * a 1 1))
@[inherit_doc rotTheta]
def rotPsi (a : M4) : ℝ := atan2 (a 1 0) (a 1 1)

/-- `if (length != 0.0) h = angle / length`. -/
def curvature (m : Mis) (angle h : ℝ) : ℝ := if m.length ≠ 0 then angle / m.length else h

/-- `misaligned_entry`, `track_misalignments.h:161-221`. -/
def entryMatrix (m : Mis) (angle h : ℝ) : M4 :=
  let h' := curvature m angle h
  let first := partMatrix (m.anchor * h') h' m.tilt
  mul4 (mul4 first (misMatrix m)) (inv4 first)

/-- `realign`, `track_misalignments.h:285-351`. -/
def exitMatrix (m : Mis) (angle h : ℝ) : M4 :=
  let h' := curvature m angle h
  let second := partMatrix (angle - h' * m.anchor) h' m.tilt
  mul4 (mul4 (inv4 second) (inv4 (misMatrix m))) second

/-- `track_misalignment_entry_curved`, `track_misalignments.h:123-248`. -/
def entryCurved (m : Mis) (angle h : ℝ) (backtrack : Bool) (p : Part) : Part :=
  if angle = 0 ∧ (m.length ≠ 0 ∨ h = 0) then entryStraight m backtrack p
  else
    let a := entryMatrix m angle h
    if !backtrack then
      let p1 := xyShift p (a 0 3) (a 1 3)
      let p2 := sShift p1 (a 2 3)
      let p3 := yRotate p2 (rotTheta a)
      let p4 := xRotate p3 (rotPhi a)
      let p5 := sRotate p4 (rotPsi a)
      sRotate p5 m.tilt
    else
      let p1 := sRotate p (-m.tilt)
      let p2 := sRotate p1 (-rotPsi a)
      let p3 := xRotate p2 (-rotPhi a)
      let p4 := yRotate p3 (-rotTheta a)
      let p5 := sShift p4 (-a 2 3)
      xyShift p5 (-a 0 3) (-a 1 3)

/-- `track_misalignment_exit_curved`, `track_misalignments.h:251-380`. -/
def exitCurved (m : Mis) (angle h : ℝ) (backtrack : Bool) (p : Part) : Part :=
  if angle = 0 ∧ (m.length ≠ 0 ∨ h = 0) then exitStraight m backtrack p
  else
    let a := exitMatrix m angle h
    if !backtrack then
      let p1 := sRotate p (-m.tilt)
      let p2 := xyShift p1 (a 0 3) (a 1 3)
      let p3 := sShift p2 (a 2 3)
      let p4 := yRotate p3 (rotTheta a)
      let p5 := xRotate p4 (rotPhi a)
      sRotate p5 (rotPsi a)
    else
      let p1 := sRotate p (-rotPsi a)
      let p2 := xRotate p1 (-rotPhi a)
      let p3 := yRotate p2 (-rotTheta a)
      let p4 := sShift p3 (-a 2 3)
      let p5 := xyShift p4 (-a 0 3) (-a 1 3)
      sRotate p5 m.tilt

/-! ## Elements -/

/-- The model field of `Drift` (`_common.py:20-24`). -/
inductive DriftModel where
  | adaptive
  | expanded
  | exact

/-- `Drift_track_local_particle`, `drift.h:13-40`; `useExact` says whether
`XTRACK_USE_EXACT_DRIFTS` is defined. -/
def driftElement (useExact : Bool) (model : DriftModel) (length : ℝ) (backtrack : Bool)
    (p : Part) : Part :=
  let l := if backtrack then -length else length
  if useExact then driftExact p l
  else
    match model with
    | .adaptive => driftExpanded p l
    | .expanded => driftExpanded p l
    | .exact => driftExact p l

/-- `Translation_track_local_particle`, `translation.h:13-27`. -/
def translationElement (sx sy : ℝ) (backtrack : Bool) (p : Part) : Part :=
  xyShift p (if backtrack then -sx else sx) (if backtrack then -sy else sy)

/-- `ZetaShift_track_local_particle`, `zetashift.h:13-25`. -/
def zetaShiftElement (dzeta : ℝ) (backtrack : Bool) (p : Part) : Part :=
  { p with zeta := p.zeta - (if backtrack then -dzeta else dzeta) }

/-- `XRotation_track_local_particle`, `xrotation.h:13-28`, for the trigonometric
values of `angle`. -/
def xRotationElement (angle : ℝ) (backtrack : Bool) (p : Part) : Part :=
  if backtrack then xRot p (-Real.sin angle) (Real.cos angle) (-Real.tan angle)
  else xRot p (Real.sin angle) (Real.cos angle) (Real.tan angle)

/-- `YRotation_track_local_particle`, `yrotation.h:13-28`. -/
def yRotationElement (angle : ℝ) (backtrack : Bool) (p : Part) : Part :=
  if backtrack then yRot p (-Real.sin angle) (Real.cos angle) (-Real.tan angle)
  else yRot p (Real.sin angle) (Real.cos angle) (Real.tan angle)

/-- `SRotation_track_local_particle`, `srotation.h:13-26`. -/
def sRotationElement (angle : ℝ) (backtrack : Bool) (p : Part) : Part :=
  if backtrack then sRot p (-Real.sin angle) (Real.cos angle)
  else sRot p (Real.sin angle) (Real.cos angle)

/-- The axes of `Rotation` (`_common.py`, `_ROT_AX_TO_ID`). -/
inductive Axis where
  | x
  | y
  | s

/-- One pass of the loop of `Rotation_track_local_particle`, `rotation.h:37-61`. -/
def rotStep (rs rx ry : ℝ) (p : Part) : Axis → Part
  | .x => if rx ≠ 0 then xRot p (Real.sin rx) (Real.cos rx) (Real.tan rx) else p
  | .y => if ry ≠ 0 then yRot p (Real.sin ry) (Real.cos ry) (Real.tan ry) else p
  | .s => if rs ≠ 0 then sRot p (Real.sin rs) (Real.cos rs) else p

/-- `Rotation_track_local_particle`, `rotation.h:12-65`. -/
def rotationElement (rs rx ry : ℝ) (first second third : Axis) (backtrack : Bool)
    (p : Part) : Part :=
  if backtrack then [third, second, first].foldl (rotStep (-rs) (-rx) (-ry)) p
  else [first, second, third].foldl (rotStep rs rx ry) p

/-! ## Elements with transformations -/

/-- What the template `track_local_particle_with_transformations.h` knows of an
element: the misalignment parameters (for a slice those of the parent), the
weight and the offset of the slice (1 and 0 for an element that is not a slice; the
weight of the edge slices is 0), whether it is thick (`base_element.py:104-110`;
`slice_elements_thin.py` and `slice_elements_edge.py` are not), and, for a curved
element, angle and curvature of the (parent) element. -/
structure Placed where
  mis : Mis
  weight : ℝ
  sliceOffset : ℝ
  thick : Bool
  curved : Option (ℝ × ℝ)

/-- The arguments `MISALIGN_FUNCTION_ARGS`,
`track_local_particle_with_transformations.h:52-88`, with the length of lines 106-114
and the anchor of lines 148-151. -/
def sliceMis (e : Placed) : Mis :=
  { e.mis with
    anchor := e.mis.anchor - e.sliceOffset
    length := (if e.thick then e.mis.length else 0) * e.weight }

/-- `TRACK_MISALIGN_ENTRY`. -/
def misalignEntry (e : Placed) (backtrack : Bool) (p : Part) : Part :=
  match e.curved with
  | some (angle, h) => entryCurved (sliceMis e) (angle * e.weight) h backtrack p
  | none => entryStraight (sliceMis e) backtrack p

/-- `TRACK_MISALIGN_EXIT`. -/
def misalignExit (e : Placed) (backtrack : Bool) (p : Part) : Part :=
  match e.curved with
  | some (angle, h) => exitCurved (sliceMis e) (angle * e.weight) h backtrack p
  | none => exitStraight (sliceMis e) backtrack p

/-- `rot_shift_active`, `track_local_particle_with_transformations.h:206-213`. -/
def active (m : Mis) : Prop :=
  m.dx ≠ 0 ∨ m.dy ≠ 0 ∨ m.ds ≠ 0 ∨ m.phi ≠ 0 ∨ m.theta ≠ 0 ∨ m.tilt ≠ 0 ∨ m.psi ≠ 0

open Classical in
/-- `..._track_local_particle_with_transformations`,
`track_local_particle_with_transformations.h:98-222`; `body` is the tracking
function of the element in its own frame.  The refusal of rotations for thin slices
of curved elements (lines 139-146) is not modelled: the theorems on them assume that
there is none. -/
def trackPlaced (e : Placed) (body : Bool → Part → Part) (backtrack : Bool) (p : Part) : Part :=
  if active e.mis then
    if !backtrack then misalignExit e backtrack (body backtrack (misalignEntry e backtrack p))
    else misalignEntry e backtrack (body backtrack (misalignExit e backtrack p))
  else body backtrack p

end

end Verif.Frames
