import Mathlib.Analysis.SpecialFunctions.Trigonometric.Basic

/-!
# The geometry fields of `Bend` and `RBend`

Source: /repo/xtrack/beam_elements/_common.py 559-743 (`_BendCommon`), bend.py (constructor), rbend.py (constructor, setters).

Simplification: numbers are real numbers.  Setters which raise (`h`, a string other than `from_h` for `k0`, `length` of an `RBend`) leave
the element unchanged; they are not operations here.
-/

namespace Verif.Magnets

noncomputable section

/-- What is written to `k0` or read from it: the string `from_h` or a number. -/
inductive K0
  | fromH
  | num (v : ℝ)

/-! ## Bend -/

/-- The stored fields of a `Bend`: `_angle`, `_length`, `_h`, `_k0`, `_k0_from_h`; _common.py:568-614. -/
structure BendState where
  angle : ℝ
  length : ℝ
  h : ℝ
  k0 : ℝ
  fromH : Bool

/-- A new element without arguments. -/
def BendState.init : BendState := ⟨0, 0, 0, 0, true⟩

/-- The setter of `k0_from_h`; _common.py:676-682. -/
def BendState.setFromH (b : BendState) (v : Bool) : BendState :=
  let k0 := if v then b.h else if b.fromH then 0 else b.k0
  { b with k0 := k0, fromH := v }

/-- The setter of `k0`; _common.py:660-668. -/
def BendState.setK0 (b : BendState) : K0 → BendState
  | .fromH => b.setFromH true
  | .num v => { b.setFromH false with k0 := v }

/-- The getter of `k0`; _common.py:654-658. -/
def BendState.getK0 (b : BendState) : K0 := if b.fromH then .fromH else .num b.k0

open Classical in
/-- The setter of `angle`; _common.py:622-628. -/
def BendState.setAngle (b : BendState) (v : ℝ) : BendState :=
  if b.length ≠ 0 then
    { b with angle := v, h := v / b.length, k0 := if b.fromH then v / b.length else b.k0 }
  else { b with angle := v }

open Classical in
/-- The setter of `length`; _common.py:634-643. -/
def BendState.setLength (b : BendState) (v : ℝ) : BendState :=
  let h := if v ≠ 0 then b.angle / v else 0
  { b with length := v, h := h, k0 := if b.fromH then h else b.k0 }

/-- What the user assigns. -/
inductive BendOp
  | angle (v : ℝ)
  | length (v : ℝ)
  | k0 (v : K0)
  | fromH (v : Bool)

/-- One assignment. -/
def BendState.step (b : BendState) : BendOp → BendState
  | .angle v => b.setAngle v
  | .length v => b.setLength v
  | .k0 v => b.setK0 v
  | .fromH v => b.setFromH v

/-- A history of assignments. -/
def BendState.run (b : BendState) (ops : List BendOp) : BendState := ops.foldl BendState.step b

/-- The constructor, called with some of the arguments: `length`, `angle`, `k0_from_h`, `k0` are set in this order; bend.py:81-103. -/
def Bend.make (length angle : Option ℝ) (fromH : Option Bool) (k0 : Option K0) : BendState :=
  let b0 := BendState.init
  let b1 := match length with | none => b0 | some v => b0.setLength v
  let b2 := match angle with | none => b1 | some v => b1.setAngle v
  let b3 := match fromH with | none => b2 | some v => b2.setFromH v
  match k0 with | none => b3 | some v => b3.setK0 v

/-- What is stored in a dictionary for these fields (`h` and `k0_from_h` are skipped); _common.py:565. -/
structure BendDict where
  length : ℝ
  angle : ℝ
  k0 : K0

/-- `to_dict`. -/
def BendState.toDict (b : BendState) : BendDict := ⟨b.length, b.angle, b.getK0⟩

/-- `from_dict`; _common.py:727-743. -/
def Bend.fromDict (d : BendDict) : BendState := Bend.make (some d.length) (some d.angle) none (some d.k0)

/-- `from_dict` of a dictionary written by an old version, with `h` and `k0_from_h`; _common.py:733-743. -/
def Bend.fromOldDict (length h : ℝ) (fromH : Bool) (k0 : ℝ) : BendState :=
  if fromH then Bend.make (some length) (some (h * length)) none (some .fromH)
  else Bend.make (some length) (some (h * length)) (some false) (some (.num k0))

/-! ## RBend -/

/-- The stored fields of an `RBend`. -/
structure RBendState where
  angle : ℝ
  lengthStraight : ℝ
  angleDiff : ℝ
  length : ℝ
  h : ℝ
  k0 : ℝ
  fromH : Bool

/-- A new element without arguments. -/
def RBendState.init : RBendState := ⟨0, 0, 0, 0, 0, 0, true⟩

/-- `h` and `length` as calculated by `_update_rbend_h_length_k0`; rbend.py:192-212. -/
def rbendH (angle ls diff : ℝ) : ℝ :=
  let tin := 0.5 * angle - diff / 2
  let tout := 0.5 * angle + diff / 2
  if |angle| < 1e-10 then 0 else if |ls| < 1e-10 then 0 else (Real.sin tin + Real.sin tout) / ls

/-- See `rbendH`. -/
def rbendLength (angle ls diff : ℝ) : ℝ :=
  if |angle| < 1e-10 then ls else if |ls| < 1e-10 then 0 else angle / rbendH angle ls diff

/-- `_update_rbend_h_length_k0`; rbend.py:192-217. -/
def RBendState.update (b : RBendState) : RBendState :=
  let h := rbendH b.angle b.lengthStraight b.angleDiff
  { b with h := h, length := rbendLength b.angle b.lengthStraight b.angleDiff, k0 := if b.fromH then h else b.k0 }

/-- The setter of `k0_from_h`; _common.py:676-682. -/
def RBendState.setFromH (b : RBendState) (v : Bool) : RBendState :=
  let k0 := if v then b.h else if b.fromH then 0 else b.k0
  { b with k0 := k0, fromH := v }

/-- The setter of `k0`; _common.py:660-668. -/
def RBendState.setK0 (b : RBendState) : K0 → RBendState
  | .fromH => b.setFromH true
  | .num v => { b.setFromH false with k0 := v }

/-- The getter of `k0`; _common.py:654-658. -/
def RBendState.getK0 (b : RBendState) : K0 := if b.fromH then .fromH else .num b.k0

/-- What the user assigns. -/
inductive RBendOp
  | angle (v : ℝ)
  | lengthStraight (v : ℝ)
  | angleDiff (v : ℝ)
  | k0 (v : K0)
  | fromH (v : Bool)

/-- One assignment; rbend.py:169-190. -/
def RBendState.step (b : RBendState) : RBendOp → RBendState
  | .angle v => { b with angle := v }.update
  | .lengthStraight v => { b with lengthStraight := v }.update
  | .angleDiff v => { b with angleDiff := v }.update
  | .k0 v => b.setK0 v
  | .fromH v => b.setFromH v

/-- A history of assignments. -/
def RBendState.run (b : RBendState) (ops : List RBendOp) : RBendState := ops.foldl RBendState.step b

/-- The dictionary of an `RBend`. -/
structure RBendDict where
  lengthStraight : ℝ
  angle : ℝ
  angleDiff : ℝ
  k0 : K0

/-- `to_dict`; rbend.py:301-309. -/
def RBendState.toDict (b : RBendState) : RBendDict := ⟨b.lengthStraight, b.angle, b.angleDiff, b.getK0⟩

/-- `from_dict` through the constructor, which sets `length_straight`, `angle`, `rbend_angle_diff`, `k0` in this order;
rbend.py:120-154. -/
def RBend.fromDict (d : RBendDict) : RBendState :=
  RBendState.init.run [.lengthStraight d.lengthStraight, .angle d.angle, .angleDiff d.angleDiff, .k0 d.k0]

/-- `_x0_mid`, with `rbend_shift` and `rbend_compensate_sagitta`; rbend.py:246-251. -/
def RBendState.x0Mid (b : RBendState) (shift : ℝ) (comp : Bool) : ℝ :=
  if |b.angle| > 1e-10 ∧ comp then -shift + 0.5 / b.h * (1 - Real.cos (b.angle / 2)) else -shift

/-- `_x0_in`; rbend.py:253-262. -/
def RBendState.x0In (b : RBendState) (shift : ℝ) (comp : Bool) : ℝ :=
  let t := 0.5 * b.angle - b.angleDiff / 2
  if |b.angle| > 1e-10 then
    b.x0Mid shift comp - 1 / b.h * (Real.sqrt (1 - (Real.sin t - b.h * b.lengthStraight / 2) ^ 2) - Real.cos t)
  else b.x0Mid shift comp

/-- `_x0_out`; rbend.py:264-273. -/
def RBendState.x0Out (b : RBendState) (shift : ℝ) (comp : Bool) : ℝ :=
  let t := 0.5 * b.angle + b.angleDiff / 2
  if |b.angle| > 1e-10 then
    b.x0Mid shift comp + 1 / b.h * (Real.cos t - Real.sqrt (1 - (Real.sin t - b.h * b.lengthStraight / 2) ^ 2))
  else b.x0Mid shift comp

end

end Verif.Magnets
