import Mathlib.Data.Real.Basic
import Mathlib.Algebra.BigOperators.Group.List.Basic
import Mathlib.Data.List.GetD
import Mathlib.Tactic.Ring
import Mathlib.Tactic.NormNum
import Mathlib.Tactic.LinearCombination

/-!
# Reported strengths of the elements of a line (C123)

Modelled: `LineAttr`, `LineAttrItem.get_full_array` and the derived fields `k0l` .. `k5l`, `k0sl` .. `k5sl`, `length`, `angle`, `hkick` and `vkick` of
`/repo/xtrack/line.py`, lines 7325-7460, 7973-8135, 8322-8388, 8443-8485; the columns `element_type` and `parent_type` of the table of the line, lines 925-950;
`Replica.resolve` of `/repo/xtrack/base_element.py`, lines 638-655; `get_total_knl_ksl` and `main_strength` of `/repo/xtrack/beam_elements/_common.py`,
lines 370-405, 614-616, and of the files of the elements.  The kicks which tracking gives are those of
`/repo/xtrack/beam_elements/elements_src/track_magnet_kick.h`, lines 60-95, with the arguments in the headers of the elements.

Simplifications: real numbers; `delta_taper` is zero; an attribute which a class does not have is zero in the model, as in the arrays of the code.
-/

namespace Verif.Attr

/-- Classes of magnets.  `other`: no relative strengths and no main component (`Magnet`, solenoids, ...). -/
inductive Kind where
  | bend | rbend | quad | sext | oct | multipole | other
  deriving DecidableEq

/-- Kinds of slices. -/
inductive SliceKind where
  | thin | thick | drift | entry | exit
  deriving DecidableEq

/-- Fields of an element; `false` is normal, `true` is skew. -/
structure Mag where
  kind : Kind
  length : ℝ
  /-- `k0` .. `k5`, `k0s` .. `k5s` -/
  k : Bool → ℕ → ℝ
  /-- `knl`, `ksl` -/
  kl : Bool → List ℝ
  /-- `knl_rel`, `ksl_rel` -/
  rel : Bool → List ℝ
  mainOrder : ℕ
  mainIsSkew : Bool
  h : ℝ
  hxl : ℝ
  /-- `rbend_model == 2` -/
  straightBody : Bool
  rbendAngleDiff : ℝ

/-- Elements in the dictionary of the line; the parent of a slice is the element to which its field `_parent` refers. -/
inductive El where
  | mag (m : Mag)
  | slice (k : SliceKind) (parent : Mag) (weight : ℝ)
  | replica (parent : String)

abbrev Dict := String → Option El

/-- `Replica.resolve`, base_element.py:638-655, for chains of at most `n` replicas. -/
def resolve (d : Dict) : ℕ → El → Option El
  | n + 1, .replica p => (d p).bind (resolve d n)
  | 0, .replica _ => none
  | _, e => some e

/-- Names of classes, as far as `_main_strength_from_attr` distinguishes them. -/
inductive ClassName where
  | mag (k : Kind)
  | slice (s : SliceKind) (k : Kind)
  | replica
  deriving DecidableEq

def className : El → ClassName
  | .mag m => .mag m.kind
  | .slice s p _ => .slice s p.kind
  | .replica _ => .replica

/-- Column `parent_type`, lines 930-945: for a replica the class of the element named by `parent_name`, for a slice the class of the parent. -/
def parentType (d : Dict) : El → Option ClassName
  | .mag _ => none
  | .slice _ p _ => some (.mag p.kind)
  | .replica n => (d n).map className

/-- What the arrays of `LineAttr` hold for one element of the line.  The fields are those of the resolved element (lines 8013-8017); `_inherit_strengths` is
taken from the element in the dictionary (lines 8113-8116). -/
structure Row where
  own : Option Mag
  parent : Option Mag
  weight : ℝ
  inherit : ℝ
  elementType : ClassName
  parentType : Option ClassName

/-- `_inherit_strengths` of the classes: slice_elements_thin.py:23, slice_elements_thick.py:22, slice_elements_drift.py:23, slice_elements_edge.py:40. -/
def inheritStrengths : El → ℝ
  | .slice .thin _ _ => 1
  | .slice .thick _ _ => 1
  | _ => 0

def rowOf (d : Dict) (e r : El) : Row where
  own := match r with | .mag m => some m | _ => none
  parent := match r with | .slice _ p _ => some p | _ => none
  weight := match r with | .slice _ _ w => w | _ => 0
  inherit := inheritStrengths e
  elementType := className r
  parentType := parentType d e

def Row.ownF (r : Row) (f : Mag → ℝ) : ℝ := match r.own with | some m => f m | none => 0
def Row.parentF (r : Row) (f : Mag → ℝ) : ℝ := match r.parent with | some m => f m | none => 0

/-- An entry of `knl`, ...; zero when the array is shorter (line 8043). -/
def entry (l : List ℝ) (n : ℕ) : ℝ := l.getD n 0

/-- `_k0l_no_rel`, ...: lines 7359-7455. -/
def Row.noRel (r : Row) (s : Bool) (n : ℕ) : ℝ :=
  r.ownF (fun m => entry (m.kl s) n) + r.ownF (fun m => m.k s n) * r.ownF Mag.length
    + r.parentF (fun m => entry (m.kl s) n) * r.weight * r.inherit
    + r.parentF (fun m => m.k s n) * r.parentF Mag.length * r.weight * r.inherit

/-- `_k0l_rel`, ... -/
def Row.rel (r : Row) (s : Bool) (n : ℕ) : ℝ := r.ownF (fun m => entry (m.rel s) n) + r.parentF (fun m => entry (m.rel s) n)

/-- Classes with an implicit main order, lines 8454-8464. -/
def implicitOrder (k : Kind) (n : ℕ) : Bool :=
  match n, k with
  | 0, .bend => true
  | 0, .rbend => true
  | 1, .quad => true
  | 2, .sext => true
  | 3, .oct => true
  | _, _ => false

def Row.maskType (r : Row) (n : ℕ) : Bool :=
  (match r.elementType with | .mag k => implicitOrder k n | _ => false) || (match r.parentType with | some (.mag k) => implicitOrder k n | _ => false)

/-- `main_order` and `mask_take_main_order`: only `Multipole` has the field. -/
def orderOf (m : Mag) : ℕ := if m.kind = .multipole then m.mainOrder else 0
def Row.mainOrder (r : Row) : ℕ := (match r.own with | some m => orderOf m | none => 0) + (match r.parent with | some m => orderOf m | none => 0)
def Row.takeMain (r : Row) : Bool :=
  (match r.own with | some m => m.kind = .multipole | none => false) || (match r.parent with | some m => m.kind = .multipole | none => false)

/-- One pass of the loop of lines 8450-8478 over the orders, for the normal or the skew array. -/
def Row.mainStep (r : Row) (s : Bool) (n : ℕ) (v : ℝ) : ℝ :=
  let v := if r.maskType n then
      r.ownF (fun m => m.k s n) * r.ownF Mag.length + r.parentF (fun m => m.k s n) * r.parentF Mag.length * r.weight * r.inherit
    else v
  if r.mainOrder = n ∧ r.takeMain = true then r.noRel s n else v

/-- `MAX_ORDER`, line 8448. -/
abbrev maxOrder : ℕ := 5

def Row.mainLoop (r : Row) (s : Bool) : ℝ := (List.range (maxOrder + 1)).foldl (fun v n => r.mainStep s n v) 0

/-- `main_is_skew`, line 8480. -/
def Row.mainIsSkew (r : Row) : Bool :=
  (match r.own with | some m => m.mainIsSkew | none => false) || (match r.parent with | some m => m.mainIsSkew | none => false)

/-- `_main_strength_from_attr`, lines 8443-8485. -/
def Row.main (r : Row) : ℝ := if r.mainIsSkew then r.mainLoop true else r.mainLoop false

/-- `k0l`, `k0sl`, ... -/
def Row.kl (r : Row) (s : Bool) (n : ℕ) : ℝ := r.noRel s n + r.rel s n * r.main

/-- `line.attr['k<n>l']` (`k<n>sl`) for the element `e` of the line; `none`: the chain of replicas does not end in `fuel` steps. -/
def attrKl (d : Dict) (fuel : ℕ) (e : El) (s : Bool) (n : ℕ) : Option ℝ := (resolve d fuel e).map fun r => (rowOf d e r).kl s n

/-- `line.attr['length']`, line 7327. -/
def Row.length (r : Row) : ℝ := r.ownF Mag.length + r.parentF Mag.length * r.weight

def attrLength (d : Dict) (fuel : ℕ) (e : El) : Option ℝ := (resolve d fuel e).map fun r => (rowOf d e r).length

/-- `_angle_force_body_from_attr`, lines 8322-8345. -/
def Row.angleBody (r : Row) : ℝ :=
  r.ownF Mag.hxl + r.ownF Mag.h * r.ownF Mag.length
    + (r.parentF Mag.hxl * r.weight + r.parentF Mag.h * r.parentF Mag.length * r.weight) * r.inherit

/-- `_angle_rbend_correction_from_attr`, lines 8347-8385. -/
noncomputable def Row.angle (r : Row) : ℝ :=
  let straight : Bool := match r.parent with | some m => m.straightBody | none => false
  if straight = true then
    match r.elementType with
    | .slice .thin .rbend => 0
    | .slice .thick .rbend => 0
    | .slice .entry .rbend => 0.5 * (r.parentF Mag.h * r.parentF Mag.length - r.parentF Mag.rbendAngleDiff)
    | .slice .exit .rbend => 0.5 * (r.parentF Mag.h * r.parentF Mag.length + r.parentF Mag.rbendAngleDiff)
    | _ => r.angleBody
  else r.angleBody

noncomputable def attrAngle (d : Dict) (fuel : ℕ) (e : El) : Option ℝ := (resolve d fuel e).map fun r => (rowOf d e r).angle

/-- `hkick` and `vkick`, lines 7459-7460. -/
noncomputable def attrHkick (d : Dict) (fuel : ℕ) (e : El) : Option ℝ :=
  (resolve d fuel e).map fun r => (rowOf d e r).angle - (rowOf d e r).kl false 0

/-! ## What tracking does -/

/-- `rel_ref_strength`: bend.h:32, rbend.h:32, quadrupole.h:32, sextupole.h:32, octupole.h:32, multipole.h:31, magnet.h:32. -/
def refStrength (m : Mag) : ℝ :=
  match m.kind with
  | .bend => m.k false 0 * m.length
  | .rbend => m.k false 0 * m.length
  | .quad => m.length * m.k m.mainIsSkew 1
  | .sext => m.length * m.k m.mainIsSkew 2
  | .oct => m.length * m.k m.mainIsSkew 3
  | .multipole => entry (m.kl m.mainIsSkew) m.mainOrder
  | .other => 0

/-- Total strength of order `n` which the three calls of `kick_simple_single_particle` in track_magnet_kick.h give to the particles in a whole pass, for the body
of weight `w`: `knl * factor_knl_ksl`, `knl_rel * factor_knl_ksl * rel_ref_strength` and `k * length`, where `factor_knl_ksl` and the length carry the weight. -/
def bodyKick (m : Mag) (w : ℝ) (s : Bool) (n : ℕ) : ℝ :=
  entry (m.kl s) n * w + entry (m.rel s) n * (w * refStrength m) + m.k s n * (m.length * w)

/-- The kick which an element of the line gives.  Slices of edges and drifts have no body of the magnet; a replica is tracked as the element which it stands
for (tracker_data.py:107-111). -/
def tracked (s : Bool) (n : ℕ) : El → ℝ
  | .mag m => bodyKick m 1 s n
  | .slice .thin p w => bodyKick p w s n
  | .slice .thick p w => bodyKick p w s n
  | .slice _ _ _ => 0
  | .replica _ => 0

/-- `get_total_knl_ksl` of an element, _common.py:370-405; here without the padding with zeros. -/
def totalKl (m : Mag) (s : Bool) (n : ℕ) : ℝ := entry (m.kl s) n + refStrength m * entry (m.rel s) n + m.k s n * m.length

/-- The fields which the classes have: only `Multipole` has no `k<n>`, bends have no `main_is_skew`, and `other` has no relative strengths. -/
structure WF (m : Mag) : Prop where
  mult : m.kind = .multipole → ∀ s n, m.k s n = 0
  bend : m.kind = .bend ∨ m.kind = .rbend → m.mainIsSkew = false
  other : m.kind = .other → ∀ s, m.rel s = []

end Verif.Attr
