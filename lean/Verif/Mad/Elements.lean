import Mathlib.Algebra.Order.Ring.Rat
import Mathlib.Data.List.Basic
import Mathlib.Tactic.NormNum
import Mathlib.Tactic.Ring

/-!
# Elements loaded from MAD-X: C145

`name: parent, key = value, ...;` and `name, key = value, ...;`: `get_params`, `MadxLoader._new_element`, `_set_element`,
`_convert_element_params` (`xtrack/mad_parser/loader.py:89-110,382-451,453-588`).

An element is defined by a chain: the definition of its class, of the class derived from it, ..., its own definition and the later
assignments to it. Each link gives some keys; a link makes the element (a copy of the previous one, or the same one) take the converted
values. The values are literal numbers or expressions, of which only the present value matters here (for the later ones see C141).
-/

namespace Verif.Mad

/-- A value in the file. -/
inductive Val
  | num (x : ℚ)
  | expr (x : ℚ)
deriving DecidableEq

/-- The present value. -/
def Val.val : Val → ℚ
  | .num x => x
  | .expr x => x

/-- Whether Python takes it as true: a literal zero is false, an expression is an object and is true. -/
def Val.truthy : Val → Bool
  | .num x => x ≠ 0
  | .expr _ => true

/-- The types of MAD-X with a conversion of their own (some others behave as `other`). -/
inductive Base
  | sbend | rfcavity | crabcavity | dipedge | vkicker | hkicker | kicker | srotation | xrotation | yrotation | translation | other
deriving DecidableEq

/-- The keys of MAD-X. -/
inductive Key
  | l | k0 | k1 | e1 | e2 | fint | fintx | hgap | lag | volt | freq | h | kick | hkick | vkick | angle | dx | dy
deriving DecidableEq

/-- The attributes of xtrack. `knl0` and `ksl0` are the first of the multipole strengths. -/
inductive Attr
  | length | k0 | k1 | k0FromH | edgeEntryAngle | edgeExitAngle | edgeEntryFint | edgeExitFint | edgeEntryHgap | edgeExitHgap
  | phase | voltage | crabVoltage | frequency | e1 | k | ksl0 | knl0 | rotS | rotX | rotY | shiftX | shiftY
deriving DecidableEq

/-- The keys given in a statement. -/
abbrev Given := Key → Option Val

/-- `if (v := params.pop(key, None)): params[attribute] = f(v)` -/
def ifTrue (v : Option Val) (f : ℚ → ℚ) : Option ℚ := match v with
  | some v => if v.truthy then some (f v.val) else none
  | none => none

/-- A key which is only renamed. -/
def renamed (v : Option Val) : Option ℚ := v.map Val.val

/-- `_convert_element_params`, loader.py:473-588: which attributes are set, and to what. `cache` holds what was given in the whole chain,
this statement included; `pi` is the variable of that name. -/
def convert (pi : ℚ) (b : Base) (cache : Given) (p : Given) : Attr → Option ℚ
  -- loader.py:22-32: renamed
  | .length => renamed (p .l)
  | .k0 => renamed (p .k0)
  | .k1 => renamed (p .k1)
  | .edgeEntryAngle => if b = .dipedge then none else renamed (p .e1)
  | .edgeExitAngle => renamed (p .e2)
  | .edgeEntryFint => renamed (p .fint)
  -- loader.py:577-578
  | .edgeExitFint => match p .fintx with
    | some v => some v.val
    | none => renamed (p .fint)
  -- loader.py:494-500; the comparison of an expression with zero is false
  | .k0FromH => if b = .sbend then
      (match cache .k0 with
        | none => some 1
        | some (.num x) => if x = 0 then some 1 else some 0
        | some (.expr _) => some 0)
    else none
  -- loader.py:502-504
  | .edgeEntryHgap => if b = .sbend then ifTrue (p .hgap) id else none
  | .edgeExitHgap => if b = .sbend then ifTrue (p .hgap) id else none
  -- loader.py:506-515
  | .phase => if b = .rfcavity ∨ b = .crabcavity then ifTrue (p .lag) (fun x => x * pi * 2) else none
  | .voltage => if b = .rfcavity then ifTrue (p .volt) (fun x => x * 1000000) else none
  | .crabVoltage => if b = .crabcavity then ifTrue (p .volt) (fun x => x * 1000000) else none
  | .frequency => if b = .rfcavity ∨ b = .crabcavity then ifTrue (p .freq) (fun x => x * 1000000) else none
  -- loader.py:537-541
  | .e1 => if b = .dipedge then ifTrue (p .e1) id else none
  | .k => if b = .dipedge then ifTrue (p .h) id else none
  -- loader.py:543-555
  | .ksl0 => if b = .vkicker then ifTrue (p .kick) id else if b = .kicker then ifTrue (p .vkick) id else none
  | .knl0 => if b = .hkicker then ifTrue (p .kick) (fun x => -x) else if b = .kicker then ifTrue (p .hkick) (fun x => -x) else none
  -- loader.py:559-575
  | .rotS => if b = .srotation then ifTrue (p .angle) id else none
  | .rotX => if b = .xrotation then ifTrue (p .angle) id else none
  | .rotY => if b = .yrotation then ifTrue (p .angle) id else none
  | .shiftX => if b = .translation then ifTrue (p .dx) id else none
  | .shiftY => if b = .translation then ifTrue (p .dy) id else none

/-- `self._parameter_cache[name]`: that of the parent with what is given now, loader.py:385-389,454. -/
def merge (cache p : Given) : Given := fun k => match p k with
  | some v => some v
  | none => cache k

/-- One statement: the copy of the parent (or the element) takes the converted values, loader.py:382-451,453-471. -/
def link (pi : ℚ) (b : Base) (s : Given × (Attr → ℚ)) (p : Given) : Given × (Attr → ℚ) :=
  let cache := merge s.1 p
  (cache, fun a => (convert pi b cache p a).getD (s.2 a))

/-- The element at the end of a chain; the builtin elements have zero for all of these attributes. -/
def element (pi : ℚ) (b : Base) (chain : List Given) : Given × (Attr → ℚ) := chain.foldl (link pi b) (fun _ => none, fun _ => 0)

/-! ### What MAD-X means -/

/-- The value of a key: the one given last. -/
def last (chain : List Given) (k : Key) : Option Val := chain.foldl (fun c p => (p k).or c) none

/-- The value of a key, zero if it was never given. -/
def lastVal (chain : List Given) (k : Key) : ℚ := ((last chain k).map Val.val).getD 0

/-- The key which an attribute stands for, and the change of units or sign. -/
def meaning (pi : ℚ) : Base → Attr → Option (Key × ℚ)
  | .rfcavity, .voltage => some (.volt, 1000000)
  | .rfcavity, .frequency => some (.freq, 1000000)
  | .rfcavity, .phase => some (.lag, 2 * pi)
  | .crabcavity, .crabVoltage => some (.volt, 1000000)
  | .crabcavity, .frequency => some (.freq, 1000000)
  | .crabcavity, .phase => some (.lag, 2 * pi)
  | .vkicker, .ksl0 => some (.kick, 1)
  | .hkicker, .knl0 => some (.kick, -1)
  | .kicker, .ksl0 => some (.vkick, 1)
  | .kicker, .knl0 => some (.hkick, -1)
  | .dipedge, .e1 => some (.e1, 1)
  | .dipedge, .k => some (.h, 1)
  | .srotation, .rotS => some (.angle, 1)
  | .xrotation, .rotX => some (.angle, 1)
  | .yrotation, .rotY => some (.angle, 1)
  | .translation, .shiftX => some (.dx, 1)
  | .translation, .shiftY => some (.dy, 1)
  | .sbend, .edgeEntryHgap => some (.hgap, 1)
  | .sbend, .edgeExitHgap => some (.hgap, 1)
  | _, _ => none

/-- A literal zero is given only where nothing else was given before. -/
def NoReset (chain : List Given) (k : Key) : Prop :=
  ∀ a p b, chain = a ++ p :: b → p k = some (.num 0) → lastVal a k = 0

end Verif.Mad
