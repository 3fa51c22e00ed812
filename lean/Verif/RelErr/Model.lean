/-!
# Relative multipolar errors

Model of `Environment.set_multipolar_errors`, xtrack/environment.py:1552-1645, with `DEFAULT_REF_STRENGTH_NAME` (32-38) and the reading of a
component through a view, which gives its number and not its expression (xtrack/view.py:113-125).

A component of `knl` or `ksl` is a number, or the expression made by this function (a number, plus the error variable of the component
times the reference strength times the length), or any other expression of strengths and length which does not contain the error variable.  Numbers are
rational.
-/

namespace Verif.RelErr

/-- Strengths by name and the length of an element. -/
structure Body where
  strength : String → Rat
  length : Rat

/-- What a component is. -/
inductive Slot
  | num (c : Rat)
  | withErr (c : Rat) (refer : String)
  | other (f : Body → Rat)

/-- A component with its error variable (zero until it is made). -/
structure Comp where
  slot : Slot
  err : Rat

/-- The value of a component. -/
def Comp.value (c : Comp) (b : Body) : Rat :=
  match c.slot with
  | .num x => x
  | .withErr x r => x + c.err * b.strength r * b.length
  | .other f => f b

/-- Classes of elements. -/
inductive Cls
  | bend
  | rbend
  | quadrupole
  | sextupole
  | octupole
  | replica
  | slice
  | others
  deriving DecidableEq

structure Elem where
  cls : Cls
  body : Body
  knl : List Comp
  ksl : List Comp

inductive Err
  | cls
  | refer
  | index
  deriving DecidableEq

/-- `DEFAULT_REF_STRENGTH_NAME`: environment.py:32-38. -/
def defaultRefer : Cls → Option String
  | .bend => some "_k0"
  | .rbend => some "_k0"
  | .quadrupole => some "k1"
  | .sextupole => some "k2"
  | .octupole => some "k3"
  | _ => none

/-- One component: environment.py:1632-1637.  The variable is set first, then the number read through the view is the start of the new
expression. -/
def setErr (b : Body) (refer : String) (e : Rat) (c : Comp) : Comp :=
  let c' : Comp := { c with err := e }
  match c'.slot with
  | .num x => { c' with slot := .withErr x refer }
  | .withErr _ _ => { c' with slot := .withErr (c'.value b) refer }
  | .other _ => c'

/-- The loop over the errors: environment.py:1632-1644; more errors than components are an error of the index. -/
def setErrs (b : Body) (refer : String) : List Rat → List Comp → Except Err (List Comp)
  | [], cs => .ok cs
  | _ :: _, [] => .error .index
  | e :: es, c :: cs => (setErrs b refer es cs).map (setErr b refer e c :: ·)

/-- The errors of an element as given. -/
structure Given where
  knl : List Rat
  ksl : List Rat
  refer : Option String

/-- One element: environment.py:1606-1644. -/
def setElem (g : Given) (x : Elem) : Except Err Elem :=
  if x.cls = .replica ∨ x.cls = .slice then .error .cls
  else
    match g.refer.or (defaultRefer x.cls) with
    | none => .error .refer
    | some r => do
      let knl ← setErrs x.body r g.knl x.knl
      let ksl ← setErrs x.body r g.ksl x.ksl
      .ok { x with knl := knl, ksl := ksl }

/-- All elements: environment.py:1604-1644. -/
def setAll (gs : List (String × Given)) (env : String → Option Elem) : Except Err (String → Option Elem) :=
  gs.foldlM (fun env g =>
    match env g.1 with
    | none => .error .index
    | some x => do
      let y ← setElem g.2 x
      .ok fun n => if n = g.1 then some y else env n) env

end Verif.RelErr
