import Mathlib.Data.List.Basic
import Mathlib.Tactic.NormNum

/-!
# MAD-X beam lines: C143

`name: line = (a, 2*b, -c, 3*(d, e), ...)`: the grammar `xtrack/mad_parser/madx.lark:31-39`, `Modifiers`, `line_element`, `anonymous_line`
(`xtrack/mad_parser/parse.py:50-62,205-240`) and `MadxLoader._parse_lines`, `_parse_line_components` (`xtrack/mad_parser/loader.py:245-286,357-398`),
with the product and the change of sign of lines (`xtrack/line.py:5913-5927`) as they act on a line loaded from MAD-X.

Names are numbers. Not modelled: a name which is not defined (`KeyError`) and a number of repetitions which is zero
(`AssertionError` for a line).
-/

namespace Verif.Mad.Lines

/-- What a line consists of: elements, and apertures installed for them. -/
inductive Piece
  | el (n : ℕ)
  | ap (n : ℕ)
deriving DecidableEq

/-- What a name stands for: an element, which can have an aperture, or a line defined before, with its contents. -/
inductive Kind
  | elem (aperture : Option ℕ)
  | line (pieces : List Piece)

/-- The text between the parentheses: names and inner parentheses, each with a number of repetitions and a sign. -/
inductive Items
  | nil
  | ref (rep : ℕ) (inv : Bool) (n : ℕ) (rest : Items)
  | nest (rep : ℕ) (inv : Bool) (sub : Items) (rest : Items)

/-- `n * list` -/
def times {α : Type} (n : ℕ) (l : List α) : List α := (List.replicate n l).flatten

/-- The components handed to `env.new_line`: pieces, and objects `Line` with their contents. -/
inductive Comp
  | piece (p : Piece)
  | obj (pieces : List Piece)

/-- The elements of a component. -/
def Comp.pieces : Comp → List Piece
  | .piece p => [p]
  | .obj l => l

/-- `[aper_name, name]`, loader.py:389-393. -/
def single (limits : Bool) (n : ℕ) : Option ℕ → List Comp
  | some a => if limits then [.piece (.ap a), .piece (.el n)] else [.piece (.el n)]
  | none => [.piece (.el n)]

/-- `_parse_line_components`, loader.py:357-398. A line is multiplied and then reversed; the list of the components of an inner
parenthesis is reversed and then multiplied. -/
def parse (limits : Bool) (look : ℕ → Kind) : Items → List Comp
  | .nil => []
  | .ref rep inv n rest =>
    (match look n with
      | .line l => [.obj (if inv then (times rep l).reverse else times rep l)]
      | .elem a => times rep (single limits n a)) ++ parse limits look rest
  | .nest rep inv sub rest =>
    times rep (if inv then (parse limits look sub).reverse else parse limits look sub) ++ parse limits look rest

/-- The contents of the line. -/
def contents (limits : Bool) (look : ℕ → Kind) (i : Items) : List Piece := (parse limits look i).flatMap Comp.pieces

/-- `_parse_lines`, loader.py:245-286: the lines are defined one after the other. -/
def define (limits : Bool) : (ℕ → Kind) → List (ℕ × Items) → ℕ → Kind
  | look, [] => look
  | look, (n, i) :: t => define limits (fun m => if m = n then .line (contents limits look i) else look m) t

/-! ### What MAD-X means -/

/-- In the manual: an element, or a line with the sequence of its elements. -/
inductive Meaning
  | elem
  | line (names : List ℕ)

/-- The sequence of elements: a repetition repeats what follows; a sign reflects it, that is, everything in it is in the opposite
order, including the lines and parentheses inside. -/
def expand (look : ℕ → Meaning) : Items → List ℕ
  | .nil => []
  | .ref rep inv n rest =>
    let body := times rep (match look n with | .line l => l | .elem => [n])
    (if inv then body.reverse else body) ++ expand look rest
  | .nest rep inv sub rest =>
    let body := times rep (expand look sub)
    (if inv then body.reverse else body) ++ expand look rest

/-- The lines of a file one after the other. -/
def expandAll : (ℕ → Meaning) → List (ℕ × Items) → ℕ → Meaning
  | look, [] => look
  | look, (n, i) :: t => expandAll (fun m => if m = n then .line (expand look i) else look m) t

/-- The elements without the apertures. -/
def elements (l : List Piece) : List ℕ := l.filterMap fun | .el n => some n | .ap _ => none

/-- The meaning of what the code holds for a name. -/
def Kind.meaning : Kind → Meaning
  | .elem _ => .elem
  | .line l => .line (elements l)

/-- No line is named. -/
def NoLines (look : ℕ → Meaning) : Items → Prop
  | .nil => True
  | .ref _ _ n rest => look n = .elem ∧ NoLines look rest
  | .nest _ _ sub rest => NoLines look sub ∧ NoLines look rest

/-- No line is named inside a parenthesis with a sign. -/
def Careful (look : ℕ → Meaning) : Items → Prop
  | .nil => True
  | .ref _ _ _ rest => Careful look rest
  | .nest _ inv sub rest => (if inv then NoLines look sub else Careful look sub) ∧ Careful look rest

/-- All lines of the file are so. -/
def AllCareful : (ℕ → Meaning) → List (ℕ × Items) → Prop
  | _, [] => True
  | look, (n, i) :: t => Careful look i ∧ AllCareful (fun m => if m = n then .line (expand look i) else look m) t

/-- No sign. -/
def NoSigns : Items → Prop
  | .nil => True
  | .ref _ inv _ rest => inv = false ∧ NoSigns rest
  | .nest _ inv sub rest => inv = false ∧ NoSigns sub ∧ NoSigns rest

end Verif.Mad.Lines
