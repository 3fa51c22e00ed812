import Mathlib.Algebra.Order.Ring.Rat
import Mathlib.Data.List.Basic
import Mathlib.Tactic.NormNum

/-!
# Sums, multiples and reflections of lines

`-line`, `n * line`, `line1 + line2`, `line1 - line2` (`xtrack/line.py:5898-5945`) for lines in normal mode (a list of names) and in
compose mode (a recipe, `Composer`), with `Composer.build` and `_flatten_components` (`xtrack/composer/composer.py:357-412,762-812`)
for components given one after the other. Places with `at`, `from_` and anchors are in the area `Composer`.
-/

namespace Verif.LineAlg

/-- An element, or a drift added to fill the length of a line. -/
inductive Nm
  | el (n : ℕ)
  | drift (l : ℚ)
deriving DecidableEq

mutual
/-- A line. In compose mode: the components, `mirror` and `length`. -/
inductive L
  | normal (names : List Nm)
  | compose (cs : Cs) (mirror : Bool) (length : Option ℚ)
/-- The components of a line: names and lines. -/
inductive Cs
  | nil
  | name (n : Nm) (t : Cs)
  | line (l : L) (t : Cs)
end

/-- The length of an element. -/
def Nm.len (lens : ℕ → ℚ) : Nm → ℚ
  | .el n => lens n
  | .drift l => l

/-- The length of a list of elements. -/
def total (lens : ℕ → ℚ) (ns : List Nm) : ℚ := (ns.map (Nm.len lens)).sum

/-- The requested length of a line, composer.py:370-385: an exception if the components are longer, a drift at the end if they are
shorter. -/
def pad (lens : ℕ → ℚ) (tol : ℚ) (ns : List Nm) : Option ℚ → Option (List Nm)
  | none => some ns
  | some len =>
    if len + tol < total lens ns then none
    else if total lens ns < len - tol then some (ns ++ [.drift (len - total lens ns)])
    else some ns

mutual
/-- The elements of a line: `composer.build()` in compose mode, composer.py:357-412. -/
def build (lens : ℕ → ℚ) (tol : ℚ) : L → Option (List Nm)
  | .normal ns => some ns
  | .compose cs m len => match flat lens tol cs with
    | none => none
    | some ns => match pad lens tol ns len with
      | none => none
      | some ns' => some (if m then ns'.reverse else ns')
/-- `_flatten_components`, composer.py:762-812. -/
def flat (lens : ℕ → ℚ) (tol : ℚ) : Cs → Option (List Nm)
  | .nil => some []
  | .name n t => match flat lens tol t with
    | none => none
    | some r => some (n :: r)
  | .line l t => match build lens tol l with
    | none => none
    | some ns => match flat lens tol t with
      | none => none
      | some r => some (ns ++ r)
end

/-- `-line`, line.py:5898-5914. -/
def neg : L → L
  | .normal ns => .normal ns.reverse
  | .compose cs m len => .compose cs (!m) len

/-- `[self] * n` -/
def copies (l : L) : ℕ → Cs
  | 0 => .nil
  | n + 1 => .line l (copies l n)

/-- The repeated names of a line in normal mode. -/
def repeated (ns : List Nm) (n : ℕ) : List Nm := (List.replicate n ns).flatten

/-- `n * line`, line.py:5916-5927: in compose mode the composer is copied, with its `mirror` and `length`, and its components are
replaced; `none` is the exception for a number which is not positive. -/
def mul (n : ℕ) (l : L) : Option L :=
  if n = 0 then none else match l with
    | .normal ns => some (.normal (repeated ns n))
    | .compose cs m len => some (if 1 < n then .compose (copies (.compose cs m len) n) m len else .compose cs m len)

/-- `line1 + line2`, line.py:5929-5941. -/
def add (a b : L) : L := match a, b with
  | .normal x, .normal y => .normal (x ++ y)
  | a, b => .compose (.line a (.line b .nil)) false none

/-- `line1 - line2`, line.py:5943-5945. -/
def sub (a b : L) : L := add a (neg b)

end Verif.LineAlg
