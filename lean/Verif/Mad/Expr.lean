import Mathlib.Data.Real.Basic
import Mathlib.Tactic.Linarith
import Mathlib.Tactic.NormNum

/-!
# MAD-X expressions, written and read

The expressions of the grammar `xtrack/mad_parser/madx.lark:69-90` with the actions of `xtrack/mad_parser/parse.py:125-145,253-270`, and
`expr_to_mad_str`, `mad_str_or_value` (`xtrack/mad_writer.py:16-46,56-62`).

Simplifications: the text is a list of tokens (no spaces, line breaks or comments); functions have one argument; the arrow
`element->l` is in `Mad/Order.lean`. The printed form of an `xdeps` expression is outside the repository: as in the examples of
`environment.py:374` and `tests/test_native_madloader.py:441`, every operation is printed between parentheses, a variable as
`vars['name']` and a function as `f.name(...)`.
-/

namespace Verif.Mad

/-- Tokens of an expression. A number is without sign; a name is its characters. -/
inductive Tok
  | num (q : ℚ)
  | name (s : List Char)
  | plus | minus | star | slash | caret | lpar | rpar
deriving DecidableEq

/-- Expressions. -/
inductive E
  | num (q : ℚ)
  | var (s : List Char)
  | neg (a : E)
  | pos (a : E)
  | add (a b : E)
  | sub (a b : E)
  | mul (a b : E)
  | div (a b : E)
  | pow (a b : E)
  | call (f : List Char) (a : E)
deriving DecidableEq

/-- `name.value.lower()`, parse.py:126,143. -/
def lower (s : List Char) : List Char := s.map Char.toLower

mutual
/-- `?atom`, madx.lark:83-90: the sign applies to the atom which follows it. -/
def atom : ℕ → List Tok → Option (E × List Tok)
  | 0, _ => none
  | _ + 1, .num q :: t => some (.num q, t)
  | n + 1, .minus :: t => match atom n t with
    | some (a, t') => some (.neg a, t')
    | none => none
  | n + 1, .plus :: t => match atom n t with
    | some (a, t') => some (.pos a, t')
    | none => none
  | n + 1, .lpar :: t => match sum n t with
    | some (a, .rpar :: t') => some (a, t')
    | _ => none
  | n + 1, .name f :: .lpar :: t => match sum n t with
    | some (a, .rpar :: t') => some (.call (lower f) a, t')
    | _ => none
  | _ + 1, .name s :: t => some (.var (lower s), t)
  | _ + 1, _ => none
/-- `?power: atom | power "^" atom`, madx.lark:80-81. -/
def power : ℕ → List Tok → Option (E × List Tok)
  | 0, _ => none
  | n + 1, t => match atom n t with
    | some (a, t') => powerLoop n a t'
    | none => none
/-- The rest of a power after its first atoms. -/
def powerLoop : ℕ → E → List Tok → Option (E × List Tok)
  | 0, _, _ => none
  | n + 1, a, .caret :: t => match atom n t with
    | some (b, t') => powerLoop n (.pow a b) t'
    | none => none
  | _ + 1, a, t => some (a, t)
/-- `?product: power | product "*" power | product "/" power`, madx.lark:76-78. -/
def product : ℕ → List Tok → Option (E × List Tok)
  | 0, _ => none
  | n + 1, t => match power n t with
    | some (a, t') => productLoop n a t'
    | none => none
/-- The rest of a product. -/
def productLoop : ℕ → E → List Tok → Option (E × List Tok)
  | 0, _, _ => none
  | n + 1, a, .star :: t => match power n t with
    | some (b, t') => productLoop n (.mul a b) t'
    | none => none
  | n + 1, a, .slash :: t => match power n t with
    | some (b, t') => productLoop n (.div a b) t'
    | none => none
  | _ + 1, a, t => some (a, t)
/-- `?sum: product | sum "+" product | sum "-" product`, madx.lark:72-74. -/
def sum : ℕ → List Tok → Option (E × List Tok)
  | 0, _ => none
  | n + 1, t => match product n t with
    | some (a, t') => sumLoop n a t'
    | none => none
/-- The rest of a sum. -/
def sumLoop : ℕ → E → List Tok → Option (E × List Tok)
  | 0, _, _ => none
  | n + 1, a, .plus :: t => match product n t with
    | some (b, t') => sumLoop n (.add a b) t'
    | none => none
  | n + 1, a, .minus :: t => match product n t with
    | some (b, t') => sumLoop n (.sub a b) t'
    | none => none
  | _ + 1, a, t => some (a, t)
end

/-- The reading of a whole text. The depth of the recursion is bounded by the number of tokens. -/
def read (t : List Tok) : Option E := match sum (10 * t.length + 10) t with
  | some (a, []) => some a
  | _ => none

/-- A number as it is printed, with its sign. -/
def numToks (q : ℚ) : List Tok := if q < 0 then [.minus, .num (-q)] else [.num q]

/-- `expr_to_mad_str`, mad_writer.py:16-46: the printed expression in which `vars['x']` becomes `(x)`, `f.sin(` becomes `sin(` and
`**` becomes `^`. -/
def toMad : E → List Tok
  | .num q => numToks q
  | .var s => [.lpar, .name s, .rpar]
  | .neg a => [.lpar, .minus] ++ toMad a ++ [.rpar]
  | .pos a => [.lpar, .plus] ++ toMad a ++ [.rpar]
  | .add a b => [.lpar] ++ toMad a ++ [.plus] ++ toMad b ++ [.rpar]
  | .sub a b => [.lpar] ++ toMad a ++ [.minus] ++ toMad b ++ [.rpar]
  | .mul a b => [.lpar] ++ toMad a ++ [.star] ++ toMad b ++ [.rpar]
  | .div a b => [.lpar] ++ toMad a ++ [.slash] ++ toMad b ++ [.rpar]
  | .pow a b => [.lpar] ++ toMad a ++ [.caret] ++ toMad b ++ [.rpar]
  | .call f a => [.name f, .lpar] ++ toMad a ++ [.rpar]

/-- The characters removed by `strip('._expr')`. -/
def stripped : List Char := ['.', '_', 'e', 'x', 'p', 'r']

/-- `strip` at the beginning of the text. -/
def stripFront : List Tok → List Tok
  | .name s :: t => match s.dropWhile (· ∈ stripped) with
    | [] => stripFront t
    | s' => .name s' :: t
  | t => t

/-- `strip` at the end of the text, given backwards. -/
def stripBack : List Tok → List Tok
  | .name s :: t => match s.reverse.dropWhile (· ∈ stripped) with
    | [] => stripBack t
    | s' => .name s'.reverse :: t
  | t => t

/-- `mad_str_or_value` of an expression, mad_writer.py:56-62: `out.strip('._expr')` removes these *characters* at both ends. -/
def write (e : E) : List Tok := (stripBack (stripFront (toMad e)).reverse).reverse

/-- The value of an expression, for given values of the variables, functions and power. -/
noncomputable def eval (vars : List Char → ℝ) (fn : List Char → ℝ → ℝ) (pw : ℝ → ℝ → ℝ) : E → ℝ
  | .num q => (q : ℝ)
  | .var s => vars s
  | .neg a => -eval vars fn pw a
  | .pos a => eval vars fn pw a
  | .add a b => eval vars fn pw a + eval vars fn pw b
  | .sub a b => eval vars fn pw a - eval vars fn pw b
  | .mul a b => eval vars fn pw a * eval vars fn pw b
  | .div a b => eval vars fn pw a / eval vars fn pw b
  | .pow a b => pw (eval vars fn pw a) (eval vars fn pw b)
  | .call f a => fn f (eval vars fn pw a)

/-- All names in the expression are in lower case. -/
def LowerCase : E → Prop
  | .num _ => True
  | .var s => lower s = s
  | .neg a => LowerCase a
  | .pos a => LowerCase a
  | .add a b => LowerCase a ∧ LowerCase b
  | .sub a b => LowerCase a ∧ LowerCase b
  | .mul a b => LowerCase a ∧ LowerCase b
  | .div a b => LowerCase a ∧ LowerCase b
  | .pow a b => LowerCase a ∧ LowerCase b
  | .call f a => lower f = f ∧ LowerCase a

end Verif.Mad
