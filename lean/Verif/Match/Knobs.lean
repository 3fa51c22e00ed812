import Mathlib.Data.Real.Basic
import Mathlib.Data.List.Basic
import Mathlib.Tactic.Ring
import Mathlib.Tactic.NormNum
import Mathlib.Tactic.Linarith
import Mathlib.Tactic.FieldSimp

/-!
# Knobs made by matching (C125)

Modelled: `KnobOptimizer.__init__` and `generate_knob` of `/repo/xtrack/match.py`, lines 1281-1304 and 1324-1344, together with assignments by the user.

Simplifications: real numbers.  A variable is the sum of an expression of the user (any function of the numeric variables, among which are the knobs) and of the
auxiliary variables which were added to it with `+=` (line 1298).  The auxiliary variable `vv.name + '_from_' + knob_name` is the pair of the two names.  The
solver is any function which gives the value of each auxiliary variable which it found.
-/

namespace Verif.Match

/-- An auxiliary variable: a number, or the expression `c * knob - off` of `generate_knob`. -/
inductive Aux where
  | num (x : ℝ)
  | lin (c off : ℝ)

/-- The variables of an environment. -/
structure Env where
  /-- numeric variables -/
  knob : String → ℝ
  /-- expressions of the user -/
  base : String → (String → ℝ) → ℝ
  /-- auxiliary variables which were added to the expression of a variable, by the name of their knob -/
  terms : String → List String
  aux : String × String → Option Aux

noncomputable section

/-- Value of an auxiliary variable. -/
def auxVal (E : Env) (v k : String) : ℝ :=
  match E.aux (v, k) with
  | none => 0
  | some (.num x) => x
  | some (.lin c off) => c * E.knob k - off

/-- Value of a variable, `line[v]`. -/
def value (E : Env) (v : String) : ℝ := E.base v E.knob + ((E.terms v).map (auxVal E v)).sum

/-- `line[k] = x` for a numeric variable. -/
def setKnob (E : Env) (k : String) (x : ℝ) : Env := { E with knob := fun j => if j = k then x else E.knob j }

/-- `line[v] = x` for a variable with an expression: it is replaced. -/
def assign (E : Env) (v : String) (f : (String → ℝ) → ℝ) : Env :=
  { E with base := fun w => if w = v then f else E.base w, terms := fun w => if w = v then [] else E.terms w }

def setAux (E : Env) (v k : String) (a : Aux) : Env := { E with aux := fun q => if q = (v, k) then some a else E.aux q }

def addTerm (E : Env) (v k : String) : Env := { E with terms := fun w => if w = v then E.terms w ++ [k] else E.terms w }

/-- The loop of `__init__`, lines 1287-1298, for one variable: the auxiliary variable is set to zero, and added to the variable if it is not there. -/
def prepare1 (k : String) (E : Env) (v : String) : Env :=
  if (E.aux (v, k)).isSome ∧ k ∈ E.terms v then setAux E v k (.num 0) else addTerm (setAux E v k (.num 0)) v k

/-- The loop of `__init__` over `vary`. -/
def prepare (k : String) (vary : List String) (E : Env) : Env := vary.foldl (prepare1 k) E

/-- What the solver leaves: a number in each auxiliary variable. -/
def solved (k : String) (sol : String → ℝ) (vary : List String) (E : Env) : Env := vary.foldl (fun E v => setAux E v k (.num (sol v))) E

/-- The loop of `generate_knob`, lines 1333-1341, for one variable. -/
def generate1 (k : String) (k0 k1 : ℝ) (E : Env) (v : String) : Env :=
  let x := auxVal E v k
  setAux E v k (.lin (x / (k1 - k0)) (if k0 ≠ 0 then x / (k1 - k0) * k0 else 0))

/-- `generate_knob`, lines 1324-1343. -/
def generate (k : String) (k0 k1 : ℝ) (vary : List String) (E : Env) : Env :=
  setKnob (vary.foldl (generate1 k k0 k1) (setKnob E k k1)) k k0

/-- `match_knob`, `/repo/xtrack/match.py` lines 1181-1190, when the solver finds `sol`. -/
def matchKnob (k : String) (k0 k1 : ℝ) (vary : List String) (sol : String → ℝ) (E : Env) : Env :=
  generate k k0 k1 vary (solved k sol vary (prepare k vary E))

/-- Limits of the auxiliary variable which stands for a variable with the limits `(lo, hi)`: `vv.__dict__.copy()` with another name only, lines 1300-1302. -/
def auxLimits (limits : ℝ × ℝ) : ℝ × ℝ := limits

/-- What a user does with the variables. -/
inductive Op where
  | setKnob (k : String) (x : ℝ)
  | assign (v : String) (f : (String → ℝ) → ℝ)
  | prepare (k : String) (vary : List String)
  | solved (k : String) (sol : String → ℝ) (vary : List String)
  | generate (k : String) (k0 k1 : ℝ) (vary : List String)

def step (E : Env) : Op → Env
  | .setKnob k x => setKnob E k x
  | .assign v f => assign E v f
  | .prepare k vary => prepare k vary E
  | .solved k sol vary => solved k sol vary E
  | .generate k k0 k1 vary => generate k k0 k1 vary E

end

end Verif.Match
