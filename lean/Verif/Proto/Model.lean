import Mathlib.Data.Rat.Defs
import Mathlib.Algebra.Order.Ring.Rat
import Mathlib.Tactic.NormNum

/-!
# Elements created from a class or from another element

`Environment.new` (`xtrack/environment.py:309-535`), `Environment.set` (`environment.py:1890-1964`), `_set_kwargs`
(`environment.py:2269-2326`), `_copy_element_from` (`environment.py:846-895`) and `elements.remove` (`environment.py:2675-2699`).

Elements and their attributes are numbered; the attributes are scalars. The variables hold numbers (variables which are themselves
controlled by expressions are not modelled). What the dependency manager of `xdeps` does is outside the repository: it is taken to
keep one expression for each attribute, to evaluate it when it is assigned, and to evaluate again those which depend on a variable
when that variable is assigned.
-/

namespace Verif.Proto

/-- A deferred expression: the variables it mentions and its value. -/
structure Expr where
  deps : List ℕ
  ev : (ℕ → ℚ) → ℚ

/-- What can be given for an attribute: a number or an expression; `_parse_kwargs`, environment.py:2536-2600. -/
inductive Arg
  | num (q : ℚ)
  | expr (e : Expr)

/-- The value of an argument. -/
def Arg.val (vars : ℕ → ℚ) : Arg → ℚ
  | .num q => q
  | .expr e => e.ev vars

/-- The environment: the variables, which elements exist, the value of every attribute of every element, and the expressions kept
by the manager. -/
structure Env where
  vars : ℕ → ℚ
  has : ℕ → Bool
  value : ℕ → ℕ → ℚ
  task : ℕ → ℕ → Option Expr

/-- The keyword arguments of a call. -/
abbrev Kwargs := ℕ → Option Arg

/-- `_set_kwargs(..., isinit=True)`, environment.py:2297-2326: an expression is assigned through the manager; a number is written
on the element, and the manager is left as it is. -/
def initKwargs (s : Env) (n : ℕ) (kw : Kwargs) : Env :=
  { s with
    value := fun m f => if m = n then (match kw f with | none => s.value n f | some a => a.val s.vars) else s.value m f
    task := fun m f => if m = n then (match kw f with | some (.expr e) => some e | _ => s.task n f) else s.task m f }

/-- `_set_kwargs(..., isinit=False)`: numbers too are assigned through the manager, which forgets the expression. -/
def setKwargs (s : Env) (n : ℕ) (kw : Kwargs) : Env :=
  { s with
    value := fun m f => if m = n then (match kw f with | none => s.value n f | some a => a.val s.vars) else s.value m f
    task := fun m f => if m = n then
      (match kw f with | none => s.task n f | some (.num _) => none | some (.expr e) => some e) else s.task m f }

/-- `self.elements[name] = parent(**value_kwargs)`, environment.py:516-517: a new object with the default values. The expressions
which the manager holds for the name are not touched. -/
def instantiate (s : Env) (n : ℕ) (dflt : ℕ → ℚ) : Env :=
  { s with
    has := fun m => if m = n then true else s.has m
    value := fun m f => if m = n then dflt f else s.value m f }

/-- `_copy_element_from`, environment.py:872-893: the object is copied and the expressions of the source are assigned to the copy.
The other expressions which the manager holds for the name are not touched. -/
def copyFrom (s : Env) (n p : ℕ) : Env :=
  { s with
    has := fun m => if m = n then true else s.has m
    value := fun m f => if m = n then (match s.task p f with | none => s.value p f | some e => e.ev s.vars) else s.value m f
    task := fun m f => if m = n then (match s.task p f with | none => s.task n f | some e => some e) else s.task m f }

/-- The calls. -/
inductive Op
  /-- `env[v] = x` -/
  | setVar (v : ℕ) (x : ℚ)
  /-- `env.new(n, Class, force=force, **kw)`; `dflt` are the default values of the class -/
  | newClass (n : ℕ) (dflt : ℕ → ℚ) (kw : Kwargs) (force : Bool)
  /-- `env.new(n, p, force=force, **kw)` with `p` the name of an element -/
  | newFrom (n p : ℕ) (kw : Kwargs) (force : Bool)
  /-- `env.set(n, **kw)` -/
  | set (n : ℕ) (kw : Kwargs)
  /-- `env.elements.remove(n)` -/
  | remove (n : ℕ)

/-- One call; `none` is the exception raised (the element exists already, or does not exist). -/
def step (s : Env) : Op → Option Env
  | .setVar v x =>
    let vars := fun w => if w = v then x else s.vars w
    some { s with
      vars := vars
      value := fun n f => match s.task n f with
        | none => s.value n f
        | some e => if v ∈ e.deps then e.ev vars else s.value n f }
  | .newClass n dflt kw force =>
    if s.has n = true ∧ force = false then none else some (initKwargs (instantiate s n dflt) n kw)
  | .newFrom n p kw force =>
    if s.has n = true ∧ force = false then none
    else if s.has p = false ∨ n = p then none
    else some (initKwargs (copyFrom s n p) n kw)
  | .set n kw => if s.has n = false then none else some (setKwargs s n kw)
  | .remove n =>
    if s.has n = false then none
    else some { s with has := fun m => if m = n then false else s.has m,
                       task := fun m f => if m = n then none else s.task m f }

/-- A sequence of calls; it ends at the first exception. -/
def run (s : Env) : List Op → Option Env
  | [] => some s
  | o :: t => match step s o with
    | none => none
    | some s' => run s' t

/-- An environment without elements. -/
def empty (vars : ℕ → ℚ) : Env := ⟨vars, fun _ => false, fun _ _ => 0, fun _ _ => none⟩

/-! ### What the user expects -/

/-- The specification: for every element what its attributes were last defined to be. -/
structure Defs where
  vars : ℕ → ℚ
  has : ℕ → Bool
  dfn : ℕ → ℕ → Arg

/-- What a call means: an attribute is what was given; if nothing is given it is the default of the class or, for an element
created from another one, what that one is defined to be. -/
def Defs.step (d : Defs) : Op → Defs
  | .setVar v x => { d with vars := fun w => if w = v then x else d.vars w }
  | .newClass n dflt kw _ =>
    { d with has := fun m => if m = n then true else d.has m,
             dfn := fun m f => if m = n then (kw f).getD (.num (dflt f)) else d.dfn m f }
  | .newFrom n p kw _ =>
    { d with has := fun m => if m = n then true else d.has m,
             dfn := fun m f => if m = n then (kw f).getD (d.dfn p f) else d.dfn m f }
  | .set n kw => { d with dfn := fun m f => if m = n then (kw f).getD (d.dfn n f) else d.dfn m f }
  | .remove n => { d with has := fun m => if m = n then false else d.has m }

/-- The specification of a sequence of calls. -/
def Defs.run (d : Defs) : List Op → Defs
  | [] => d
  | o :: t => (d.step o).run t

/-- The specification of an environment without elements. -/
def Defs.empty (vars : ℕ → ℚ) : Defs := ⟨vars, fun _ => false, fun _ _ => .num 0⟩

/-- The expression mentions every variable on which its value depends. -/
def Expr.Honest (e : Expr) : Prop := ∀ a b : ℕ → ℚ, (∀ v ∈ e.deps, a v = b v) → e.ev a = e.ev b

/-- All expressions among the arguments are honest. -/
def Kwargs.Honest (kw : Kwargs) : Prop := ∀ f e, kw f = some (.expr e) → e.Honest

/-- All expressions in the calls are honest. -/
def Op.Honest : Op → Prop
  | .newClass _ _ kw _ => Kwargs.Honest kw
  | .newFrom _ _ kw _ => Kwargs.Honest kw
  | .set _ kw => Kwargs.Honest kw
  | _ => True

/-- The calls for which the code does what is expected: no element is overwritten with `force`, and no attribute which an
expression controls in the prototype is given as a number. -/
def Careful (d : Defs) : Op → Prop
  | .newClass n _ _ _ => d.has n = false
  | .newFrom n p kw _ => d.has n = false ∧ ∀ f q e, kw f = some (.num q) → d.dfn p f ≠ .expr e
  | _ => True

/-- Every call of the sequence is careful. -/
def AllCareful (d : Defs) : List Op → Prop
  | [] => True
  | o :: t => Careful d o ∧ AllCareful (d.step o) t

end Verif.Proto
