/-!
# Renaming a variable

Model of `EnvVars.rename`, xtrack/environment.py:3602-3639, with `__setitem__` (3668-3674) and the check when a variable
is removed (`_unregister_object`, 2255-2268).

Variables and attributes of elements are names.  A name has a number or an expression; the library xdeps keeps the
values up to date, so the value of a name is the one of its expression now.  In the code the old name is replaced in the text of
expressions, where names stand within brackets and quotes, so that only whole names are replaced; here it is replaced in the
tree.
-/

namespace Verif.Rename

/-- Expressions; functions are any functions of integers. -/
inductive Expr
  | num (v : Int)
  | var (n : String)
  | fn (f : Int → Int) (a : Expr)
  | op (f : Int → Int → Int) (a b : Expr)

/-- What a name has. -/
inductive Def
  | val (v : Int)
  | expr (e : Expr)

/-- The names, and what they have. -/
structure St where
  names : List String
  defs : String → Option Def

def Expr.uses (n : String) : Expr → Bool
  | .num _ => false
  | .var m => m == n
  | .fn _ a => a.uses n
  | .op _ a b => a.uses n || b.uses n

def Expr.subst (old new : String) : Expr → Expr
  | .num v => .num v
  | .var m => .var (if m = old then new else m)
  | .fn f a => .fn f (a.subst old new)
  | .op f a b => .op f (a.subst old new) (b.subst old new)

def Def.uses (n : String) : Def → Bool
  | .val _ => false
  | .expr e => e.uses n

def Def.subst (old new : String) : Def → Def
  | .val v => .val v
  | .expr e => .expr (e.subst old new)

/-- The value of an expression, with given values of names. -/
def Expr.eval (r : String → Option Int) : Expr → Option Int
  | .num v => some v
  | .var n => r n
  | .fn f a => (a.eval r).map f
  | .op f a b =>
    match a.eval r, b.eval r with
    | some x, some y => some (f x y)
    | _, _ => none

/-- The value of a name, through at most so many expressions. -/
def St.value (s : St) : Nat → String → Option Int
  | 0, _ => none
  | k + 1, n =>
    match s.defs n with
    | none => none
    | some (.val v) => some v
    | some (.expr e) => e.eval (s.value k)

/-- A name gets a number or an expression: environment.py:3668-3674. -/
def St.set (s : St) (n : String) (d : Def) : St where
  names := if s.names.contains n then s.names else s.names ++ [n]
  defs := fun m => if m = n then some d else s.defs m

inductive Err
  | key
  | used
  deriving DecidableEq

/-- Whether something depends on a name. -/
def St.used (s : St) (n : String) : Bool :=
  s.names.any fun m =>
    match s.defs m with
    | some d => d.uses n
    | none => false

/-- `env.vars.remove`: environment.py:3886-3907 and 2255-2262; an error if something depends on the variable. -/
def St.remove (s : St) (n : String) : Except Err St :=
  if s.used n then .error .used
  else .ok ⟨s.names.filter fun m => m ≠ n, fun m => if m = n then none else s.defs m⟩

/-- `rename`: environment.py:3616-3639. -/
def rename (s : St) (old new : String) : Except Err St :=
  match s.defs old with
  | none => .error .key
  | some _ =>
    let s1 := s.set new (.val ((s.value (s.names.length + 1) old).getD 0))
    let s2 := match s1.defs old with
      | some (.expr e) => s1.set new (.expr e)
      | _ => s1
    let s3 : St := { s2 with defs := fun m => (s2.defs m).map fun d => if d.uses old then d.subst old new else d }
    s3.remove old

end Verif.Rename
