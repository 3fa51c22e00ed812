/-!
# Extending the order of multipolar strengths

Source: /repo/xtrack/environment.py 2147-2218 (`_extend_knl_ksl_abs_rel`, `extend_knl_ksl`), line.py 5086-5108 (`extend_knl_ksl`),
beam_elements/_common.py 405-417 (`to_dict`), 419-444 (constructor), 481-542 (`_prepare_multipolar_params`),
multipole.py 141-145 (constructor of `Multipole`).

Simplifications.
* Numbers are rationals.  The fields other than `knl` and `ksl` (relative strengths, lengths, ...) are one value `rest`, which the dictionary
  of the element gives back (C137 is about that).
* The phases of RF multipoles are left out.  `extend_knl_rel_ksl_rel` is not modelled.
* The environment is a function from names; an element has `knl` and `ksl` (`mag`) or not (`other`).
-/

namespace Verif.Extend

/-- A magnet; `order` is the length of `knl` less one.  `dflt`: the order which its class uses if none is given (5, or 0 for `Multipole`). -/
structure Mag (α : Type) where
  knl : List Rat
  ksl : List Rat
  dflt : Nat
  rest : α
  deriving DecidableEq

/-- An entry of the environment. -/
inductive Entry (α : Type)
  | mag (m : Mag α)
  | other (a : α)
  deriving DecidableEq

abbrev Env (α : Type) := String → Option (Entry α)

/-- The property `order`. -/
def Mag.order {α : Type} (m : Mag α) : Nat := m.knl.length - 1

/-- `np.allclose(v, 0, atol=1e-16)`; _common.py:408. -/
def nearZero (v : List Rat) : Bool := v.all (fun x => decide (-(1 / 10000000000000000) ≤ x) && decide (x ≤ 1 / 10000000000000000))

/-- The dictionary of a magnet: entries which may be absent. -/
structure Dct (α : Type) where
  knl : Option (List Rat)
  ksl : Option (List Rat)
  order : Option Nat
  dflt : Nat
  rest : α

/-- `to_dict`; _common.py:405-417. -/
def toDict {α : Type} (m : Mag α) : Dct α :=
  let knl := if nearZero m.knl then none else some m.knl
  let ksl := if nearZero m.ksl then none else some m.ksl
  let order := if m.order ≠ 0 ∧ knl = none ∧ ksl = none then some m.order else none
  ⟨knl, ksl, order, m.dflt, m.rest⟩

/-- An array filled up with zeros; _common.py:527-533. -/
def pad (n : Nat) (v : List Rat) : List Rat := v ++ List.replicate (n - v.length) 0

/-- The constructor: `order = order or DEFAULT`, then `_prepare_multipolar_params`; _common.py:425-444 and 516-535. -/
def build {α : Type} (c : Dct α) : Mag α :=
  let order := match c.order with
    | none => c.dflt
    | some 0 => c.dflt
    | some (o + 1) => o + 1
  let knl := c.knl.getD []
  let ksl := c.ksl.getD []
  let n := max (order + 1) (max knl.length ksl.length)
  ⟨pad n knl, pad n ksl, c.dflt, c.rest⟩

/-- The body of the loop with `absolute=True`; environment.py:2163-2182. -/
def extendOne {α : Type} (order : Nat) (m : Mag α) : Mag α :=
  let dct := toDict m
  if m.order < order then
    build { dct with knl := some (m.knl ++ List.replicate (order + 1 - m.knl.length) 0), ksl := some (m.ksl ++ List.replicate (order + 1 - m.ksl.length) 0), order := none }
  else build dct

/-- Assigning an entry; environment.py:2184. -/
def put {α : Type} (env : Env α) (n : String) (e : Entry α) : Env α := fun m => if m = n then some e else env m

/-- The loop over the names; environment.py:2162-2184.  `false`: it raises (no such element, or it has no `order`). -/
def extendLoop {α : Type} (order : Nat) : List String → Env α → Env α × Bool
  | [], env => (env, true)
  | n :: ns, env =>
    match env n with
    | some (.mag m) => extendLoop order ns (put env n (.mag (extendOne order m)))
    | _ => (env, false)

/-- `env.extend_knl_ksl(order, element_names)`; environment.py:2153-2184. -/
def envExtend {α : Type} (order : Nat) (names : Option (List String)) (env : Env α) : Env α × Bool :=
  match names with
  | none => (env, false)
  | some ns => extendLoop order ns env

/-- `hasattr(self.get(nn), 'knl')`. -/
def hasKnl {α : Type} (env : Env α) (n : String) : Bool :=
  match env n with
  | some (.mag _) => true
  | _ => false

/-- `line.extend_knl_ksl(order, element_names)` for a line with the elements `line`; line.py:5102-5108. -/
def lineExtend {α : Type} (order : Nat) (line : List String) (names : Option (List String)) (env : Env α) : Env α × Bool :=
  envExtend order (some (names.getD (line.filter (hasKnl env)))) env

end Verif.Extend
