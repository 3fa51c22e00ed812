import Mathlib.Algebra.Order.Ring.Rat
import Mathlib.Data.List.Basic
import Mathlib.Data.List.Nodup
import Mathlib.Data.List.Induction
import Mathlib.Tactic.NormNum

/-!
# Apertures, order of statements and beams of MAD-X files: C147, C148

`MadxTransformer` (`xtrack/mad_parser/parse.py:74-270`) collects the definitions of elements, the assignments to them and the beams of a
file; `MadxLoader.load_parsed_dict` (`xtrack/mad_parser/loader.py:188-197`) then makes all elements, all lines, all assignments and sets
all beams, in this order.
-/

namespace Verif.Mad.Order

/-! ### Definitions and assignments -/

/-- The parameters of an element: the value of each key. -/
abbrev Params := ℕ → Option ℚ

/-- What is given wins over what was there. -/
def over (old new : Params) : Params := fun k => (new k).or (old k)

/-- The statements. -/
inductive Stmt
  /-- `n: p, g;` -/
  | define (n p : ℕ) (g : Params)
  /-- `n, g;` -/
  | assign (n : ℕ) (g : Params)

/-- `d[n] = v` of Python: in place if the key is there, otherwise at the end. -/
def dictSet {α : Type} (d : List (ℕ × α)) (n : ℕ) (v : α) : List (ℕ × α) := match d with
  | [] => [(n, v)]
  | (m, w) :: t => if m = n then (n, v) :: t else (m, w) :: dictSet t n v

/-- `d.get(n)` -/
def dictGet {α : Type} (d : List (ℕ × α)) (n : ℕ) : Option α := match d with
  | [] => none
  | (m, w) :: t => if m = n then some w else dictGet t n

/-- What the parser has collected: `self.elements` and `self.parameters`. -/
structure Parsed where
  elements : List (ℕ × ℕ × Params)
  parameters : List (ℕ × Params)

/-- `top_level_clone`, `top_level_command`, parse.py:201-211. -/
def Parsed.add (s : Parsed) : Stmt → Parsed
  | .define n p g => { s with elements := dictSet s.elements n (p, g) }
  | .assign n g => { s with parameters := dictSet s.parameters n (over ((dictGet s.parameters n).getD fun _ => none) g) }

/-- The whole file. -/
def parsed (file : List Stmt) : Parsed := file.foldl Parsed.add ⟨[], []⟩

/-- `_parse_elements`, loader.py:235-242: each element is a copy of its parent with what is given. The builtin ones have no parameters. -/
def makeElements (els : List (ℕ × ℕ × Params)) : ℕ → Params :=
  els.foldl (fun env e => fun m => if m = e.1 then over (env e.2.1) e.2.2 else env m) fun _ _ => none

/-- `_parse_parameters`, loader.py:283-286. -/
def setParameters (env : ℕ → Params) (ps : List (ℕ × Params)) : ℕ → Params :=
  ps.foldl (fun env e => fun m => if m = e.1 then over (env e.1) e.2 else env m) env

/-- The loader. -/
def load (file : List Stmt) : ℕ → Params := setParameters (makeElements (parsed file).elements) (parsed file).parameters

/-- One statement in MAD-X: a definition copies what its class is at that moment. -/
def madxStep (env : ℕ → Params) : Stmt → ℕ → Params
  | .define n p g => fun m => if m = n then over (env p) g else env m
  | .assign n g => fun m => if m = n then over (env n) g else env m

/-- MAD-X: the statements are done one after the other. -/
def madx (file : List Stmt) : ℕ → Params := file.foldl madxStep fun _ _ => none

/-- The name which a statement defines. -/
def Stmt.defines : Stmt → Option ℕ
  | .define n _ _ => some n
  | .assign _ _ => none

/-- The name to which a statement assigns. -/
def Stmt.assigns : Stmt → Option ℕ
  | .define _ _ _ => none
  | .assign n _ => some n

/-- No name is defined twice, and nothing was assigned to a name or to its class before its definition. -/
def Orderly (file : List Stmt) : Prop := ∀ a n p g b, file = a ++ .define n p g :: b →
  ∀ s ∈ a, s.defines ≠ some n ∧ s.assigns ≠ some n ∧ s.assigns ≠ some p

/-! ### Variables with the length of elements -/

/-- The value of a right-hand side, for the values of the variables and of `q->l`. -/
abbrev Rhs := (ℕ → ℚ) → (ℕ → ℚ) → ℚ

/-- `x = expression`: `assign_value` takes the value at once, when `op_arrow` has put 999 for the lengths, parse.py:109-116,264-269. -/
def assignVars (vars : ℕ → ℚ) (l : List (ℕ × Rhs)) : ℕ → ℚ :=
  l.foldl (fun vars e => fun m => if m = e.1 then e.2 vars (fun _ => 999) else vars m) vars

/-- MAD-X: the lengths are those of the elements. -/
def madxVars (vars len : ℕ → ℚ) (l : List (ℕ × Rhs)) : ℕ → ℚ :=
  l.foldl (fun vars e => fun m => if m = e.1 then e.2 vars len else vars m) vars

/-! ### Beams -/

/-- `beam, sequence = s, ...` or `beam, ...`, with the reference particle `r` it describes. -/
structure Beam where
  sequence : Option ℕ
  ref : ℕ

/-- `_parse_beam`, loader.py:316-326: without `sequence` all lines get the particle. -/
def setBeam (ref : ℕ → Option ℕ) (b : Beam) : ℕ → Option ℕ := match b.sequence with
  | none => fun _ => some b.ref
  | some s => fun l => if l = s then some b.ref else ref l

/-- `_parse_beams`, loader.py:288-290. -/
def setBeams (bs : List Beam) : ℕ → Option ℕ := bs.foldl setBeam fun _ => none

/-- The beam given last for a sequence, or by default. -/
def lastBeam (s : Option ℕ) (bs : List Beam) : Option ℕ := bs.foldl (fun r b => if b.sequence = s then some b.ref else r) none

/-- MAD-X: a sequence has the beam attached to it, and the default beam if there is none. -/
def madxBeam (bs : List Beam) (l : ℕ) : Option ℕ := (lastBeam (some l) bs).or (lastBeam none bs)

/-! ### Apertures -/

/-- What one statement of the chain of an element gives: `apertype` and `aperture`. `isSet` is an assignment (`_set_element`), otherwise a
definition from a class (`_new_element`). -/
structure Aper where
  isSet : Bool
  type : Option ℕ
  dims : Option (List ℚ)

/-- `apertype = circle`. -/
abbrev circle : ℕ := 0

/-- The type in the cache of parameters, and the shape of the aperture associated with the element. -/
structure AperState where
  cached : Option ℕ
  shape : Option (ℕ × List ℚ)

/-- `_build_aperture`, loader.py:589-713: nothing given, or the shape (here its type and dimensions); the first `Option` is an exception.
Polygons and offsets are left out. -/
def buildAperture (type : Option ℕ) (dims : Option (List ℚ)) : Option (Option (ℕ × List ℚ)) :=
  match type, dims with
  | none, none => some none
  | t, some d => some (some (t.getD circle, d))
  | some _, none => none

/-- One statement: loader.py:385-395,411 for definitions, loader.py:453-471 for assignments. -/
def aperStep (s : AperState) (a : Aper) : Option AperState :=
  let cached := a.type.or s.cached
  if a.isSet then
    match (match a.dims, a.type with
      | some _, none => (match cached with
        | some t => some (some t)
        | none => none)
      | _, t => some t) with
    | none => none
    | some t => match buildAperture t a.dims with
      | none => none
      | some shape => some ⟨if a.dims.isSome || t.isSome then some ((cached.or t).getD circle) else cached, shape⟩
  else match buildAperture a.type a.dims with
    | none => none
    | some none => some ⟨cached, s.shape⟩
    | some (some shape) => some ⟨some (cached.getD shape.1), some shape⟩

/-- The chain of an element. -/
def aperChain : AperState → List Aper → Option AperState
  | s, [] => some s
  | s, a :: t => match aperStep s a with
    | none => none
    | some s' => aperChain s' t

/-- MAD-X: the type and the dimensions given last; a circle if no type was given, no aperture if no dimensions were. -/
def madxAperture (l : List Aper) : Option (ℕ × List ℚ) :=
  (l.foldl (fun d a => a.dims.or d) none).map fun d => ((l.foldl (fun t a => a.type.or t) none).getD circle, d)

end Verif.Mad.Order
