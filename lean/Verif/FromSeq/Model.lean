/-!
# Lines from sequences

Model of `Line.from_sequence` (xtrack/line.py:537-668), `flatten_sequence` (7852-7908), `_next_name` (7763-7769) and of the
dictionary made by the constructor of `Line` (350).

Positions and lengths are rational numbers.  Elements and
sequences given by name are looked up before.  A sequence within another one is given as the flat list which the same function made of it.
The search for a free name, which has no end in the code, stops after a number of tries.
-/

namespace Verif.FromSeq

/-- An element: its length (zero for thin elements), and which one it is. -/
structure Elem where
  length : Rat
  tag : Nat
  deriving DecidableEq, Repr

/-- An entry of a flat sequence: its position, element and name. -/
structure Place where
  s : Rat
  elem : Elem
  name : String
  deriving DecidableEq, Repr

/-- What to place: an element or a sequence. -/
inductive What
  | elem (e : Elem)
  | seq (l : List Place)

/-- Relative to what: a position or a name. -/
inductive From
  | pos (s : Rat)
  | name (n : String)

/-- `Node`, with the name chosen if none is given (`what` or "element"). -/
structure Node where
  s : Rat
  what : What
  origin : From
  name : String

inductive Refer
  | entry
  | centre
  | exit
  deriving DecidableEq

inductive Err
  | unknown
  | negative
  | outside
  | endless
  deriving DecidableEq, Repr

/-- The naming scheme: with numbers, and with names. -/
structure Scheme where
  num : String → Nat → String
  join : String → String → String

/-- The loop of `_next_name`: line.py:7766-7769. -/
def search (sch : Scheme) (pre : String) (names : List String) : Nat → Nat → Except Err String
  | 0, _ => .error .endless
  | k + 1, i => if sch.num pre i ∈ names then search sch pre names k (i + 1) else .ok (sch.num pre i)

/-- `_next_name`: line.py:7763-7769. -/
def nextName (sch : Scheme) (pre : String) (names : List String) : Except Err String :=
  if pre ∈ names then search sch pre names (names.length + 1) 1 else .ok pre

/-- The marker in front of a sequence: line.py:7903. -/
def marker : Elem := ⟨0, 0⟩

/-- The absolute position: line.py:7863-7873. -/
def absolute (flat : List Place) (n : Node) : Except Err Rat :=
  match n.origin with
  | .pos p => .ok (n.s + p)
  | .name m =>
    match flat.find? (fun p => p.name = m) with
    | some p => .ok (n.s + p.s)
    | none => .error .unknown

/-- One turn of the loop of `flatten_sequence`: line.py:7861-7906. -/
def addNode (sch : Scheme) (flat : List Place) (n : Node) : Except Err (List Place) := do
  let s ← absolute flat n
  let name ← nextName sch n.name (flat.map (·.name))
  match n.what with
  | .elem e => .ok (flat ++ [⟨s, e, name⟩])
  | .seq l => .ok (flat ++ [⟨s, marker, name⟩] ++ l.map fun p => ⟨s + p.s, p.elem, sch.join name p.name⟩)

/-- `flatten_sequence`. -/
def flatten (sch : Scheme) (nodes : List Node) : Except Err (List Place) :=
  nodes.foldlM (addNode sch) []

/-- Where an element begins with respect to its position: line.py:630-640. -/
def offset (r : Refer) (e : Elem) : Rat :=
  match r with
  | .entry => 0
  | .centre => -e.length / 2
  | .exit => -e.length

/-- An element of the line with its name; `made` tells the drifts made by the function. -/
structure Item where
  name : String
  elem : Elem
  made : Bool
  deriving DecidableEq, Repr

/-- The drift made by the function. -/
def drift (ds : Rat) : Elem := ⟨ds, 1⟩

/-- The loop over places, with the end of the last one: line.py:628-660. -/
def addPlaces (sch : Scheme) (r : Refer) : List Place → List Item → Rat → Except Err (List Item × Rat)
  | [], acc, last => .ok (acc, last)
  | p :: ps, acc, last =>
    let s := p.s + offset r p.elem
    if s < last then .error .negative
    else if s > last then do
      let name ← nextName sch "drift" (acc.map (·.name))
      addPlaces sch r ps (acc ++ [⟨name, drift (s - last), true⟩, ⟨p.name, p.elem, false⟩]) (s + p.elem.length)
    else addPlaces sch r ps (acc ++ [⟨p.name, p.elem, false⟩]) (s + p.elem.length)

/-- The last drift: line.py:662-666. -/
def close (sch : Scheme) (length : Rat) (x : List Item × Rat) : Except Err (List Item) := do
  if length < x.2 then .error .outside
  else
    let name ← nextName sch "drift" (x.1.map (·.name))
    .ok (x.1 ++ [⟨name, drift (length - x.2), true⟩])

/-- Stable sort by position: line.py:621-622. -/
def insertPlace (p : Place) : List Place → List Place
  | [] => [p]
  | q :: qs => if p.s < q.s then p :: q :: qs else q :: insertPlace p qs

def sortPlaces (l : List Place) : List Place := l.foldl (fun acc p => insertPlace p acc) []

/-- All elements with their names, before the constructor. -/
def items (sch : Scheme) (r : Refer) (reorder : Bool) (nodes : List Node) (length : Rat) : Except Err (List Item) := do
  let flat ← flatten sch nodes
  let x ← addPlaces sch r (if reorder then sortPlaces flat else flat) [] 0
  close sch length x

/-- `dict(zip(element_names, elements))`: line.py:350; the last element of a name is kept. -/
def lookup (l : List Item) (n : String) : Option Elem :=
  (l.reverse.find? fun i => i.name = n).map (·.elem)

/-- The elements of the line: its names, looked up in the dictionary. -/
def constructed (l : List Item) : List (String × Option Elem) :=
  l.map fun i => (i.name, lookup l i.name)

/-- `Line.from_sequence`. -/
def fromSequence (sch : Scheme) (r : Refer) (reorder : Bool) (nodes : List Node) (length : Rat) :
    Except Err (List (String × Option Elem)) :=
  (items sch r reorder nodes length).map constructed

end Verif.FromSeq
