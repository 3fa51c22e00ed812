/-!
# Reading the same dictionary more than once

Models of `Functions.to_dict`/`from_dict` (xtrack/functions.py:62-80), `Table.to_dict`/`from_dict` for its attributes
(xtrack/table.py:379-401, 541-605), `_deserialize_element` (xtrack/line.py:7627-7633), the ancient format of
`Line.from_dict` (xtrack/line.py:447-456) and the metadata taken over by `Line.from_dict` (line.py:485-486) and
`Environment.from_dict` (environment.py:1219-1220).

Every reader gives its result together with what is left of the dictionary.
-/

namespace Verif.Reread

/-- Errors. -/
inductive Err
  | keyError (k : String)
  | attributeError (k : String)
  | assertion
  deriving DecidableEq, Repr

/-! ## Functions -/

/-- A function of the library xdeps, by class and data. -/
structure Fn (D : Type) where
  cls : String
  data : D
  deriving DecidableEq

/-- The dictionary of one function: the key `__class__`, if it is there, and the rest. -/
structure FnDict (D : Type) where
  cls : Option String
  data : D
  deriving DecidableEq

/-- `Functions.to_dict`: functions.py:64-70. -/
def functionsToDict {D : Type} (fs : List (String × Fn D)) : List (String × FnDict D) :=
  fs.map fun kf => (kf.1, { cls := some kf.2.cls, data := kf.2.data })

/-- `Functions.from_dict`: functions.py:72-80.  `pop` takes the key out of the dictionary of the caller, also if
something goes wrong afterwards. -/
def functionsFromDict {D : Type} (known : String → Bool) :
    List (String × FnDict D) → Except Err (List (String × Fn D)) × List (String × FnDict D)
  | [] => (.ok [], [])
  | (k, d) :: rest =>
    match d.cls with
    | none => (.error (.keyError "__class__"), (k, d) :: rest)
    | some c =>
      if known c then
        let r := functionsFromDict known rest
        (r.1.map fun fs => (k, { cls := c, data := d.data }) :: fs, (k, { d with cls := none }) :: r.2)
      else (.error (.attributeError c), (k, { d with cls := none }) :: rest)

/-! ## Attributes of tables -/

/-- What an attribute of a table can be. -/
inductive Attr (D : Type)
  | plain (v : D)
  | particles (v : D)
  | dict (cls : Option String) (v : D)
  deriving DecidableEq

/-- `_serialize_attr_value`: table.py:379-387. -/
def serializeAttr {D : Type} : Attr D → Attr D
  | .particles v => .dict (some "Particles") v
  | a => a

/-- `_deserialize_attr_value`, with what is left of the value: table.py:389-401. -/
def deserializeAttr {D : Type} : Attr D → Attr D × Attr D
  | .dict cls v => if cls = some "Particles" then (.particles v, .dict none v) else (.dict cls v, .dict cls v)
  | a => (a, a)

/-- `Table.to_dict`, the attributes: table.py:536-542. -/
def attrsToDict {D : Type} (as : List (String × Attr D)) : List (String × Attr D) :=
  as.map fun ka => (ka.1, serializeAttr ka.2)

/-- `Table.from_dict`, the attributes: table.py:582, 592-594.  `dict(…)` copies one level only. -/
def attrsFromDict {D : Type} (d : List (String × Attr D)) : List (String × Attr D) × List (String × Attr D) :=
  (d.map fun ka => (ka.1, (deserializeAttr ka.2).1), d.map fun ka => (ka.1, (deserializeAttr ka.2).2))

/-! ## Elements -/

/-- `_deserialize_element`: line.py:7627-7633.  The class is taken from a copy. -/
def elementFromDict {D : Type} (known : String → Bool) (el : FnDict D) : Except Err (Fn D) × FnDict D :=
  let eldct := el
  match eldct.cls with
  | none => (.error (.keyError "__class__"), el)
  | some c =>
    let eldct := { eldct with cls := none }
    if known c then (.ok { cls := c, data := eldct.data }, el) else (.error (.keyError c), el)

/-! ## The ancient format of a line -/

/-- The entry `elements` of the dictionary of a line: a list in ancient files. -/
inductive Elements (E : Type)
  | list (l : List E)
  | dict (d : List (String × E))
  deriving DecidableEq

/-- Assignment in a Python dictionary, which keeps the place of a key. -/
def put {E : Type} (d : List (String × E)) (k : String) (e : E) : List (String × E) :=
  if d.any (fun x => x.1 == k) then d.map fun x => if x.1 == k then (k, e) else x else d ++ [(k, e)]

/-- `{nn: ee for nn, ee in zip(names, elements)}`. -/
def zipDict {E : Type} (names : List String) (l : List E) : List (String × E) :=
  (names.zip l).foldl (fun d x => put d x.1 x.2) []

/-- `Line.from_dict`, the elements: line.py:447-456.  The dictionary of the caller gets the new format. -/
def lineElements {E : Type} (names : List String) (els : Elements E) : Except Err (List (String × E)) × Elements E :=
  match els with
  | .list l =>
    if l.length = names.length then
      let d := zipDict names l
      (.ok d, .dict d)
    else (.error .assertion, .list l)
  | .dict d => (.ok d, .dict d)

/-! ## Metadata -/

/-- Dictionaries in memory. -/
abbrev Mem := List (List (String × Int))

/-- What is read: metadata by address. -/
structure Obj where
  metadata : Nat
  deriving DecidableEq

/-- `Line.from_dict` and `Environment.from_dict`: the metadata of the dictionary, if there are any, become those of the
object; otherwise it has a new, empty dictionary from its constructor: line.py:485-486, environment.py:1219-1220. -/
def readMetadata (m : Mem) (dct : Option Nat) : Obj × Mem :=
  match dct with
  | some a => (⟨a⟩, m)
  | none => (⟨m.length⟩, m ++ [[]])

/-- `obj.metadata[k] = v`. -/
def setMetadata (m : Mem) (o : Obj) (k : String) (v : Int) : Mem :=
  m.modify o.metadata (fun d => put d k v)

/-- `obj.metadata.get(k)`. -/
def getMetadata (m : Mem) (o : Obj) (k : String) : Option Int :=
  (m[o.metadata]?.getD []).lookup k

end Verif.Reread
