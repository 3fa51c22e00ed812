/-!
# Tables in HDF5 files

Model of `Table.to_hdf5` and `Table.from_hdf5`, xtrack/table.py:652-701, 713-741, 914-1210.

A file has at most one table at its root and any number of tables in groups with names.  The names of groups are
not those which a table uses itself (`columns`, `attrs`, `meta`, `payload`) and are not nested.  Numbers (of any type which
HDF5 knows) are of the type `D`; what is written as JSON is of the type `J` and comes back as it is (C116).

Facts about numpy and h5py in the model: text which is not ASCII cannot be converted to the type `S`; numbers cannot be
written as texts, and arrays of texts not without a type; a file which is open already cannot be opened by its handle; a group
which is not there cannot be made in a file opened for reading.
-/

namespace Verif.Hdf

variable {D J : Type}

/-- Errors. -/
inductive Err
  | unicode
  | type
  | value
  | key
  deriving DecidableEq, Repr

/-- An entry of a column of objects. -/
inductive Cell (D J : Type)
  | str (s : String)
  | none
  | num (d : D)
  | nested (j : J)
  deriving DecidableEq

/-- A column of a table. -/
inductive Col (D J : Type)
  | nums (l : List D)
  | texts (l : List String)
  | objs (l : List (Cell D J))
  deriving DecidableEq

/-- An attribute of a table. -/
inductive Attr (D J : Type)
  | num (d : D)
  | str (s : String)
  | nums (l : List D)
  | texts (l : List String)
  | json (j : J)
  deriving DecidableEq

/-- A table, the columns and attributes which are selected. -/
structure Tab (D J : Type) where
  cols : List (String × Col D J)
  attrs : List (String × Attr D J)
  deriving DecidableEq

/-- A cell of a column which is written as JSON. -/
inductive JCell (D J : Type)
  | of (c : Cell D J)
  deriving DecidableEq

/-- A data set with a column, and what the metadata say of it (`column_dtypes`, `column_serialization`). -/
inductive SCol (D J : Type)
  | nums (l : List D)
  | texts (isObject : Bool) (l : List String)
  | json (l : List (JCell D J))
  deriving DecidableEq

/-- A data set with an attribute, and what the metadata say of it. -/
inductive SAttr (D J : Type)
  | num (d : D)
  | str (s : String)
  | nums (l : List D)
  | json (j : J)
  deriving DecidableEq

/-- A table in a file: the group `columns` with the order of the columns, the group `attrs`, if there are
attributes; there is always a group `meta`, as it holds at least the types of the columns. -/
structure Stored (D J : Type) where
  cols : List (String × SCol D J)
  attrs : Option (List (String × SAttr D J))
  deriving DecidableEq

/-- A file. -/
structure File (D J : Type) where
  root : Option (Stored D J) := none
  groups : List (String × Stored D J) := []
  deriving DecidableEq

/-- How a file is given: by its path (or as a stream), or open already. -/
inductive How
  | path
  | handle
  deriving DecidableEq

/-- ASCII text. -/
def ascii (s : String) : Bool := s.toList.all fun c => decide (c.toNat < 128)

/-- `_needs_json_serialization`: table.py:692-701. -/
def needsJson (l : List (Cell D J)) : Bool :=
  l.any fun
    | .nested _ => true
    | _ => false

/-- `_serialize_csv_value`, as text: table.py:713-726, 1012-1017. -/
def cellText : Cell D J → Except Err String
  | .str s => .ok s
  | .none => .ok "null"
  | .num _ => .error .type
  | .nested _ => .error .type

/-- A list of results, or the first error. -/
def all {A B : Type} (f : A → Except Err B) : List A → Except Err (List B)
  | [] => .ok []
  | a :: as =>
    match f a with
    | .error e => .error e
    | .ok b =>
      match all f as with
      | .error e => .error e
      | .ok bs => .ok (b :: bs)

/-- Writing a column: table.py:1000-1024. -/
def writeCol : Col D J → Except Err (SCol D J)
  | .nums l => .ok (.nums l)
  | .texts l => .ok (.texts false l)
  | .objs l =>
    if needsJson l then .ok (.json (l.map .of))
    else
      match all cellText l with
      | .error e => .error e
      | .ok ts => .ok (.texts true ts)

/-- Writing an attribute: table.py:1034-1045. -/
def writeAttr : Attr D J → Except Err (SAttr D J)
  | .num d => .ok (.num d)
  | .str s => if ascii s then .ok (.str s) else .error .unicode
  | .nums l => .ok (.nums l)
  | .texts _ => .error .type
  | .json j => .ok (.json j)

/-- With its name. -/
def named {A B : Type} (f : A → Except Err B) (x : String × A) : Except Err (String × B) :=
  match f x.2 with
  | .error e => .error e
  | .ok b => .ok (x.1, b)

/-- What is put in the target: table.py:997-1056.  The names are written as ASCII, in the attribute `order`. -/
def store (t : Tab D J) : Except Err (Stored D J) :=
  if !(t.cols.all fun c => ascii c.1) then .error .unicode
  else
    match all (named writeCol) t.cols with
    | .error e => .error e
    | .ok cs =>
      if t.attrs.isEmpty then .ok ⟨cs, none⟩
      else if !(t.attrs.all fun a => ascii a.1) then .error .unicode
      else
        match all (named writeAttr) t.attrs with
        | .error e => .error e
        | .ok as => .ok ⟨cs, some as⟩

/-- Assignment of a group, which keeps its place. -/
def putGroup (gs : List (String × Stored D J)) (g : String) (s : Stored D J) : List (String × Stored D J) :=
  match gs with
  | [] => [(g, s)]
  | x :: xs => if x.1 = g then (g, s) :: xs else x :: putGroup xs g s

/-- `to_hdf5`: table.py:944-1060.  A path is opened with the mode `w`, which empties the file; in a target which is there
`columns`, `attrs` and `meta` are replaced.  (After an error the target is incomplete; here it is without a
table.) -/
def write (f : File D J) (how : How) (group : Option String) (t : Tab D J) : Except Err Unit × File D J :=
  let f : File D J := match how with
    | .path => ⟨none, []⟩
    | .handle => f
  match store t with
  | .error e => (.error e, match group with
    | none => { f with root := none }
    | some g => { f with groups := f.groups.filter fun x => x.1 ≠ g })
  | .ok s => (.ok (), match group with
    | none => { f with root := some s }
    | some g => { f with groups := putGroup f.groups g s })

/-- The groups at the root of a file: table.py:1084-1087. -/
def candidates (f : File D J) : List String :=
  (match f.root with
    | none => []
    | some s => (if s.attrs.isSome then ["attrs"] else []) ++ ["columns", "meta"]) ++ f.groups.map Prod.fst

/-- Reading a column; for types of objects and texts, what is read are texts: table.py:1127-1167. -/
def readCol : SCol D J → Col D J
  | .nums l => .nums l
  | .texts true l => .objs (l.map .str)
  | .texts false l => .texts l
  | .json l => .objs (l.map fun | .of c => c)

/-- Reading an attribute: table.py:1187-1198. -/
def readAttr : SAttr D J → Attr D J
  | .num d => .num d
  | .str s => .str s
  | .nums l => .nums l
  | .json j => .json j

/-- A table from its target, without class and version: table.py:1101-1207. -/
def load (s : Stored D J) : Tab D J :=
  ⟨s.cols.map fun c => (c.1, readCol c.2), (s.attrs.getD []).map fun a => (a.1, readAttr a.2)⟩

/-- `from_hdf5`: table.py:1080-1210; also `xt.load` without a group (load.py:124-134). -/
def read (f : File D J) (how : How) (group : Option String) : Except Err (Tab D J) :=
  let group : Except Err String := match group with
    | some g => .ok g
    | none =>
      match how with
      | .handle => .error .type
      | .path =>
        match candidates f with
        | [g] => .ok g
        | _ => .error .value
  match group with
  | .error e => .error e
  | .ok g =>
    match f.groups.lookup g with
    | none => .error .key
    | some s => .ok (load s)

end Verif.Hdf
