import Verif.Saved.Model

/-!
# Writing, reading and copying lines and environments

`Line.to_dict`, `Line.from_dict`, `Line.copy`, `Line.to_json` (`xtrack/line.py:775-830, 384-506, 1171-1252, 899-915`),
`Composer.to_dict`, `Composer.from_dict` (`xtrack/composer/composer.py:519-639`) and the order in which `Environment.from_dict` reads
lines (`xtrack/environment.py:1187-1200`).

Elements are in `Verif.Saved.Model`; here a line is the order of its element names or, in compose mode, its composer. Variables and
expressions are left out (they are restored by xdeps).
-/

namespace Verif.Saved

/-! ### Composers -/

/-- A placed component; composer.py:705-739. `at` may be a number or an expression: its text. -/
structure Place where
  name : String
  at' : Option String
  from_ : Option String
  anchor : Option String
  fromAnchor : Option String
  deriving DecidableEq

/-- What `components` may contain: names, places, and also lines, composers and nested lists
(composer.py:762-815). -/
inductive Comp where
  | name (s : String)
  | place (p : Place)
  | line (names : List String)
  | nested (l : List String)
  deriving DecidableEq

/-- A composer; composer.py:113-130. -/
structure Composer where
  comps : List Comp
  refer : String
  length : Option String
  sTol : ℚ
  mirror : Bool
  deriving DecidableEq

/-- The dictionary of a composer. -/
structure ComposerDict where
  comps : List (String ⊕ Place)
  refer : Option String
  length : Option String
  sTol : Option ℚ
  mirror : Option Bool

/-- The loop over the components; `none` is the `NotImplementedError`; composer.py:543-571. -/
def compsToDict : List Comp → Option (List (String ⊕ Place))
  | [] => some []
  | .name s :: t => (compsToDict t).map (.inl s :: ·)
  | .place p :: t => (compsToDict t).map (.inr p :: ·)
  | .line _ :: _ => none
  | .nested _ :: _ => none

/-- `Composer.to_dict`, composer.py:519-583. -/
def composerToDict (c : Composer) : Option ComposerDict :=
  (compsToDict c.comps).map fun l =>
    { comps := l, refer := some c.refer, length := c.length, sTol := some c.sTol, mirror := if c.mirror then some true else none }

/-- `Composer.from_dict`, composer.py:585-639. -/
def composerFromDict (d : ComposerDict) : Composer :=
  { comps := d.comps.map fun x => match x with
      | .inl s => .name s
      | .inr p => .place p
    refer := d.refer.getD "center"
    length := d.length
    sTol := d.sTol.getD (1 / 10 ^ 6)
    mirror := d.mirror.getD false }

/-! ### Lines -/

/-- The element names of a line: a list or, in compose mode, the text `__COMPOSE__`; line.py:316-320, 1420. -/
inductive Names where
  | list (l : List String)
  | placeholder
  deriving DecidableEq

/-- Iterating over the names: the text gives its characters. -/
def Names.chars : Names → List String
  | .list l => l
  | .placeholder => ["_", "_", "C", "O", "M", "P", "O", "S", "E", "_", "_"]

/-- A line. -/
structure Ln where
  names : Names
  compose : Bool
  composer : Option Composer
  /-- names before slicing -/
  before : Option (List String)
  /-- `line.config`: flags -/
  config : List (String × Bool)
  /-- `end_compose_on_reload` -/
  endOnReload : Bool
  deriving DecidableEq

/-- The dictionary of a line. -/
structure LnDict where
  names : Names
  compose : Bool
  composer : Option ComposerDict
  before : Option (List String)
  config : List (String × Bool)
  endOnReload : Bool

/-- `Line.to_dict`, line.py:775-830. The composer is written whenever there is one, in both modes. -/
def lnToDict (l : Ln) : Option LnDict :=
  match l.composer with
  | none => some ⟨l.names, l.compose, none, l.before, l.config, l.endOnReload⟩
  | some c => (composerToDict c).map fun d => ⟨l.names, l.compose, some d, l.before, l.config, l.endOnReload⟩

/-- `Line.from_dict`, line.py:465-506; `build` gives the element names which a composer makes, `none` if it raises. -/
def lnFromDict (build : Composer → Option (List String)) (d : LnDict) : Option Ln :=
  let l : Ln := ⟨.list d.names.chars, d.compose, d.composer.map composerFromDict, d.before, d.config, d.endOnReload⟩
  if l.endOnReload && l.compose then
    match l.composer with
    | none => none
    | some c => (build c).map fun n => { l with names := .list n, compose := false }
  else some l

/-- The elements in order which a user gets from a line: its names or, in compose mode, what its composer makes
(`line.get_table()`, line.py:1590). -/
def elementsOf (build : Composer → Option (List String)) (l : Ln) : Option (List String) :=
  if l.compose then
    match l.composer with
    | none => none
    | some c => build c
  else some l.names.chars

/-- `TrackerConfig.update`: entries which are `False` are removed; tracker.py:1724-1728. -/
def dropFalse (c : List (String × Bool)) : List (String × Bool) := c.filter (·.2)

/-- `Line.copy()`, line.py:1218-1252. -/
def deepCopy (l : Ln) : Ln :=
  { names := .list l.names.chars, compose := false, composer := none, before := none, config := dropFalse l.config
    endOnReload := l.endOnReload }

/-- `Line.copy(shallow=True)`, line.py:1211-1216. -/
def shallowCopy (l : Ln) : Ln :=
  { names := .list l.names.chars, compose := l.compose, composer := if l.compose then l.composer else none, before := none
    config := dropFalse l.config, endOnReload := l.endOnReload }

/-- Whether `Line.to_json(**kwargs)` writes the version; line.py:911-915. -/
def jsonVersion (kwargs : List (String × Bool)) : Bool :=
  let kwargs := if kwargs.any (fun e => e.1 = "inlude_version") then kwargs else ("include_version", true) :: kwargs
  ((kwargs.find? fun e => e.1 = "include_version").map (·.2)).getD false

/-! ### Environments -/

/-- A line of an environment: in normal mode its element names, in compose mode a list of names of elements or of other lines. -/
structure EnvLn where
  name : String
  compose : Bool
  names : List String
  deriving DecidableEq

/-- The names a composer makes of names in sequence: lines known to the environment are replaced by their elements, every other name
is kept; composer.py:366-369, 803-813, 909-910. All lines read so far are in normal mode. -/
def expand (known : List (String × List String)) (l : List String) : List String :=
  l.flatMap fun c => ((known.find? fun e => e.1 = c).map (·.2)).getD [c]

/-- `Environment.from_dict`: the lines are read one after the other, and each line in compose mode is built at once;
environment.py:1187-1200, line.py:499-501. -/
def readLines (known : List (String × List String)) : List EnvLn → List (String × List String)
  | [] => known
  | l :: t => readLines (known ++ [(l.name, if l.compose then expand known l.names else l.names)]) t

end Verif.Saved
