/-!
# Updating and loading variables

Model of `EnvVars.update` (xtrack/environment.py:3360-3397), `__setitem__` (3668-3674) with `_check_name_clashes` (2242-2253), `EnvVars.load` for JSON
(3450-3452), `load_json` (3766-3791) and `_load_madx` (3746-3764) with the set-up of the loader (xtrack/mad_parser/loader.py:133-140).

Expressions are their text with the names they use; they are evaluated only as far as missing names are concerned: these are
made with the value zero if the setting `default_to_zero` is on, and are an error if not.  Functions return the state also if there is an error.
-/

namespace Verif.VarLoad

/-- A number, or an expression with the names used. -/
inductive Def
  | val (v : Int)
  | expr (text : String) (uses : List String)
  deriving DecidableEq

structure St where
  defs : String → Option Def
  zero : Bool
  taken : String → Bool

inductive Err
  | key
  | clash
  | parse
  deriving DecidableEq

def St.put (s : St) (n : String) (d : Def) : St :=
  { s with defs := fun m => if m = n then some d else s.defs m }

/-- The names used by an expression are looked up one after the other. -/
def touch : List String → St → St × Option Err
  | [], s => (s, none)
  | n :: ns, s =>
    match s.defs n with
    | some _ => touch ns s
    | none => if s.zero then touch ns (s.put n (.val 0)) else (s, some .key)

/-- `__setitem__`: environment.py:3668-3674. -/
def setItem (s : St) (k : String) (d : Def) : St × Option Err :=
  if s.taken k then (s, some .clash)
  else
    match d with
    | .val v => (s.put k (.val v), none)
    | .expr t us =>
      match touch us s with
      | (s', some e) => (s', some e)
      | (s', none) => (s'.put k (.expr t us), none)

/-- The loop of `update`: environment.py:3386-3390. -/
def setAll : List (String × Def) → St → St × Option Err
  | [], s => (s, none)
  | (k, d) :: es, s =>
    match setItem s k d with
    | (s', some e) => (s', some e)
    | (s', none) => setAll es s'

/-- `update` with its option: environment.py:3377-3397. -/
def update (opt : Option Bool) (es : List (String × Def)) (s : St) : St × Option Err :=
  let old := s.zero
  let s1 : St := match opt with
    | some b => { s with zero := b }
    | none => s
  let r := setAll es s1
  match opt with
  | some _ => ({ r.1 with zero := old }, r.2)
  | none => r

/-- `load` of JSON: environment.py:3450-3452; the text may be no JSON. -/
def load (data : Option (List (String × Def))) (s : St) : St × Option Err :=
  match data with
  | none => (s, some .parse)
  | some es => update (some true) es s

/-- `load_json`: environment.py:3784-3791. -/
def loadJson (data : Option (List (String × Def))) (s : St) : St × Option Err :=
  match data with
  | none => (s, some .parse)
  | some es =>
    match update none es { s with zero := true } with
    | (s', some e) => (s', some e)
    | (s', none) => ({ s' with zero := s.zero }, none)

/-- `_load_madx`: environment.py:3756-3764; the constants are set by the loader before it reads the file. -/
def loadMadx (constants : List (String × Def)) (data : Option (List (String × Def))) (s : St) : St × Option Err :=
  match update none constants { s with zero := true } with
  | (s', some e) => (s', some e)
  | (s', none) =>
    match data with
    | none => (s', some .parse)
    | some es =>
      match setAll es s' with
      | (s'', some e) => (s'', some e)
      | (s'', none) => ({ s'' with zero := s.zero }, none)

end Verif.VarLoad
