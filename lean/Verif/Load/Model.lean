/-!
# `xt.load`

Model of `load` and `_guess_format_from_path`, xtrack/load.py:31-149, of the way in which the readers open what they are given
(`xt.json.load`, xtrack/json.py:71-97; `MadxParser.parse_file`, mad_parser/parse.py:294-301; `Environment.call`,
environment.py:808-824), and of `read_url` (general.py:75-94).

A disk and the net hold data by name; the data are opaque, possibly compressed.  The result says which reader gets which
data with which options.  Numbers of characters do not change in lower case (names are ASCII).
-/

namespace Verif.Load

abbrev Text := List Char

inductive Format
  | json | madx | python | csv | hdf5 | tfs
  deriving DecidableEq, Repr

inductive Err
  | both            -- neither or both of file and string
  | stringFormat    -- a string without a format
  | unknown         -- the format could not be determined
  | reverse         -- `reverse_lines` without MAD-X
  | notImplemented
  | notFound
  | type
  | decode          -- compressed data read as text
  deriving DecidableEq, Repr

/-- Data, compressed or not. -/
inductive Data (D : Type)
  | plain (d : D)
  | gzip (d : D)
  deriving DecidableEq

/-- The argument `file`; paths are turned into strings: load.py:57-58. -/
inductive Source (D : Type)
  | name (n : Text)
  | names (l : List Text)
  | stream (d : D)
  deriving DecidableEq

/-- What is at names on the disk and on the net. -/
structure World (D : Type) where
  disk : Text → Option (Data D)
  net : Text → Option (Data D)

def lower (t : Text) : Text := t.map Char.toLower

def endsIn (t : Text) (l : List String) : Bool := l.any fun s => s.toList.isSuffixOf t

/-- `_guess_format_from_path`: load.py:31-46. -/
def guess (n : Text) : Option Format :=
  let l := lower n
  if endsIn l [".json", ".json.gz"] then some .json
  else if endsIn l [".seq", ".madx", ".str"] then some .madx
  else if endsIn l [".py"] then some .python
  else if endsIn l [".h5", ".hdf5"] then some .hdf5
  else if endsIn l [".csv"] then some .csv
  else if endsIn l [".tfs"] then some .tfs
  else none

/-- `file.startswith('http://') or file.startswith('https://')`: load.py:85. -/
def isUrl (n : Text) : Bool := "http://".toList.isPrefixOf n || "https://".toList.isPrefixOf n

def endsGz (n : Text) : Bool := ".gz".toList.isSuffixOf n

/-- Opening and reading data by name; the test for compression knows small letters only: json.py:84-91,
general.py:82. -/
def content {D : Type} (unzip : Bool) : Option (Data D) → Except Err D
  | none => .error .notFound
  | some (.plain d) => if unzip then .error .decode else .ok d
  | some (.gzip d) => if unzip then .ok d else .error .decode

/-- The format: load.py:68-79. -/
def formatOf {D : Type} (file : Option (Source D)) (format : Option Format) : Option Format :=
  match format with
  | some f => some f
  | none =>
    match file with
    | some (.name n) => guess n
    | some (.names l) =>
      match l with
      | [] => none
      | n :: ns => if ns.all fun m => guess m == guess n then guess n else none
    | _ => none

/-- What a reader makes of data: the reader, the data in order and the options.  -/
structure Result (D O : Type) where
  reader : Format
  data : List D
  options : Option O
  deriving DecidableEq

/-- All data of a list of names, or the first error. -/
def contents {D : Type} (w : World D) : List Text → Except Err (List D)
  | [] => .ok []
  | n :: ns =>
    match content false (w.disk n) with
    | .error e => .error e
    | .ok d =>
      match contents w ns with
      | .error e => .error e
      | .ok ds => .ok (d :: ds)

/-- The readers for what is in a file: load.py:88-147.  Only the one for MAD-X takes lists; the one for HDF5 gets
no options. -/
def readFile {D O : Type} (w : World D) (f : Format) (s : Source D) (o : O) : Except Err (Result D O) :=
  let options := if f = .hdf5 then none else some o
  match s with
  | .stream d => if f = .python then .error .type else .ok ⟨f, [d], options⟩
  | .name n =>
    match content (f == .json && endsGz n) (w.disk n) with
    | .error e => .error e
    | .ok d => .ok ⟨f, [d], options⟩
  | .names l =>
    if f = .madx then
      match contents w l with
      | .error e => .error e
      | .ok ds => .ok ⟨f, ds, options⟩
    else .error .type

/-- The readers for strings: load.py:88-147. -/
def readString {D O : Type} (f : Format) (d : D) (o : O) : Except Err (Result D O) :=
  if f = .python then .error .notImplemented else .ok ⟨f, [d], if f = .hdf5 then none else some o⟩

/-- `load`: load.py:49-149. -/
def load {D O : Type} (w : World D) (file : Option (Source D)) (string : Option D) (format : Option Format) (reverse : Bool) (o : O) :
    Except Err (Result D O) :=
  if file.isNone = string.isNone then .error .both
  else if string.isSome && format.isNone then .error .stringFormat
  else
    match formatOf file format with
    | none => .error .unknown
    | some f =>
      if reverse && f ≠ .madx then .error .reverse
      else
        match file, string with
        | some (.name n), _ =>
          if isUrl n then
            match content (endsGz n) (w.net n) with
            | .error e => .error e
            | .ok d => readString f d o
          else readFile w f (.name n) o
        | some s, _ => readFile w f s o
        | none, some d => readString f d o
        | none, none => .error .both

end Verif.Load
