import Mathlib.Data.Real.Basic
import Mathlib.Analysis.Real.Pi.Bounds
import Mathlib.Algebra.BigOperators.Group.List.Basic
import Mathlib.Tactic.FieldSimp
import Mathlib.Tactic.Ring
import Mathlib.Tactic.Linarith
import Mathlib.Tactic.NormNum

/-!
# Lines written as MAD-X sequences and read back: C146

`to_madx_sequence` and the converters of the elements (`xtrack/mad_writer.py:96-589,628-730`), followed by the native loader
(`xtrack/mad_parser/loader.py:382-588`). Elements are records of their attributes; the text in between is a list of keys with values.
Numbers are printed and read exactly. Attributes which the writer does not look at (models, integrators, numbers of kicks, ...) are
left out. Slices are written with the weight of the slice.
-/

namespace Verif.Mad.Round

/-- The keys of MAD-X which are written. -/
inductive Key
  | l | lrad | k0 | k1 | k2 | k3 | k1s | k2s | k3s | angle | e1 | e2 | fint | fintx | hgap | ks | freq | harmon | volt | lag | hkick | vkick
  | tilt | dx | dy | ds
deriving DecidableEq

/-- What is written for an element: its type is known from the constructor which reads it. The values of keys; `isExpr` tells whether
the value was written as an expression. -/
structure Text where
  keys : List (Key × ℝ × Bool)
  knl : Option (List ℝ)
  ksl : Option (List ℝ)

/-- The value of a key. -/
def Text.get (t : Text) (k : Key) : Option ℝ := (t.keys.find? fun p => p.1 = k).map fun p => p.2.1

/-- Whether a key was written as an expression. -/
def Text.isExpr (t : Text) (k : Key) : Bool := ((t.keys.find? fun p => p.1 = k).map fun p => p.2.2).getD false

/-- A key which is taken over by the loader, zero if absent. -/
def Text.value (t : Text) (k : Key) : ℝ := (t.get k).getD 0

/-- Position of an element in its frame. -/
structure Frame where
  tilt : ℝ
  shiftX : ℝ
  shiftY : ℝ
  shiftS : ℝ

/-- `_handle_transforms`, mad_writer.py:132-149. -/
noncomputable def Frame.write (f : Frame) : List (Key × ℝ × Bool) :=
  (if f.tilt ≠ 0 then [(.tilt, f.tilt, false)] else []) ++ (if f.shiftX ≠ 0 then [(.dx, f.shiftX, false)] else []) ++
  (if f.shiftY ≠ 0 then [(.dy, f.shiftY, false)] else []) ++ (if f.shiftS ≠ 0 then [(.ds, f.shiftS, false)] else [])

/-- The loader: `tilt` is renamed to the angle (loader.py:25); `dx`, `dy`, `ds` are set as attributes of these names, which tracking does
not look at. -/
def Frame.read (t : Text) : Frame := ⟨t.value .tilt, 0, 0, 0⟩

/-! ### Straight magnets -/

/-- Quadrupoles, sextupoles and octupoles. -/
inductive Kind
  | quadrupole | sextupole | octupole
deriving DecidableEq

/-- The names of the main strengths in MAD-X. -/
def Kind.keys : Kind → Key × Key
  | .quadrupole => (.k1, .k1s)
  | .sextupole => (.k2, .k2s)
  | .octupole => (.k3, .k3s)

/-- Attributes of straight magnets. -/
structure Straight where
  kind : Kind
  length : ℝ
  k : ℝ
  ks : ℝ
  knl : List ℝ
  ksl : List ℝ
  frame : Frame

/-- The weight used for slices, `weight = 1e-10 if weight < 1e-10 else weight`, mad_writer.py:545-550. -/
noncomputable def slot (w : ℝ) : ℝ := if w < 1 / 10000000000 then 1 / 10000000000 else w

/-- `quadrupole_to_mad_str`, `sextupole_to_mad_str`, `octupole_to_mad_str`, mad_writer.py:476-561, for a slice of weight `w` (one for the
whole magnet): `_knl_ksl_to_mad` gets the parent, so the arrays are those of the whole magnet. -/
noncomputable def Straight.write (m : Straight) (w : ℝ) : Text :=
  ⟨[(.l, m.length * slot w, false), (m.kind.keys.1, m.k, false), (m.kind.keys.2, m.ks, false)] ++ m.frame.write,
    some m.knl, some m.ksl⟩

/-- The loader: `l` is renamed, the strengths have the names of the attributes. -/
def Straight.read (kind : Kind) (t : Text) : Straight :=
  ⟨kind, t.value .l, t.value kind.keys.1, t.value kind.keys.2, t.knl.getD [], t.ksl.getD [], Frame.read t⟩

/-! ### Bends -/

/-- Attributes of a sector bend; `k0Expr` tells whether `k0` is given by an expression. -/
structure Bend where
  length : ℝ
  h : ℝ
  k0FromH : Bool
  k0 : ℝ
  k0Expr : Bool
  e1 : ℝ
  e2 : ℝ
  fint : ℝ
  fintx : ℝ
  hgapEntry : ℝ
  hgapExit : ℝ
  k1 : ℝ
  k2 : ℝ
  knl : List ℝ
  ksl : List ℝ
  frame : Frame

/-- `bend_to_mad_str`, mad_writer.py:422-470. -/
noncomputable def Bend.write (b : Bend) : Text :=
  ⟨[(.l, b.length, false), (.angle, b.h * b.length, false)] ++ (if b.k0FromH then [] else [(.k0, b.k0, b.k0Expr)]) ++
    [(.e1, b.e1, false), (.e2, b.e2, false), (.fint, b.fint, false), (.fintx, b.fintx, false), (.hgap, b.hgapEntry, false),
      (.k1, b.k1, false), (.k2, b.k2, false)] ++ b.frame.write, some b.knl, some b.ksl⟩

/-- The loader for bends, loader.py:484-504,577-578; the curvature is the angle over the length. `k0` is the one given, and is ignored in
tracking when it is taken from the curvature. -/
noncomputable def Bend.read (t : Text) : Bend :=
  let fromH : Bool := match t.get .k0 with
    | none => true
    | some x => !t.isExpr .k0 && decide (x = 0)
  { length := t.value .l, h := t.value .angle / t.value .l, k0FromH := fromH,
    k0 := if fromH then t.value .angle / t.value .l else t.value .k0, k0Expr := t.isExpr .k0,
    e1 := t.value .e1, e2 := t.value .e2, fint := t.value .fint, fintx := (t.get .fintx).getD (t.value .fint),
    hgapEntry := t.value .hgap, hgapExit := t.value .hgap, k1 := t.value .k1, k2 := t.value .k2,
    knl := t.knl.getD [], ksl := t.ksl.getD [], frame := Frame.read t }

/-! ### Cavities -/

/-- Attributes of a cavity; for a crab cavity the voltage is the crab voltage. `lag` in degrees, `phase` in radians. -/
structure Cavity where
  length : ℝ
  voltage : ℝ
  frequency : ℝ
  harmonic : ℝ
  lag : ℝ
  phase : ℝ

/-- The phase with which a cavity acts, `cavity.h:18-24` and `track_rf.h`: the sum of both. -/
noncomputable def Cavity.angle (c : Cavity) : ℝ := c.lag * (Real.pi / 180) + c.phase

/-- `cavity_to_mad_str`, mad_writer.py:169-195. -/
noncomputable def Cavity.write (c : Cavity) : Text :=
  ⟨[(.freq, c.frequency * (1 / 1000000), false), (.harmon, c.harmonic, false), (.volt, c.voltage * (1 / 1000000), false),
    (.lag, c.lag / 360 + c.phase / (2 * Real.pi), false), (.l, c.length, false)], none, none⟩

/-- `crabcavity_to_mad_str`, mad_writer.py:197-217; a crab cavity has no harmonic number. -/
noncomputable def Cavity.writeCrab (c : Cavity) : Text :=
  ⟨[(.freq, c.frequency * (1 / 1000000), false), (.volt, c.voltage * (1 / 1000000), false), (.lag, c.lag / 360, false),
    (.l, c.length, false)], none, none⟩

/-- `if (v := params.pop(key)): ...` for a literal: zero leaves the default, which is zero. -/
noncomputable def ifNonzero (x : ℝ) (f : ℝ → ℝ) : ℝ := if x ≠ 0 then f x else 0

/-- The loader for cavities, loader.py:31,506-515. -/
noncomputable def Cavity.read (t : Text) : Cavity :=
  ⟨t.value .l, ifNonzero (t.value .volt) (· * 1000000), ifNonzero (t.value .freq) (· * 1000000), t.value .harmon, 0,
    ifNonzero (t.value .lag) (· * Real.pi * 2)⟩

/-! ### Multipoles -/

/-- Attributes of a multipole. -/
structure Multipole where
  knl : List ℝ
  ksl : List ℝ
  hxl : ℝ
  length : ℝ
  thick : Bool

/-- What is written for a multipole: a corrector, a thin multipole, or a thick multipole written as a bend without angle. -/
inductive Written
  | kicker (t : Text)
  | multipole (t : Text)
  | sbend (t : Text)
  | assertion

/-- `multipole_to_mad_str` for a slice of weight `w`, mad_writer.py:287-347. The arrays are those of the parent. -/
noncomputable def Multipole.write (m : Multipole) (w : ℝ) : Written :=
  if m.knl.length = 1 ∧ m.ksl.length = 1 ∧ m.hxl = 0 then
    .kicker ⟨[(.hkick, -1 * m.knl.getD 0 0 * w, false), (.vkick, m.ksl.getD 0 0 * w, false)] ++
      (if m.thick = false ∨ m.length = 0 then [(.lrad, m.length * w, false)] else [(.l, m.length * w, false)]), none, none⟩
  else if w < 1 / 100000000000000 ∨ m.thick = false ∨ m.length = 0 then
    .multipole ⟨[(.lrad, m.length * w, false), (.angle, if m.hxl ≠ 0 then m.hxl * w else 0, false)], some m.knl, some m.ksl⟩
  else if m.hxl = 0 then .sbend ⟨[(.l, m.length * w, false)], some m.knl, some m.ksl⟩
  else .assertion

/-- The length of a multipole or corrector: `l`, or else `lrad`, loader.py:476-479. -/
def readLength (t : Text) : ℝ := (t.get .l).getD (t.value .lrad)

/-- The loader for correctors and multipoles, loader.py:105-106,476-479,517-535,551-555. Thick multipoles are read as bends and are not
covered. -/
noncomputable def Multipole.read : Written → Option Multipole
  | .kicker t => some ⟨[ifNonzero (t.value .hkick) (fun x => -x)], [ifNonzero (t.value .vkick) id], 0, readLength t,
      (t.get .l).isSome⟩
  | .multipole t => some ⟨t.knl.getD [], t.ksl.getD [],
      if t.value .angle ≠ 0 then t.value .angle else (t.knl.getD []).getD 0 0, readLength t, (t.get .l).isSome⟩
  | .sbend _ => none
  | .assertion => none

/-! ### Positions -/

/-- An entry of a line: its name, its length (zero for thin ones), and whether it is a drift made for the gap between two elements. -/
structure Entry where
  name : ℕ
  len : ℝ
  gap : Bool

/-- The names in the table of the line: alone, or with the number of the occurrence for those which occur more than once,
line.py:1059-1062. -/
def tableNames (names : List ℕ) : List (ℕ × Option ℕ) :=
  (List.range names.length).map fun i =>
    let n := names.getD i 0
    if names.count n ≤ 1 then (n, none) else (n, some ((names.take i).count n))

/-- The positions `s` in the table. -/
def starts : ℝ → List Entry → List ℝ
  | _, [] => []
  | s, e :: r => s :: starts (s + e.len) r

/-- The dictionary of the places, mad_writer.py:694-706: `s` for thin entries, the middle for thick ones; keyed by the names of the
table. The entries of the dictionary for gaps are left out. -/
noncomputable def places (line : List Entry) : List ((ℕ × Option ℕ) × ℝ) :=
  ((tableNames (line.map Entry.name)).zip ((starts 0 line).zip line)).filterMap fun p =>
    if p.2.2.gap then none else some (p.1, 1 / 2 * (p.2.1 + (p.2.1 + p.2.2.len)))

/-- Look up in the dictionary. -/
noncomputable def place (line : List Entry) (n : ℕ) : Option ℝ :=
  ((places line).find? fun p => p.1 = (n, none)).map fun p => p.2

/-- The statements of the sequence, mad_writer.py:708-726: name, length and `at`; `none` is the exception for a missing key. -/
noncomputable def statements (line : List Entry) : List Entry → Option (List (ℕ × ℝ × ℝ))
  | [] => some []
  | e :: r => if e.gap then statements line r else match place line e.name, statements line r with
    | some at', some t => some ((e.name, e.len, at') :: t)
    | _, _ => none

/-- The sequence read back: elements by their centres, with their starts. -/
noncomputable def readBack (l : List (ℕ × ℝ × ℝ)) : List (ℕ × ℝ) := l.map fun p => (p.1, p.2.2 - p.2.1 / 2)

end Verif.Mad.Round
