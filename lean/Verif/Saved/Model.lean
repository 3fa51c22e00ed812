import Mathlib.Algebra.Order.Ring.Rat
import Mathlib.Algebra.Order.AbsoluteValue.Basic
import Mathlib.Algebra.Order.Floor.Ring
import Mathlib.Data.Rat.Floor
import Mathlib.Tactic.Linarith
import Mathlib.Tactic.NormNum

/-!
# Writing elements to dictionaries and reading them back

`element.to_dict()` and `Class.from_dict(dct)` (`xtrack/base_element.py:557-583`) and the classes which change one of the two or
whose constructor does not take back what was stored.

The generic part of both is in the package xobjects, which is not part of the repository. What is taken for granted about it:
`to_dict` stores every field of the structure whose value differs from the default of the field (fields equal to their default may
or may not be stored: `drop` below is arbitrary), and `from_dict` calls the constructor with the stored entries. Values are exact
numbers; contexts and buffers are left out.
-/

namespace Verif.Saved

/-- What a field can hold. -/
inductive Val where
  | num (x : ℚ)
  | arr (l : List ℚ)
  | text (s : String)
  deriving DecidableEq

/-- Entries of a dictionary. -/
abbrev Dict := List (String × Val)

/-- Look up a key. -/
def get (d : Dict) (k : String) : Option Val := (d.find? fun e => e.1 = k).map (·.2)

/-- A class as far as storing is concerned: its fields with their defaults. -/
abbrev Cls := List (String × Val)

/-- An element: the values of its fields and the three attributes which live in Python only
(`name_associated_aperture`, `extra`, `prototype`). -/
structure Elem where
  val : String → Val
  aper : Option String
  extra : Dict
  proto : Option String

/-- What `to_dict` returns. -/
structure Stored where
  fields : Dict
  aper : Option String
  extra : Option Dict
  proto : Option String

/-- `BeamElement.to_dict`, base_element.py:557-565; `drop` says which of the fields equal to their default are not stored. -/
def toDict (c : Cls) (drop : String → Bool) (e : Elem) : Stored :=
  { fields := c.filterMap fun f => if e.val f.1 = f.2 ∧ drop f.1 = true then none else some (f.1, e.val f.1)
    aper := e.aper
    extra := if e.extra.isEmpty then none else some e.extra
    proto := e.proto }

/-- `BeamElement.from_dict`, base_element.py:567-583, for a class whose constructor gives each field the entry passed for it or its
default. The second component is the dictionary of the caller afterwards: `name_associated_aperture` is popped from it. -/
def fromDict (c : Cls) (s : Stored) : Elem × Stored :=
  ({ val := fun n => ((get s.fields n).orElse fun _ => get c n).getD (.num 0)
     aper := s.aper
     extra := s.extra.getD []
     proto := s.proto },
   { s with aper := none })

/-! ### Multipolar strengths -/

/-- The tolerance `1e-16` below which arrays are taken as zero. -/
def tiny : ℚ := 1 / 10 ^ 16

/-- `np.allclose(l, 0, atol=1e-16)`. -/
def allSmall (l : List ℚ) : Bool := l.all fun v => |v| ≤ tiny

/-- The arrays of an element with multipolar kicks. -/
structure Multi where
  order : ℕ
  knl : List ℚ
  ksl : List ℚ
  deriving DecidableEq

/-- Pad with zeros. -/
def pad (n : ℕ) (l : List ℚ) : List ℚ := l ++ List.replicate (n - l.length) 0

/-- `_prepare_multipolar_params`, _common.py:481-541, for `knl` and `ksl`. -/
def prepare (order : ℕ) (knl ksl : Option (List ℚ)) : Multi :=
  let n := max (order + 1) (max (knl.getD []).length (ksl.getD []).length)
  { order := n - 1, knl := pad n (knl.getD []), ksl := pad n (ksl.getD []) }

/-- `order or default`. -/
def orElse (order : Option ℕ) (dflt : ℕ) : ℕ :=
  match order with
  | none => dflt
  | some 0 => dflt
  | some k => k

/-- The constructors: `_HasKnlKsl.__init__`, _common.py:419-443, with `dflt = 5`; `Multipole.__init__`, multipole.py:137-150, with
`dflt = 0`. -/
def makeMulti (dflt : ℕ) (order : Option ℕ) (knl ksl : Option (List ℚ)) : Multi := prepare (orElse order dflt) knl ksl

/-- The entries `knl`, `ksl`, `order` of the dictionary. -/
structure MultiDict where
  knl : Option (List ℚ)
  ksl : Option (List ℚ)
  order : Option ℕ

/-- `_HasKnlKsl.to_dict`, _common.py:405-417. -/
def multiToDict (m : Multi) : MultiDict :=
  let knl := if allSmall m.knl then none else some m.knl
  let ksl := if allSmall m.ksl then none else some m.ksl
  { knl := knl, ksl := ksl, order := if m.order ≠ 0 ∧ knl = none ∧ ksl = none then some m.order else none }

/-- Write and read. -/
def multiReload (dflt : ℕ) (m : Multi) : Multi :=
  let d := multiToDict m
  makeMulti dflt d.order d.knl d.ksl

/-! ### Dipole edges -/

/-- A dipole edge: its strengths, the indices of model and side, the position (three shifts and four rotations), the taper and the
attributes in Python; dipole_edge.py:36-65 and the fields added by base_element.py to every element. -/
structure DipEdge where
  k : ℚ
  e1 : ℚ
  e1fd : ℚ
  hgap : ℚ
  fint : ℚ
  model : ℕ
  side : ℕ
  place : List ℚ
  taper : ℚ
  aper : Option String
  extra : Dict
  proto : Option String
  deriving DecidableEq

/-- The dictionary of a dipole edge. -/
structure DipDict where
  k : Option ℚ
  e1 : Option ℚ
  e1fd : Option ℚ
  hgap : Option ℚ
  fint : Option ℚ
  model : Option ℕ
  side : Option ℕ

/-- `if not np.isclose(value, 0, atol=1e-16): out[field_name] = value`. -/
def unlessTiny (x : ℚ) : Option ℚ := if |x| ≤ tiny then none else some x

/-- `DipoleEdge.to_dict`, dipole_edge.py:108-124. -/
def dipToDict (e : DipEdge) : DipDict :=
  { k := unlessTiny e.k, e1 := unlessTiny e.e1, e1fd := unlessTiny e.e1fd, hgap := unlessTiny e.hgap, fint := unlessTiny e.fint
    model := if e.model ≠ 0 then some e.model else none
    side := if e.side ≠ 0 then some e.side else none }

/-- `DipoleEdge.__init__`, dipole_edge.py:67-106, called with the entries of the dictionary. -/
def dipFromDict (d : DipDict) : DipEdge :=
  { k := d.k.getD 0, e1 := d.e1.getD 0, e1fd := d.e1fd.getD 0, hgap := d.hgap.getD 0, fint := d.fint.getD 0
    model := d.model.getD 0, side := d.side.getD 0
    place := List.replicate 7 0, taper := 0, aper := none, extra := [], proto := none }

/-! ### Magnet edges -/

/-- A magnet edge: the two pairs of arrays with their orders (`-1` for empty arrays); magnet_edge.py:63-78. -/
structure MagEdge where
  kn : List ℚ
  ks : List ℚ
  kOrder : ℤ
  knl : List ℚ
  ksl : List ℚ
  klOrder : ℤ

/-- `_prepare_multipolar_params` with an order which may be `-1` (and with `order or 0`), _common.py:481-541. -/
def prepareInt (order : ℤ) (a b : List ℚ) : List ℚ × List ℚ × ℤ :=
  let n := max (order + 1).toNat (max a.length b.length)
  (pad n a, pad n b, (n : ℤ) - 1)

/-- `MagnetEdge.__init__`, magnet_edge.py:98-119, called with arrays (empty if not given). -/
def makeMag (kn ks knl ksl : List ℚ) : MagEdge :=
  let a := prepareInt (-1) kn ks
  let b := prepareInt (-1) knl ksl
  { kn := a.1, ks := a.2.1, kOrder := a.2.2, knl := b.1, ksl := b.2.1, klOrder := b.2.2 }

/-- `MagnetEdge.to_dict`, magnet_edge.py:133-153: `none` is the `AttributeError` of `self.order`, which a magnet edge does not
have. Otherwise the four arrays which are stored. -/
def magToDict (e : MagEdge) : Option (List (Option (List ℚ))) :=
  let keep := fun l : List ℚ => if allSmall l then none else some l
  if e.klOrder ≠ -1 ∧ keep e.knl = none ∧ keep e.ksl = none then none
  else if e.kOrder ≠ -1 ∧ keep e.kn = none ∧ keep e.ks = none then none
  else some [keep e.kn, keep e.ks, keep e.knl, keep e.ksl]

/-! ### Exciters -/

/-- An exciter; exciter.py:84-94. -/
structure Exciter where
  knl : List ℚ
  ksl : List ℚ
  samples : List ℚ
  fs : ℚ
  frev : ℚ
  start : ℤ
  /-- number of samples during which it acts -/
  nduration : ℤ
  deriving DecidableEq

/-- `Exciter.__init__`, exciter.py:101-137, with samples and at least one of the arrays given. -/
def makeExciter (samples : List ℚ) (fs frev : ℚ) (knl ksl : List ℚ) (start : ℤ) (duration : Option ℚ) : Exciter :=
  let n := max knl.length ksl.length
  { knl := pad n knl, ksl := pad n ksl, samples := samples, fs := fs, frev := frev, start := start
    nduration := match duration with
      | none => samples.length
      | some d => ⌊d * fs⌋ }

/-- Write and read: the constructor gets the stored fields; `nduration` is among them but is overwritten, and there is no field
`duration`. -/
def exciterReload (e : Exciter) : Exciter := makeExciter e.samples e.fs e.frev e.knl e.ksl e.start none

/-! ### AC dipoles -/

/-- An AC dipole with the two attributes which live in Python only; acdipole.py:73-88, 158-160. -/
structure ACDip where
  volt : ℚ
  freq : ℚ
  beta : ℚ
  naturalQ : ℚ
  effGrad : ℚ

/-- The gradient of the tunes and the beta function; acdipole.py:166-176. The formula itself is a parameter. -/
def setEffGrad (formula : ℚ → ℚ → ℚ → ℚ) (a : ACDip) : ACDip :=
  { a with effGrad := if a.beta = 0 then 0 else formula a.freq a.naturalQ a.beta }

/-- The constructor; acdipole.py:103-164. -/
def makeAC (formula : ℚ → ℚ → ℚ → ℚ) (volt freq beta naturalQ : ℚ) : ACDip :=
  setEffGrad formula { volt := volt, freq := freq, beta := beta, naturalQ := naturalQ, effGrad := 0 }

/-- Write and read when the constructor accepts the entries: `beta_at_acdipole` and `natural_q` are not fields. -/
def acReload (formula : ℚ → ℚ → ℚ → ℚ) (a : ACDip) : ACDip := makeAC formula a.volt a.freq 0 0

/-- Setting `freq`; acdipole.py:182-185. -/
def setFreq (formula : ℚ → ℚ → ℚ → ℚ) (a : ACDip) (f : ℚ) : ACDip := setEffGrad formula { a with freq := f }

/-! ### Rotations -/

/-- A rotation: angles about `s`, `x`, `y` and the sequence of axes; rotation.py:29-36. -/
structure Rot where
  s : ℚ
  x : ℚ
  y : ℚ
  seq : List Char
  deriving DecidableEq

/-- `_ROT_AX_TO_ID`, `_ROT_ID_TO_AX`, _common.py:543. -/
def axId (c : Char) : Option ℕ := if c = 'x' then some 0 else if c = 'y' then some 1 else if c = 's' then some 2 else none

/-- The setter of `seq` accepts the permutations; rotation.py:81-87. -/
def seqOk (l : List Char) : Bool := l.length = 3 && l.contains 'x' && l.contains 'y' && l.contains 's'

/-- The constructor; rotation.py:38-62. -/
def makeRot (s x y : ℚ) (seq : List Char) : Option Rot := if seqOk seq then some ⟨s, x, y, seq⟩ else none

/-- `Rotation.to_dict` (rotation.py:64-68) and the constructor again: the default sequence is not stored. -/
def rotReload (r : Rot) : Option Rot :=
  let stored : Option (List Char) := if r.seq = ['y', 'x', 's'] then none else some r.seq
  makeRot r.s r.x r.y (stored.getD ['y', 'x', 's'])

end Verif.Saved
