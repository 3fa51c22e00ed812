/-!
# MultiSetter

Sources: /repo/xtrack/multisetter/multisetter.py, /repo/xtrack/multisetter/multisetter.h.

The tracker buffer is a function from byte addresses to bytes (addresses are integers, so that an access at a wrong
place is visible).  A value of a type of `w` bytes is its sequence of bytes; how numbers are encoded does not matter
here.  An element is described by the field that the attribute access finds: its address in the buffer
and its type.
-/

namespace Verif.MultiSetter

abbrev Byte := BitVec 8

/-- Bytes of the tracker buffer. -/
abbrev Buf := Int → Byte

/-- Types of fields; the first three are the supported ones, multisetter.py:107-111. -/
inductive Ty where
  | float64
  | int64
  | int32
  | other
  deriving DecidableEq

/-- Size in bytes. -/
def Ty.width : Ty → Nat
  | .float64 => 8
  | .int64 => 8
  | .int32 => 4
  | .other => 0

/-- A value, byte by byte. -/
abbrev Value (w : Nat) := Fin w → Byte

/-- `*((T*)(buffer + offs))`. -/
def load (w : Nat) (b : Buf) (off : Int) : Value w := fun j => b (off + j.val)

/-- `*((T*)(buffer + offs)) = val`. -/
def store (w : Nat) (b : Buf) (off : Int) (v : Value w) : Buf :=
  fun a => if h : 0 ≤ a - off ∧ (a - off).toNat < w then v ⟨(a - off).toNat, h.2⟩ else b a

/-- The field of an element selected by `field` and `index`. -/
structure Field where
  address : Nat
  type : Ty
  deriving DecidableEq

/-- multisetter.py:175-205, `_extract_offset`.  `none` as field: the element does not have it (`AttributeError`).
`none` as result: an exception. -/
def extractOffset (dtype : Ty) (skip : Bool) : Option Field → Option Int
  | none => none
  | some f => if f.type ≠ dtype then (if skip then some (-1) else none) else some f.address

/-- A MultiSetter: element type and offsets. -/
structure Setter where
  dtype : Ty
  offsets : List Int
  deriving DecidableEq

/-- multisetter.py:68-128, `__init__` (the type given by the user, the default is float64). -/
def Setter.new (dtype : Ty) (skip : Bool) (elements : List (Option Field)) : Option Setter :=
  if elements = [] then some ⟨dtype, []⟩
  else if dtype = .other then none
  else (elements.mapM (extractOffset dtype skip)).map (fun o => ⟨dtype, o⟩)

/-- One thread of `get_values_at_offsets_*`, multisetter.h:20-28; `out` starts as zeros, multisetter.py:150. -/
def Setter.getOne (s : Setter) (b : Buf) (offs : Int) : Value s.dtype.width :=
  if 0 ≤ offs then load _ b offs else fun _ => 0

/-- multisetter.py:145-153, `get_values` (each thread writes its own entry of `out`, so the order does not matter). -/
def Setter.getValues (s : Setter) (b : Buf) : List (Value s.dtype.width) := s.offsets.map (s.getOne b)

/-- One thread of `set_values_at_offsets_*`, multisetter.h:70-78. -/
def Setter.setOne (s : Setter) (input : List (Value s.dtype.width)) (b : Buf) (ii : Nat) : Buf :=
  match s.offsets[ii]?, input[ii]? with
  | some offs, some val => if 0 ≤ offs then store _ b offs val else b
  | _, _ => b

/-- multisetter.py:155-168, `set_values`; the threads run in the order `order` (a permutation of the indices; the
natural order on CPU without OpenMP). -/
def Setter.setValues (s : Setter) (order : List Nat) (input : List (Value s.dtype.width)) (b : Buf) : Buf :=
  order.foldl (s.setOne input) b

end Verif.MultiSetter
