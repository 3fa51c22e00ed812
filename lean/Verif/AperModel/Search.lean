import Mathlib.Data.Rat.Defs
import Mathlib.Algebra.Order.Ring.Rat
import Mathlib.Tactic.Linarith

/-!
Searches in the aperture model (xtrack/aperture).

* `zigzag_iterator_next` walks over the segments of the survey, beginning at the reference of a pipe, until one is found which meets
  the plane of a profile;
* `find_active_profile_for_s` and `resample_survey_table` walk over the bounds and over the survey with an index kept from one
  requested position to the next.

Positions are rationals, the indices integers without the limits of 32 bits.
-/
namespace Verif.AperModel.Search

/-! ## The zigzag iterator, headers/zigzag_iterate.h -/

/-- `ZigZagIterator`, zigzag_iterate.h:4-11 (`visited` is never used). -/
structure Zig where
  index : Int
  offset : Int
  start : Int
  ub : Int
deriving DecidableEq, Repr

/-- `zigzag_iterator_new`, zigzag_iterate.h:14-29. -/
def Zig.new (start ub : Int) : Zig := ⟨start, 0, start, ub⟩

/-- `zigzag_iterator_next_wrapping`, zigzag_iterate.h:32-84; `none` is the return value 0. The remainder is that of C. -/
def nextWrapping (z : Zig) : Option Zig :=
  if z.ub ≤ 1 then none
  else if z.offset = 0 then some (move z 1)
  else if z.offset > 0 then
    if 2 * z.offset = z.ub then none else some (move z (-z.offset))
  else
    if -z.offset + 1 > z.ub / 2 then none else some (move z (-z.offset + 1))
where
  /-- zigzag_iterate.h:76-82. -/
  move (z : Zig) (off : Int) : Zig :=
    { z with offset := off,
             index := if (z.start + off).tmod z.ub < 0 then (z.start + off).tmod z.ub + z.ub else (z.start + off).tmod z.ub }

/-- zigzag_iterate.h:129: is the index within the bounds? -/
def checked (z : Zig) : Option Zig := if z.index < 0 ∨ z.ub ≤ z.index then none else some z

/-- `zigzag_iterator_next_bounded`, zigzag_iterate.h:87-131. -/
def nextBounded (z : Zig) : Option Zig :=
  if z.offset = 0 then checked { z with offset := z.offset + 1, index := z.index + 1 }
  else if z.offset > 0 then
    if z.index - 2 * z.offset < 0 then checked { z with index := z.index + 1, offset := z.offset + 1 }
    else checked { z with index := z.index - 2 * z.offset, offset := -z.offset }
  else
    if z.index + (-2 * z.offset + 1) ≥ z.ub then checked { z with index := z.index - 1, offset := z.offset - 1 }
    else checked { z with index := z.index + (-2 * z.offset + 1), offset := 1 - z.offset }

/-- `zigzag_iterator_next`, zigzag_iterate.h:134-138. -/
def next (wrap : Bool) (z : Zig) : Option Zig := if wrap then nextWrapping z else nextBounded z

/-- The state of the iterator after `k` calls, if none of them returned 0. -/
def after (wrap : Bool) (z : Zig) : Nat → Option Zig
  | 0 => some z
  | k + 1 => (after wrap z k).bind (next wrap)

/-- The loop `do … while (zigzag_iterator_next(&it))` of `survey_s_for_aperture`, cross_sections.h:884-921 and of
`bounds_on_s_for_aperture`, cross_sections.h:1020-1065: the first segment which is accepted. `fuel` bounds the number of rounds. -/
def search (wrap : Bool) (hit : Int → Bool) : Nat → Zig → Option Int
  | 0, _ => none
  | fuel + 1, z => if hit z.index then some z.index else
      match next wrap z with
      | none => none
      | some z' => search wrap hit fuel z'

/-! ## Bounds and survey segments for a requested position -/

/-- The loop of `find_active_profile_for_s`, cross_sections.h:1114-1117; the fuel is the number of bounds left. -/
def advance (starts : List Rat) (s : Rat) : Nat → Nat → Nat
  | 0, idx => idx
  | fuel + 1, idx => match starts[idx + 1]? with
    | some b => if b ≤ s then advance starts s fuel (idx + 1) else idx
    | none => idx

/-- `find_active_profile_for_s`, cross_sections.h:1072-1120, for a list of bounds which is not empty. -/
def active (ring : Bool) (starts : List Rat) (lower : Nat) (s : Rat) : Nat :=
  if ring = true ∧ s < starts.headD 0 then starts.length - 1
  else advance starts s starts.length
    (if ring = true ∧ lower = starts.length - 1 ∧ starts.headD 0 ≤ s then 0 else lower)

/-- The loop over the requested positions, cross_sections.h:444-472: the index found is where the next search begins. -/
def actives (ring : Bool) (starts : List Rat) : Nat → List Rat → List Nat
  | _, [] => []
  | lower, s :: rest => active ring starts lower s :: actives ring starts (active ring starts lower s) rest

/-- `APER_PRECISION`, base.h:13. -/
abbrev eps : Rat := 1 / 1000000

/-- The fast-forward of `resample_survey_table`, survey_tools.h:331-339; `fuel` is the number of segments left. -/
def forward (sv : List Rat) (s : Rat) : Nat → Nat → Nat
  | 0, i => i
  | fuel + 1, i =>
    if i + 2 < sv.length then
      if sv.getD i 0 ≤ s ∧ s ≤ sv.getD (i + 1) 0 then i else forward sv s fuel (i + 1)
    else i

/-- Where the pose of a requested position is taken from. -/
inductive Place where
  /-- Out of the survey: not a number. -/
  | outside
  /-- The first row. -/
  | first
  /-- The last row. -/
  | last
  /-- Interpolated in the segment between two rows. -/
  | segment (i : Nat)
deriving DecidableEq, Repr

/-- One round of `resample_survey_table`, survey_tools.h:307-343: the place, and the index kept for the next round. -/
def resample1 (sv : List Rat) (i : Nat) (s : Rat) : Place × Nat :=
  if s < sv.headD 0 - eps ∨ s > sv.getD (sv.length - 1) 0 + eps then (.outside, i)
  else if s ≤ sv.headD 0 + eps then (.first, i)
  else if s ≥ sv.getD (sv.length - 1) 0 - eps then (.last, i)
  else (.segment (forward sv s sv.length i), forward sv s sv.length i)

/-- `resample_survey_table`, survey_tools.h:281-345. -/
def resample (sv : List Rat) : Nat → List Rat → List Place
  | _, [] => []
  | i, s :: rest => (resample1 sv i s).1 :: resample sv (resample1 sv i s).2 rest

/-! ## Cuts of an element, aperture.py:1567-1580 -/

/-- `np.linspace(a, b, n)`. -/
def linspace (a b : Rat) (n : Nat) : List Rat :=
  (List.range n).map fun (i : Nat) => if n = 1 then a else a + (b - a) * (i : Rat) / ((n : Rat) - 1)

/-- `_get_cuts_at_element`. -/
def cuts (start len : Rat) : Option Rat → List Rat
  | some res => linspace start (start + len) (len / res).floor.toNat
  | none => [start, start + len]

end Verif.AperModel.Search
