import Mathlib.Algebra.Order.Floor.Ring
import Mathlib.Data.Rat.Floor
import Mathlib.Tactic.Linarith
import Mathlib.Tactic.Ring
import Mathlib.Tactic.NormNum
import Mathlib.Data.List.Sort
import Mathlib.Data.List.GetD

/-!
Intervals of positions around a ring (xtrack/aperture/aperture.py): the shortest one which covers given points, and one cut into pieces
at the end of the line. Positions are rationals.
-/
namespace Verif.AperModel.Intervals

/-- `np.mod(x, L)`: the remainder in `[0, L)`. -/
def md (x L : Rat) : Rat := x - L * ⌊x / L⌋

/-- `np.sort`. -/
def sorted (l : List Rat) : List Rat := l.insertionSort (· ≤ ·)

/-- `np.diff(points, append=points[0] + line_length)[i]`, aperture.py:68. -/
def gap (q : List Rat) (L : Rat) (i : Nat) : Rat :=
  (if i + 1 < q.length then q.getD (i + 1) 0 else q.getD 0 0 + L) - q.getD i 0

/-- `np.argmax` of the first `n` gaps: the first of the largest ones. -/
def widest (q : List Rat) (L : Rat) : Nat → Nat
  | 0 => 0
  | n + 1 => if gap q L (widest q L n) < gap q L n then n else widest q L n

/-- `_shortest_circular_interval`, aperture.py:51-73; `none` is the exception for no points. -/
def shortest (points : List Rat) (L : Rat) : Option (Rat × Rat × Rat) :=
  match sorted (points.map (md · L)) with
  | [] => none
  | [p] => some (p, p, 0)
  | q => some (q.getD ((widest q L q.length + 1) % q.length) 0, q.getD (widest q L q.length) 0,
      md (q.getD (widest q L q.length) 0 - q.getD ((widest q L q.length + 1) % q.length) 0) L)

/-- `_split_wrapped_s_interval`, aperture.py:76-104. -/
def split (start stop L : Rat) (wrap : Bool) (tol : Rat) : List (Rat × Rat) :=
  if wrap then
    if md start L > md stop L + tol then
      [(md start L, L), (0, md stop L)].filter fun p => decide (p.2 - p.1 > tol)
    else [(md start L, md stop L)]
  else [(start, stop)]

/-- `np.clip(x, 0, L)`. -/
def clip (L x : Rat) : Rat := if x < 0 then 0 else if L < x then L else x

/-- The positions of `s_around_transitions` without a regular grid, aperture.py:1755-1836, before they are sorted and repetitions removed. -/
def around (bounds : List Rat) (L tol : Rat) (ring : Bool) (range : Option (Rat × Rat)) : List Rat :=
  match range with
  | none => (bounds.map (· - tol) ++ bounds.map (· + tol)).map (clip L)
  | some r => ((bounds.map (· - tol) ++ bounds.map (· + tol)).map (clip L)).filter fun s =>
      (split r.1 r.2 L ring tol).any fun p => decide (p.1 ≤ s) && decide (s ≤ p.2)

/-! ## The row of the optics table for a position, aperture.py:1977-1997 -/

/-- `np.searchsorted(t, s, side='right')` on a table in order: the number of rows at or before `s`. -/
def searchRight (t : List Rat) (s : Rat) : Nat := t.countP (fun x => decide (x ≤ s))

/-- `np.searchsorted(t, s, side='left')`. -/
def searchLeft (t : List Rat) (s : Rat) : Nat := t.countP (fun x => decide (x < s))

/-- `np.clip(i, 0, len - 1)`; `i` may be -1. -/
def clipIdx (n : Nat) (i : Int) : Nat := (max 0 (min i ((n : Int) - 1))).toNat

/-- The row which `_sliced_twiss_at_s` takes for the position `s`. -/
def nearest (t : List Rat) (s : Rat) : Nat :=
  if |t.getD (clipIdx t.length (searchLeft t s)) 0 - s| ≤ |t.getD (clipIdx t.length ((searchRight t s : Int) - 1)) 0 - s|
  then clipIdx t.length (searchLeft t s) else clipIdx t.length ((searchRight t s : Int) - 1)

end Verif.AperModel.Intervals
