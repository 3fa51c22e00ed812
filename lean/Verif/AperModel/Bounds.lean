import Verif.AperModel.Intervals

/-!
Positions on a ring relative to a profile, mechanical tolerances between two profiles, the order of the profiles and the check for
overlapping pipes: xtrack/aperture/headers/cross_sections.h, xtrack/aperture/structures.py and xtrack/aperture/aperture.py. Numbers are
rationals instead of floating point numbers.
-/
namespace Verif.AperModel.Bounds

/-! ## Positions near a reference, cross_sections.h:931-960 -/

/-- `fmod` of C: the quotient is rounded towards zero. -/
def fmod (x l : Rat) : Rat := x - l * (if 0 ≤ x / l then ⌊x / l⌋ else ⌈x / l⌉ : Int)

/-- The two corrections, cross_sections.h:955-957. -/
def centre (d l : Rat) : Rat :=
  let d1 := if d > l / 2 then d - l else d
  if d1 < -(l / 2) then d1 + l else d1

/-- `normalize_s_near_reference`, cross_sections.h:931-960, for numbers. -/
def near (s ref l : Rat) : Rat := if l > 0 then ref + centre (fmod (s - ref) l) l else s

/-! ## Tolerances, cross_sections.h:756-848 -/

/-- `APER_PRECISION`, base.h:13. -/
abbrev eps : Rat := 1 / 1000000

/-- `clamp_value` with the limits 0 and 1. -/
def clamp01 (x : Rat) : Rat := if x < 0 then 0 else if x > 1 then 1 else x

/-- One tolerance of `interpolate_aperture_tolerances_at_s`, once the profile is found: `center` is its position and tolerance, `left`
and `right` those of the neighbours, absent at the ends of a line and if they belong to another pipe; `ring` is the length of a ring. -/
def tolerance (ring : Option Rat) (s : Rat) (center : Rat × Rat) (left right : Option (Rat × Rat)) : Rat :=
  if |s - center.1| < eps then center.2
  else
    let sn := match ring with | some l => near s center.1 l | none => s
    match (if sn ≥ center.1 then right else left) with
    | none => center.2
    | some side =>
      let ss := match ring with | some l => near side.1 center.1 l | none => side.1
      if |ss - center.1| < eps then center.2
      else
        let w := clamp01 ((sn - center.1) / (ss - center.1))
        (1 - w) * center.2 + w * side.2

/-! ## The order of the bounds, structures.py:312-408 -/

/-- `np.round`, to the nearest integer, halves to even ones. -/
def npround (x : Rat) : Int :=
  if x - ⌊x⌋ < 1 / 2 then ⌊x⌋ else if x - ⌊x⌋ > 1 / 2 then ⌊x⌋ + 1 else if ⌊x⌋ % 2 = 0 then ⌊x⌋ else ⌊x⌋ + 1

/-- `ApertureBounds.sort_by_s`, structures.py:312-316: a stable sort of the bounds, which are given by numbers. -/
def sortByS (start : Nat → Rat) (tol : Rat) (l : List Nat) : List Nat :=
  l.insertionSort fun a b => npround (start a / tol) ≤ npround (start b / tol)

/-- What is known of the bounds: the pipe and the number of the profile in it, the start, and for a pipe which does not wrap the first
and last position of its profiles. -/
structure Info where
  pipe : Nat → Nat
  profile : Nat → Nat
  start : Nat → Rat
  interval : Nat → Option (Rat × Rat)

/-- Is the overlap of the pipe with another one tolerated? structures.py:388-398. -/
def tolerated (f : Info) (tol : Rat) (own : Rat × Rat) (p q : Nat) : Bool :=
  match f.interval q with
  | none => false
  | some iv => !(q == p) && decide (own.1 ≤ iv.1) && decide (0 ≤ own.2 - iv.1) && decide (own.2 - iv.1 ≤ tol)

/-- The next profile of the same pipe is put directly after a bound, if what it crosses may be crossed, structures.py:361-405. -/
def pull (f : Info) (tol : Rat) (x : Nat) (rest : List Nat) : List Nat :=
  match f.interval (f.pipe x) with
  | none => rest
  | some own =>
    match rest.span (fun y => !(f.pipe y == f.pipe x && f.profile y == f.profile x + 1)) with
    | (crossed, next :: tail) =>
      if crossed.all (fun y => tolerated f tol own (f.pipe x) (f.pipe y)) = true ∧
          crossed.all (fun y => decide (f.start next - f.start y ≤ tol)) = true
      then next :: (crossed ++ tail) else rest
    | (_, []) => rest

/-- The loop of `reorder_for_tolerated_pipe_overlaps`, structures.py:360-407; the first argument is the number of bounds left. -/
def pass (f : Info) (tol : Rat) : Nat → List Nat → List Nat
  | n + 1, x :: rest => x :: pass f tol n (pull f tol x rest)
  | _, l => l

/-- `ApertureBounds.reorder_for_tolerated_pipe_overlaps`, structures.py:318-408. -/
def reorder (f : Info) (tol : Rat) (l : List Nat) : List Nat := if l.length < 2 ∨ tol ≤ 0 then l else pass f tol l.length l

/-! ## Overlapping pipes, aperture.py:1651-1683 -/

/-- The pieces of the pipes which are longer than the tolerance; `rows` are start, end and length. -/
def pieces (L tol : Rat) (ring : Bool) (rows : List (Rat × Rat × Rat)) : List (Rat × Rat) :=
  rows.flatMap fun r => if r.2.2 ≤ tol then [] else Intervals.split r.1 r.2.1 L ring tol

/-- The loop over the sorted pieces, with the last end so far (`none` is minus infinity): `false` is the exception. -/
def sweep (tol : Rat) : Option Rat → List (Rat × Rat) → Bool
  | _, [] => true
  | last, p :: rest =>
    if (match last with | none => false | some e => decide (p.1 < e - tol)) = true then false
    else sweep tol (match last with | none => some p.2 | some e => if p.2 > e then some p.2 else some e) rest

/-- `_check_pipe_bounds_validity`, from the pieces on. -/
def valid (tol : Rat) (ps : List (Rat × Rat)) : Bool := sweep tol none (ps.insertionSort fun a b => a.1 ≤ b.1)

end Verif.AperModel.Bounds
