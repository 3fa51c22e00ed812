import Verif.Frames.Model

/-!
# `Line.remove_redundant_apertures`

Source: /repo/xtrack/line.py 5308-5399 and the helpers 7715-7803.

Simplifications.
* Every name of a line is in the element dictionary (the environment guarantees it).
* The description of an aperture (class and `to_dict()`) is an arbitrary type `A` with decidable equality:
  `_apertures_equal` compares the classes and the dictionaries entry by entry.  Fields that are not a number are not modelled.
* An element is what is left after following replicas, together with the flag telling that the entry itself is a `Replica`
  (`isinstance(ee, Marker)` does not follow replicas, `_is_aperture` and `_is_drift` do).
* Deferred expressions make the method raise before it does anything; they are left out.
-/

namespace Verif.Cleanup

open Frames

/-- What the clean-up methods distinguish.  `active` is any element that is not an aperture, a marker or a drift; its
tracking function may lose the particle. -/
inductive Base (A : Type) where
  | aper (a : A)
  | marker
  | drift (exact : Bool) (l : ℝ)
  | active (f : Part → Option Part)

/-- An entry of the element dictionary. -/
structure Entry (A : Type) where
  isReplica : Bool
  el : Base A

abbrev Dict (A : Type) := String → Entry A

variable {A : Type}

/-- `_is_aperture`; line.py:7737-7740. -/
def isAper (e : Entry A) : Bool := match e.el with | .aper _ => true | _ => false

/-- `_is_drift`; line.py:7722-7729. -/
def isDrift (e : Entry A) : Bool := match e.el with | .drift _ _ => true | _ => false

/-- `isinstance(ee, Marker)`. -/
def isMarker (e : Entry A) : Bool := match e.el with | .marker => !e.isReplica | _ => false

/-- `_apertures_equal`; line.py:7787-7797.  `none`: `ValueError`. -/
def apEq [DecidableEq A] (e1 e2 : Entry A) : Option Bool :=
  match e1.el, e2.el with
  | .aper a, .aper b => some (decide (a = b))
  | _, _ => none

/-- The local variables `aper_0`, `aper_m1`, `aper_m2`, `aper_to_remove`; line.py:5352-5358. -/
structure Regs where
  m0 : Option String
  m1 : Option String
  m2 : Option String
  rem : List String

/-- The first half of the body of the loop; line.py:5361-5372. -/
def shift (d : Dict A) (need : List String) (r : Regs) (n : String) : Regs :=
  if isAper (d n) then { r with m2 := r.m1, m1 := r.m0, m0 := some n }
  else if (!isMarker (d n) && !isDrift (d n)) || decide (n ∈ need) then { r with m0 := none, m1 := none, m2 := none }
  else r

/-- The second half: three equal apertures; line.py:5373-5385.  `none`: an exception (`KeyError`, `ValueError`). -/
def check [DecidableEq A] (d : Dict A) (keep : List String) (r : Regs) : Option Regs :=
  match r.m2 with
  | none => some r
  | some c =>
    match r.m1, r.m0 with
    | some b, some a =>
      match apEq (d a) (d b), apEq (d b) (d c) with
      | some true, some true => if b ∉ keep then some { r with rem := r.rem ++ [b], m1 := some c, m2 := none } else some r
      | some true, some false => some r
      | some false, _ => some r
      | _, _ => none
    | _, _ => none

/-- The loop over the line; line.py:5360-5385. -/
def scan [DecidableEq A] (d : Dict A) (keep need : List String) : List String → Regs → Option Regs
  | [], r => some r
  | n :: ns, r =>
    match check d keep (shift d need r n) with
    | none => none
    | some r' => scan d keep need ns r'

/-- `line.remove_redundant_apertures(keep=, drifts_that_need_aperture=)`: the names afterwards; line.py:5308-5399.
`list.remove` takes away the first entry with that name. -/
def removeRedundant [DecidableEq A] (d : Dict A) (keep need : List String) (names : List String) : Option (List String) :=
  match scan d keep need names ⟨none, none, none, []⟩ with
  | none => none
  | some r => some (r.rem.foldl List.erase names)

end Verif.Cleanup
