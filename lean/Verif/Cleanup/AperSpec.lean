import Verif.Cleanup.Aper

/-!
# What removing redundant apertures is allowed to do
-/

namespace Verif.Cleanup

open Frames

variable {A : Type}

/-- The element called `n` is the aperture `a`. -/
def IsAperture (d : Dict A) (n : String) (a : A) : Prop := (d n).el = .aper a

/-- `n` only lets the particles fly on: a marker (itself, not a replica) or a drift, not in the list of drifts that need an
aperture. -/
def Passive (d : Dict A) (need : List String) (n : String) : Prop :=
  n ∉ need ∧ (((d n).el = .marker ∧ (d n).isReplica = false) ∨ ∃ ex l, (d n).el = .drift ex l)

/-- The line is `… u … n … v …`: `u` and `v` are still there, they are the same aperture as `n`, and whatever is between them is
passive or was removed. -/
def Redundant (d : Dict A) (need : List String) (names out : List String) (n : String) : Prop :=
  ∃ a l1 u q1 q2 v l2,
    names = l1 ++ u :: (q1 ++ n :: (q2 ++ v :: l2)) ∧
    IsAperture d n a ∧ IsAperture d u a ∧ IsAperture d v a ∧ u ∈ out ∧ v ∈ out ∧
    ∀ x ∈ q1 ++ q2, Passive d need x ∨ x ∉ out

open Classical in
/-- One particle through one element; `none`: lost.  `inside a` is the opening of the aperture `a`. -/
noncomputable def through (inside : A → Set (ℝ × ℝ)) (e : Base A) (p : Part) : Option Part :=
  match e with
  | .aper a => if (p.x, p.y) ∈ inside a then some p else none
  | .marker => some p
  | .drift ex l => some (if ex then driftExact p l else driftExpanded p l)
  | .active f => f p

/-- One particle through a line. -/
noncomputable def fly (inside : A → Set (ℝ × ℝ)) (d : Dict A) : List String → Part → Option Part
  | [], p => some p
  | n :: ns, p => (through inside (d n).el p).bind (fly inside d ns)

end Verif.Cleanup
