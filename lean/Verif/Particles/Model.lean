import Verif.Loss.Model
import Mathlib.Data.Int.Order.Basic
/-!
# The `Particles` object: reorganize, add, merge, filter, sort, hide

Source: `/repo/xtrack/particles/particles.py` (CPU context).

Simplifications: all per-particle arrays are one list of records (every method treats all arrays
alike, except `_rng_s1.._rng_s4`, which `reorganize` and `add_particles` leave in place and which are
not part of the record here).  Integers do not overflow.  Scalar variables (`q0`, `mass0`, `t_sim`)
are not modelled.  Limiting of the visible arrays by `_lim_arrays_name` is done by the xobjects
library; it is modelled as taking the first `_num_active_particles` entries.
-/
namespace Verif.Particles
open Verif.Loss

variable {α : Type}

/-- `LAST_INVALID_STATE`; particles.py:80ff. -/
abbrev lastInvalid : Int := -999999999

/-- `state > 0`; particles.py:1232. -/
def alive (s : Slot α) : Bool := decide (0 < s.state)

/-- `(state < 1) & (state > LAST_INVALID_STATE)`; particles.py:1233. -/
def lost (s : Slot α) : Bool := decide (s.state < 1) && decide (lastInvalid < s.state)

/-- `state > LAST_INVALID_STATE`; particles.py:1288. -/
def allocated (s : Slot α) : Bool := decide (lastInvalid < s.state)

/-- The Python object: arrays, counters, and whether the lost particles are hidden. -/
structure Bunch (α : Type) where
  parts : Parts α
  hidden : Bool
  deriving DecidableEq

/-- An entry filled with `LAST_INVALID_STATE`; particles.py:1250. `blank` is the filling of the other
variables. -/
def blankSlot (blank : α) : Slot α := ⟨lastInvalid, lastInvalid, lastInvalid, lastInvalid, blank⟩

/-- `Particles.reorganize`, on the arrays; particles.py:1232-1254. -/
def reorganizeParts (blank : α) (slots : List (Slot α)) : Parts α :=
  let act := slots.filter alive
  let lst := slots.filter lost
  let nActive := act.length
  let nLost := lst.length
  let needs := !((slots.take nActive).all alive)
  if needs then
    ⟨act ++ lst ++ List.replicate (slots.length - (nActive + nLost)) (blankSlot blank), nActive, nLost⟩
  else ⟨slots, nActive, nLost⟩

/-- `Particles.reorganize`; particles.py:1198-1259.  Hidden lost particles are unhidden before and
hidden again afterwards. -/
def reorganize (blank : α) (b : Bunch α) : Bunch α := ⟨reorganizeParts blank b.parts.slots, b.hidden⟩

/-- What `getattr(self, name)` shows: the whole array, or the active part when the lost particles are
hidden (xobjects, `_lim_arrays_name = '_num_active_particles'`). -/
def visible (b : Bunch α) : List (Slot α) :=
  if b.hidden then b.parts.slots.take b.parts.nActive else b.parts.slots

/-- `hide_lost_particles()`; particles.py:1262-1269. -/
def hide (blank : α) (b : Bunch α) : Bunch α := reorganize blank { b with hidden := true }

/-- `unhide_lost_particles()` on CPU; particles.py:1271-1278. -/
def unhide (b : Bunch α) : Bunch α := { b with hidden := false }

/-- numpy slice assignment `view[start:start+n] = vals`: the slice is clipped to the length of the
view; lengths must agree, or `vals` has length one and is broadcast. -/
def assignSlice {β : Type} (view : List β) (start n : Nat) (vals : List β) : Option (List β) :=
  let lo := min start view.length
  let hi := min (start + n) view.length
  match vals with
  | [v] => some (view.take lo ++ List.replicate (hi - lo) v ++ view.drop hi)
  | _ => if vals.length = hi - lo then some (view.take lo ++ vals ++ view.drop hi) else none

/-- `np.max`; raises on an empty array. -/
def npMax : List Int → Option Int
  | [] => none
  | x :: xs => some (xs.foldl max x)

/-- `np.min`; raises on an empty array. -/
def npMin : List Int → Option Int
  | [] => none
  | x :: xs => some (xs.foldl min x)

/-- New ids `max_id+1, max_id+2, ...`; particles.py:1334-1336. -/
def renumber (first : Int) : List (Slot α) → List (Slot α)
  | [] => []
  | s :: rest => { s with id := first } :: renumber (first + 1) rest

/-- `add_particles(part)`; particles.py:1291-1338.  `none` stands for a raised exception.  Array
assignments act on the visible part of the arrays. -/
def addParticles (blank : α) (b : Bunch α) (part : Bunch α) : Option (Bunch α) := do
  let copy := (visible part).filter alive
  let b1 := reorganize blank b
  let used := b1.parts.nActive + b1.parts.nLost
  let nFree := b1.parts.slots.length - used
  let view := visible b1
  let maxId ← npMax ((view.take used).map (·.id))
  if copy.length > nFree then none
  else
    let view' ← assignSlice view used copy.length (renumber (maxId + 1) copy)
    let b2 : Bunch α := ⟨{ b1.parts with slots := view' ++ b1.parts.slots.drop view.length }, b1.hidden⟩
    return reorganize blank b2

/-- `filter(mask)`; particles.py:1090-1146: arrays `[mask]`, then `reorganize`.  An empty selection
raises because a `Particles` object must have positive capacity (particles.py:602). -/
def filterBunch (blank : α) (b : Bunch α) (mask : List Bool) : Option (Bunch α) :=
  let sel := ((visible b).zip mask).filterMap (fun p => if p.2 then some p.1 else none)
  if mask.length ≠ (visible b).length then none
  else if sel = [] then none
  else some ⟨reorganizeParts blank sel, false⟩

/-! ## merge

Records carry the parent id: `data = (parent_particle_id, rest)`. -/

/-- Shift the ids of one input; particles.py:1062-1067. `none` when no id is non-negative (`np.min` of
an empty array raises). -/
def shiftIds (maxIdCurr : Int) (slots : List (Slot (Int × α))) : Option (List (Slot (Int × α))) := do
  let ids := (slots.map (·.id)).filter (fun i => decide (0 ≤ i))
  let m ← npMin ids
  if m ≤ maxIdCurr then
    some (slots.map (fun s => if 0 ≤ s.id then
      { s with id := s.id + (maxIdCurr + 1), data := (s.data.1 + (maxIdCurr + 1), s.data.2) } else s))
  else some slots

/-- The copy loop of `merge`; particles.py:1052-1073. -/
def mergeLoop : Int → List (List (Slot (Int × α))) → Option (List (Slot (Int × α)))
  | _, [] => some []
  | cur, pp :: rest => do
    let new ← shiftIds cur pp
    let m ← npMax (new.map (·.id))
    let tail ← mergeLoop m rest
    return new ++ tail

/-- `Particles.merge(lst)` of objects whose lost particles are not hidden; particles.py:1002-1088. -/
def merge (blank : Int × α) (lst : List (Bunch (Int × α))) : Option (Bunch (Int × α)) := do
  let slots ← mergeLoop (-1) (lst.map (fun b => b.parts.slots))
  return ⟨reorganizeParts blank slots, false⟩

/-! ## sort -/

/-- Keys used by `sort`; particles.py:1179-1183. `toK` converts an id to the type of the key. -/
def sortKeys {K : Type} [Add K] (ten : K) (toK : Int → K) (key : Slot α → K) (p : Parts α) : Option (List K) := do
  let used := p.slots.take (p.nActive + p.nLost)
  let m ← npMax ((p.slots.take p.nActive).map (·.id))
  return (used.take p.nActive).map key ++ (used.drop p.nActive).map (fun s => ten + toK m + key s)

/-- `arr[index]` for an index array. -/
def gather {β : Type} (l : List β) (idx : List Nat) : List β := idx.filterMap (fun i => l[i]?)

/-- `sort(by, interleave_lost_particles=False)`; particles.py:1168-1196.  `argsort` is numpy's
(unstable) argsort, left abstract. -/
def sortBunch {K : Type} [Add K] (ten : K) (toK : Int → K) (argsort : List K → List Nat) (key : Slot α → K)
    (blank : α) (b : Bunch α) : Option (Bunch α) := do
  let p := reorganizeParts blank b.parts.slots
  let keys ← sortKeys ten toK key p
  let used := p.nActive + p.nLost
  return ⟨{ p with slots := gather (p.slots.take used) (argsort keys) ++ p.slots.drop used }, b.hidden⟩

end Verif.Particles
