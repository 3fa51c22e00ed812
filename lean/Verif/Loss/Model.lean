/-!
# Particle-loss bookkeeping and the tracking kernel (serial CPU and OpenMP)

Source: `/repo/xtrack/particles/local_particle_custom_api.h`,
`/repo/xtrack/headers/track.h`, `/repo/xtrack/tracker.py` (kernel text).

Simplifications: a particle record is one value `Slot` instead of one array per
variable (`LocalParticle_exchange`, particles.py:383-396, exchanges *all* per-particle arrays, so
exchanging whole records is the same).  Coordinates are an opaque type `α`.
-/

namespace Verif.Loss

/-- One particle record.  `state > 0` means alive, `-999999999 < state ≤ 0` lost,
`state ≤ -999999999` unallocated (particles.py:80, `LAST_INVALID_STATE`).
`data` stands for all other per-particle variables. -/
structure Slot (α : Type) where
  id : Int
  state : Int
  atElement : Int
  atTurn : Int
  data : α
  deriving Repr, DecidableEq

/-- The variables of a `LocalParticle` used here: the per-particle arrays and the two counters. -/
structure Parts (α : Type) where
  slots : List (Slot α)
  nActive : Nat
  nLost : Nat
  deriving Repr, DecidableEq

variable {α : Type}

/-- `LocalParticle_exchange(part, i1, i2)`; particles.py:383-396. -/
def exchange {β : Type} (l : List β) (i j : Nat) : List β :=
  match l[i]?, l[j]? with
  | some a, some b => (l.set i b).set j a
  | _, _ => l

/-- The `while` loop of the serial `check_is_active`; local_particle_custom_api.h:108-122
(without `XSUITE_RESTORE_LOSS`). -/
def checkLoop (slots : List (Slot α)) (ipart nAct nLost : Nat) : Parts α :=
  if _h : ipart < nAct then
    match slots[ipart]? with
    | none => ⟨slots, nAct, nLost⟩  -- out of bounds, does not happen when nAct ≤ length
    | some p =>
      if p.state < 1 then
        checkLoop (exchange slots ipart (nAct - 1)) ipart (nAct - 1) (nLost + 1)
      else
        checkLoop slots (ipart + 1) nAct nLost
  else ⟨slots, nAct, nLost⟩
termination_by nAct - ipart

/-- Serial `check_is_active`, new arrays and counters; local_particle_custom_api.h:108-129. -/
def checkIsActive (p : Parts α) : Parts α := checkLoop p.slots 0 p.nActive p.nLost

/-- Serial `check_is_active`, return value (`1` iff some particle is left). -/
def isActive (p : Parts α) : Bool := p.nActive != 0

/-- `START_PER_PARTICLE_BLOCK ... END_PER_PARTICLE_BLOCK` on serial CPU: the body is executed for
slots `0 .. nActive-1`; headers/track.h:20-31. -/
def perParticle (f : Slot α → Slot α) (p : Parts α) : Parts α :=
  { p with slots := (p.slots.take p.nActive).map f ++ p.slots.drop p.nActive }

/-- What one element may do to one particle: it computes a new state and new coordinates from the old
ones.  It never writes `particle_id`, `at_element` or `at_turn`. -/
abbrev Elem (α : Type) := Slot α → Int × α

/-- Effect of an element on one particle record. -/
def applyElem (e : Elem α) (s : Slot α) : Slot α :=
  { s with state := (e s).1, data := (e s).2 }

/-- `increment_at_element(part0, 1)`; local_particle_custom_api.h:68-72. -/
def incAtElement (s : Slot α) : Slot α := { s with atElement := s.atElement + 1 }

/-- `increment_at_turn(part0, ·)`; local_particle_custom_api.h:76-84 (`s` is part of `data` and is
not modelled here). -/
def incAtTurn (s : Slot α) : Slot α := { s with atTurn := s.atTurn + 1, atElement := 0 }

/-- Element loop of `track_line` without backtrack; tracker.py:646-715.
Returns the particles and the value of `isactive`. -/
def elemLoop : List (Elem α) → Parts α → Parts α × Bool
  | [], p => (p, isActive p)
  | e :: es, p =>
    let q := checkIsActive (perParticle (applyElem e) p)
    if isActive q then elemLoop es (perParticle incAtElement q)
    else (q, false)

/-- Turn loop of `track_line` (forward tracking, `flag_end_turn_actions = endTurn`);
tracker.py:619-732. `els` are the elements `ele_start .. ele_stop-1`. -/
def turnLoop (els : List (Elem α)) (endTurn : Bool) : Nat → Parts α → Bool → Parts α
  | 0, p, _ => p
  | n + 1, p, act =>
    if act then
      match elemLoop els p with
      | (q, true) => turnLoop els endTurn n (if endTurn then perParticle incAtTurn q else q) true
      | (q, false) => turnLoop els endTurn n q false
    else p

/-- `track_line` kernel, serial CPU, forward; tracker.py:546-737. -/
def trackLine (els : List (Elem α)) (endTurn : Bool) (nTurns : Nat) (p : Parts α) : Parts α :=
  let q := checkIsActive p
  turnLoop els endTurn nTurns q (isActive q)

/-! ## OpenMP variant -/

/-- The two-pointer `while` loop of the OpenMP `check_is_active`;
local_particle_custom_api.h:146-159.  `right` is kept as a natural number with the convention
that the loop is entered only for `left < right`, so `right - 1` never underflows. -/
def ompLoop (slots : List (Slot α)) (left right : Nat) (swapMade hasAlive : Bool) :
    List (Slot α) × Bool × Bool :=
  if _h : left < right then
    match slots[left]?, slots[right]? with
    | some a, some b =>
      if 0 < a.state then ompLoop slots (left + 1) right swapMade true
      else if b.state ≤ 0 then ompLoop slots left (right - 1) swapMade hasAlive
      else ompLoop (exchange slots left right) (left + 1) (right - 1) true hasAlive
    | _, _ => (slots, swapMade, hasAlive)
  else (slots, swapMade, hasAlive)
termination_by right - left

/-- OpenMP `check_is_active` on the chunk `[ipart, endpart)`; local_particle_custom_api.h:134-164.
An empty chunk has `right = endpart - 1 < left` in C; here it is a separate branch. -/
def ompCheckIsActive (slots : List (Slot α)) (ipart endpart : Nat) : List (Slot α) × Bool :=
  if endpart ≤ ipart then (slots, false)
  else if ipart = endpart - 1 then
    (slots, match slots[ipart]? with | some a => decide (0 < a.state) | none => false)
  else
    let r := ompLoop slots ipart (endpart - 1) false false
    (r.1, r.2.1 || r.2.2)

/-- Loop of `count_reorganized_particles`; local_particle_custom_api.h:172-179. -/
def countLoop : List (Slot α) → Nat × Nat → Nat × Nat
  | [], acc => acc
  | s :: rest, (a, l) =>
    if s.state ≤ -999999999 then (a, l)
    else if 0 < s.state then countLoop rest (a + 1, l)
    else countLoop rest (a, l + 1)

/-- `check_is_active` then `count_reorganized_particles` over the whole capacity; tracker.py:575-580
and 744-747. -/
def ompReorganize (slots : List (Slot α)) : Parts α :=
  let l := (ompCheckIsActive slots 0 slots.length).1
  let c := countLoop l (0, 0)
  ⟨l, c.1, c.2⟩

/-- Per-particle block on OpenMP: slots `[lo, hi)` with `state > 0`; headers/track.h:37-51. -/
def ompPerParticle (f : Slot α → Slot α) (lo hi : Nat) (l : List (Slot α)) : List (Slot α) :=
  l.mapIdx (fun i s => if lo ≤ i ∧ i < hi ∧ 0 < s.state then f s else s)

/-- Element loop of `track_line` for one OpenMP chunk `[lo, hi)`; tracker.py:646-715. -/
def ompElemLoop (lo hi : Nat) : List (Elem α) → List (Slot α) → List (Slot α) × Bool
  | [], l => (l, true)
  | e :: es, l =>
    let r := ompCheckIsActive (ompPerParticle (applyElem e) lo hi l) lo hi
    if r.2 then ompElemLoop lo hi es (ompPerParticle incAtElement lo hi r.1)
    else (r.1, false)

/-- Turn loop for one OpenMP chunk; tracker.py:619-732. -/
def ompTurnLoop (lo hi : Nat) (els : List (Elem α)) (endTurn : Bool) :
    Nat → List (Slot α) → Bool → List (Slot α)
  | 0, l, _ => l
  | n + 1, l, act =>
    if act then
      match ompElemLoop lo hi els l with
      | (q, true) =>
        ompTurnLoop lo hi els endTurn n (if endTurn then ompPerParticle incAtTurn lo hi q else q) true
      | (q, false) => ompTurnLoop lo hi els endTurn n q false
    else l

/-- Body of the chunk loop; tracker.py:590-736. -/
def ompChunk (els : List (Elem α)) (endTurn : Bool) (nTurns lo hi : Nat) (l : List (Slot α)) :
    List (Slot α) :=
  let r := ompCheckIsActive l lo hi
  ompTurnLoop lo hi els endTurn nTurns r.1 r.2

/-- Chunk boundaries; tracker.py:586 and 591-593: `part_id`, clipped `end_id`. -/
def chunkBounds (nToTrack nThreads chunk : Nat) : Nat × Nat :=
  let size := (nToTrack + nThreads - 1) / nThreads
  (chunk * size, min ((chunk + 1) * size) nToTrack)

/-! ### Threads and interleavings

`#pragma omp parallel for` (tracker.py:589) runs the chunks concurrently on the shared arrays.
A thread is a program counter; one step is one per-element unit of work (element, check, increment).
A schedule is an arbitrary list of thread numbers. -/

/-- Where a thread stands in the kernel text, tracker.py:616-732. -/
inductive Pc (α : Type) where
  /-- line 617, before the first `check_is_active` -/
  | start
  /-- line 621: top of the turn loop, `n` turns left, value of `isactive` -/
  | turn (n : Nat) (act : Bool)
  /-- line 646: element loop with the elements still to do, `n` turns left after this one -/
  | elem (n : Nat) (todo : List (Elem α))
  /-- after line 732 -/
  | done

/-- One step of the thread that owns slots `[lo, hi)`; tracker.py:616-732. -/
def pcStep (els : List (Elem α)) (endTurn : Bool) (nTurns lo hi : Nat) (pc : Pc α)
    (l : List (Slot α)) : Pc α × List (Slot α) :=
  match pc with
  | .start =>
    let r := ompCheckIsActive l lo hi
    (.turn nTurns r.2, r.1)
  | .turn 0 _ => (.done, l)
  | .turn (_ + 1) false => (.done, l)
  | .turn (n + 1) true => (.elem n els, l)
  | .elem n (e :: es) =>
    let r := ompCheckIsActive (ompPerParticle (applyElem e) lo hi l) lo hi
    if r.2 then (.elem n es, ompPerParticle incAtElement lo hi r.1) else (.turn n false, r.1)
  | .elem n [] => (.turn n true, if endTurn then ompPerParticle incAtTurn lo hi l else l)
  | .done => (.done, l)

/-- All threads and the shared arrays. -/
structure Par (α : Type) where
  pcs : Nat → Pc α
  mem : List (Slot α)

/-- Thread `c` makes one step. -/
def parStep (els : List (Elem α)) (endTurn : Bool) (nTurns nToTrack nThreads : Nat) (s : Par α)
    (c : Nat) : Par α :=
  let b := chunkBounds nToTrack nThreads c
  let r := pcStep els endTurn nTurns b.1 b.2 (s.pcs c) s.mem
  ⟨fun d => if d = c then r.1 else s.pcs d, r.2⟩

/-- The parallel region under a schedule. -/
def parRun (els : List (Elem α)) (endTurn : Bool) (nTurns nToTrack nThreads : Nat)
    (mem : List (Slot α)) (sched : List Nat) : Par α :=
  sched.foldl (parStep els endTurn nTurns nToTrack nThreads) ⟨fun _ => .start, mem⟩

/-- The arrays when the parallel region of the OpenMP `track_line` is entered; tracker.py:572-581.
The number of particles to track is read *before* this reorganisation. -/
def ompBefore (p : Parts α) : List (Slot α) := (ompReorganize p.slots).slots

end Verif.Loss
