/-!
# What collective tracking does to the particles object and to monitors on the way

Model of `Tracker._track_with_collective`, `_prepare_particles_for_part` and `_track_part`,
xtrack/tracker.py:893-1198, as far as it moves particles between contexts, hides and shows
lost particles, and records at elements.  Which elements are tracked is the matter of C18, C21 and C22; here a part is
tracked, left out, or tracked as the last one.

A session which is put on hold is resumed at the same part of the same turn (C22), without the
preparations and without the monitor of several elements, which is not kept in the session
(tracker.py:1047-1063, 1095-1106, 1132-1152).
-/

namespace Verif.Session

/-- A part of the line: tracker.py:161-235.  Only collective parts have needs and can hold. -/
structure Part where
  collective : Bool := false
  needsHidden : Bool := false
  needsCpu : Bool := false

/-- Arguments of the call.  `start` and `stop` are the parts with the first element and with the one where
tracking stops; `holds tt i` says how often part `i` answers with a hold in turn `tt`. -/
structure Call where
  parts : List Part
  start : Nat := 0
  stop : Option Nat := none
  turns : Nat := 1
  onGpu : Bool := false
  holds : Nat → Nat → Nat := fun _ _ => 0

/-- What happens. -/
inductive Ev
  | record (tt i : Nat)
  | track (tt i : Nat)
  | endTurn (tt : Nat)
  deriving DecidableEq, Repr

/-- Whether lost particles are hidden, whether the particles have been moved from where they were
(`moveback_to_buffer is not None`), whether the monitor of several elements is there, and what happened. -/
structure St where
  hidden : Bool := false
  moved : Bool := false
  monitor : Bool := false
  trace : List Ev := []
  deriving DecidableEq

/-- Moving and hiding: tracker.py:893-927.  (`needs_cpu` and `needs_hidden_lost_particles` are attributes
of collective elements.) -/
def prepare (c : Call) (p : Part) (s : St) : St :=
  { s with moved := if p.needsCpu then s.moved || c.onGpu else false
           hidden := s.hidden || p.needsHidden }

/-- `_need_unhide_lost_particles`: tracker.py:918-923. -/
def needUnhide (p : Part) (s : St) : Bool := p.needsHidden && !s.hidden

/-- What `_track_part` decides, `skip` and `stop_tracking`: tracker.py:929-989. -/
def decideSkip (c : Call) (tt i : Nat) : Bool := tt == 0 && decide (i < c.start)

def decideStop (c : Call) (p : Part) (tt i : Nat) : Bool :=
  if tt = 0 ∧ c.start = i then !p.collective && decide (tt + 1 = c.turns) && (c.stop == some i)
  else decide (tt + 1 = c.turns) && (c.stop == some i)

/-- The part is tracked, recorded before if there is a monitor; a collective part which is the last one is not tracked.
After a hold there is no monitor any more: tracker.py:939-986, 1123-1152. -/
def trackPart (c : Call) (p : Part) (tt i : Nat) (s : St) : St :=
  if decideStop c p tt i && p.collective then s
  else { s with trace := s.trace ++ (if s.monitor then [.record tt i] else []) ++ [.track tt i]
                monitor := s.monitor && (!p.collective || c.holds tt i == 0) }

/-- The loop over the parts; the flag says that tracking stops: tracker.py:1088-1176. -/
def partsLoop (c : Call) (tt : Nat) : Nat → List Part → St → St × Bool
  | _, [], s => (s, false)
  | i, p :: rest, s =>
    let need := needUnhide p s
    let s := prepare c p s
    if decideSkip c tt i then partsLoop c tt (i + 1) rest s
    else
      let s := trackPart c p tt i s
      let s := if need then { s with hidden := false } else s
      if decideStop c p tt i then (s, true) else partsLoop c tt (i + 1) rest s

/-- The loop over the turns: tracker.py:1073-1195. -/
def turnsLoop (c : Call) : Nat → Nat → St → St
  | 0, _, s => s
  | k + 1, tt, s =>
    let r := partsLoop c tt 0 c.parts s
    if r.2 then r.1
    else turnsLoop c k (tt + 1) { r.1 with moved := false, trace := r.1.trace ++ [.endTurn tt] }

/-- The call. -/
def run (c : Call) (s : St) : St := turnsLoop c c.turns 0 s

end Verif.Session
