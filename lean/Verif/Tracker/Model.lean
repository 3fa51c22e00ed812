/-!
# Which elements are tracked: turn splitting, progress batches, collective tracking

Source: `/repo/xtrack/tracker.py`.

The model computes the sequence of actions a particle that is never lost undergoes (what happens to
lost particles is the subject of `Verif.Loss`).  Negative numbers and names given as start
or stop element are not modelled (the former are rejected by assertions, the latter are replaced by
their index at tracker.py:1260,1318).  Exceptions are `none`.
-/

namespace Verif.Tracker

/-- What happens to a particle: a turn-by-turn record is taken, the `i`-th element is traversed (and
`at_element` is incremented, or decremented in backtracking), the end-of-turn actions are performed
(or undone, in backtracking), a collective element has put the tracking on hold, the time-dependent
variables are updated. -/
inductive Ev where
  | mon
  | ele (i : Nat)
  | endTurn
  | held (i : Nat)
  | vars
  deriving DecidableEq, Repr

/-! ## The tracking kernel -/

/-- Loop over the elements, `n` elements from `start`; tracker.py:642-646. -/
def eles (start : Nat) : Nat → List Ev
  | 0 => []
  | n + 1 => .ele start :: eles (start + 1) n

/-- The same loop in backtracking, from the last element down to `start`; tracker.py:631-632,646. -/
def elesBack (start : Nat) : Nat → List Ev
  | 0 => []
  | n + 1 => .ele (start + n) :: elesBack start n

/-- One iteration of the loop over the turns; tracker.py:621-732. -/
def kernelTurn (back mon endAct : Bool) (start n : Nat) : List Ev :=
  if back then
    (if endAct then [.endTurn] else []) ++ elesBack start n ++ (if mon then [.mon] else [])
  else
    (if mon then [.mon] else []) ++ eles start n ++ (if endAct then [.endTurn] else [])

/-- `track_line`; tracker.py:546-749. -/
def kernel (back mon endAct : Bool) (start n : Nat) : Nat → List Ev
  | 0 => []
  | turns + 1 => kernelTurn back mon endAct start n ++ kernel back mon endAct start n turns

/-! ## Turn splitting -/

/-- The arguments of `line.track` that select what is tracked. -/
structure Args where
  start : Option Nat
  stop : Option Nat
  numElements : Option Nat
  numTurns : Option Nat
  deriving DecidableEq, Repr

/-- `num_elements_first_turn`, `num_middle_turns`, `num_elements_last_turn`. -/
structure Segs where
  first : Nat
  mid : Nat
  last : Nat
  deriving DecidableEq, Repr

/-- Start element; tracker.py:1252-1266.  `startAt` is `particles.start_tracking_at_element` when it
is not negative. -/
def startElement (L : Nat) (startAt : Option Nat) (a : Args) : Option Nat := do
  let s ← match startAt with
    | some v => if a.start ≠ some 0 then none else some v
    | none => some (a.start.getD 0)
  if s ≤ L then some s else none

/-- Case analysis splitting the request into a first, middle and last part; tracker.py:1284-1333. -/
def splitTurns (L start : Nat) (a : Args) : Option Segs :=
  match a.numElements with
  | some m =>
    if a.stop.isSome then none
    else if a.numTurns.isSome then none
    else if m + start ≤ L then some ⟨m, 0, 0⟩
    else some ⟨L - start, (start + m) / L - 1, (start + m) % L⟩
  | none =>
    let n := a.numTurns.getD 1
    if n = 0 then none
    else match a.stop with
      | none => some ⟨L - start, n - 1, 0⟩
      | some b =>
        if L < b then none
        else
          let n' := if b ≤ start then n + 1 else n
          if n' = 1 then some ⟨b - start, 0, 0⟩
          else some ⟨L - start, n' - 2, b⟩

/-- Number of records a monitor created by `turn_by_turn_monitor=True` can hold;
tracker.py:1343-1349. -/
def monitorTurns (s : Segs) : Nat := if 0 < s.last then s.mid + 2 else s.mid + 1

/-- `_track_no_collective`; tracker.py:1200-1439.  `mon`: a turn-by-turn monitor is used,
`endAct`: end-turn actions not switched off. -/
def track (L : Nat) (back mon endAct : Bool) (startAt : Option Nat) (a : Args) : Option (List Ev) := do
  let start ← startElement L startAt a
  let s ← splitTurns L start a
  let endFirst := endAct && (s.first + start == L)
  some (kernel back mon endFirst start s.first 1 ++
    (if 0 < s.mid then kernel back mon endAct 0 L s.mid else []) ++
    (if 0 < s.last then kernel back mon false 0 s.last 1 else []))

/-! ## Tracking with a progress bar -/

/-- Arguments of one batch; tracker.py:354-378. -/
def batchArgs (a : Args) (numTurns batch ii : Nat) : Args :=
  if ii = 0 ∧ ii + batch ≥ numTurns then a
  else if ii = 0 then { a with stop := none, numTurns := some batch }
  else if ii + batch ≥ numTurns then
    { a with start := none,
             numTurns := some (if numTurns % batch = 0 then batch else numTurns % batch) }
  else { a with numTurns := some batch, start := none, stop := none }

/-- The loop over the batches: `k` batches from turn `ii` on; tracker.py:349-381.
`particles.start_tracking_at_element` is reset by the first call (tracker.py:1258). -/
def batchLoop (T : Option Nat → Args → Option (List Ev)) (a : Args) (numTurns batch : Nat) :
    Nat → Option Nat → Nat → Option (List Ev)
  | _, _, 0 => some []
  | ii, startAt, k + 1 => do
    let out ← T startAt (batchArgs a numTurns batch ii)
    let rest ← batchLoop T a numTurns batch (ii + batch) none k
    some (out ++ rest)

/-- The number of turns computed for the batches; tracker.py:330-337. -/
def progressTurns (L : Nat) (a : Args) (n : Nat) : Nat :=
  if a.start.getD 0 ≥ a.stop.getD L then n + 1 else n

/-- `_track(..., with_progress=batch)`; tracker.py:313-381.  `T` is the tracking function.
`none` if the number of turns is not given. -/
def trackProgress (T : Option Nat → Args → Option (List Ev)) (L batch : Nat) (startAt : Option Nat)
    (a : Args) : Option (List Ev) := do
  let n ← a.numTurns
  if batch = 0 then none
  else
    let n' := progressTurns L a n
    batchLoop T a n' batch 0 startAt ((n' + batch - 1) / batch)

/-! ## Collective tracking -/

/-- A part of the line: a run of non-collective elements (first, last + 1), or one collective
element. -/
inductive Part where
  | nc (start stop : Nat)
  | co (idx : Nat)
  deriving DecidableEq, Repr

/-- The local variables of `_split_parts_for_collective_mode`; tracker.py:164-172. `this` holds the
indices of the elements of `this_part`. -/
structure Split where
  parts : List Part
  elementPart : List Nat
  elementIndex : List (Option Nat)
  this : List Nat
  iInPart : Nat
  iPart : Nat
  idx : Nat
  deriving DecidableEq, Repr

/-- A non-collective part as `TrackerPartNonCollective`: first and last index of its elements;
tracker.py:222-231. -/
def closePart (this : List Nat) : List Part :=
  match this with
  | [] => []
  | i :: rest => [.nc i ((i :: rest).getLast (by simp) + 1)]

/-- One iteration of the loop; tracker.py:173-194. -/
def splitStep (s : Split) (collective : Bool) : Split :=
  if !collective then
    { s with this := s.this ++ [s.idx], elementPart := s.elementPart ++ [s.iPart],
             elementIndex := s.elementIndex ++ [some s.iInPart], iInPart := s.iInPart + 1,
             idx := s.idx + 1 }
  else
    let iPart := if s.this.length > 0 then s.iPart + 1 else s.iPart
    { parts := s.parts ++ closePart s.this ++ [.co s.idx], elementPart := s.elementPart ++ [iPart],
      elementIndex := s.elementIndex ++ [none], this := [], iInPart := 0, iPart := iPart + 1,
      idx := s.idx + 1 }

/-- `_split_parts_for_collective_mode`; tracker.py:161-234: parts, part of each element, index of
each element in its part.  The line is given by the list of flags `_is_collective(element)`. -/
def splitParts (line : List Bool) : List Part × List Nat × List (Option Nat) :=
  let s := line.foldl splitStep ⟨[], [], [], [], 0, 0, 0⟩
  (s.parts ++ closePart s.this, s.elementPart, s.elementIndex)

/-- Number of turns and stop element of a collective session that starts at `start`;
tracker.py:845-873. -/
def prepareTurns (L start : Nat) (a : Args) : Option (Nat × Option Nat) :=
  match a.numElements with
  | some m =>
    if a.stop.isSome then none
    else if a.numTurns.isSome then none
    else
      let q := (start + m) / L
      let r := (start + m) % L
      if r = 0 then some (q, none) else some (q + 1, some r)
  | none =>
    let n := a.numTurns.getD 1
    if n = 0 then none
    else
      let stop := if a.stop = some 0 then none else a.stop
      match stop with
      | none => some (n, none)
      | some b => some (if b ≤ start then n + 1 else n, some b)

/-- Start, stop and number of turns of a collective session; tracker.py:825-891. -/
def prepare (L : Nat) (startAt : Option Nat) (a : Args) : Option (Nat × Option Nat × Nat) :=
  let start0 := a.start.getD 0
  let start? := match startAt with
    | some v => if start0 ≠ 0 then none else some v
    | none => some start0
  start?.bind fun start =>
    if ¬ start < L then none
    else (prepareTurns L start a).bind fun r =>
      match r.2 with
      | some b => if b ≤ L then (if r.1 ≥ 1 then some (start, r.2, r.1) else none) else none
      | none => if r.1 ≥ 1 then some (start, r.2, r.1) else none

/-- What is fixed during a session. -/
structure Session where
  L : Nat
  parts : List Part
  elementPart : List Nat
  elementIndex : List (Option Nat)
  start : Nat
  stop : Option Nat
  numTurns : Nat
  mon : Bool
  timeVars : Bool
  endAct : Bool
  deriving DecidableEq, Repr

/-- `TrackerPartNonCollective.track`; tracker.py:1737-1757. -/
def trackNC (s : Session) (pStart pStop : Nat) (start stop numElements : Option Nat) : Option (List Ev) :=
  let tStart := match start with | none => pStart | some i => pStart + i
  let tStop := match stop with | none => pStop | some i => pStart + i
  match numElements with
  | some n => track s.L false false false none ⟨some tStart, none, some n, none⟩
  | none =>
    if tStop < tStart then none
    else track s.L false false false none ⟨some tStart, none, some (tStop - tStart), none⟩

/-- Result of `_track_part`: what happened, stop flag, skip flag, remaining answers, hold flag. -/
structure PartResult where
  evs : List Ev
  stop : Bool
  skip : Bool
  hs : List Bool
  hold : Bool
  deriving DecidableEq, Repr

/-- `pp.track(particles)` of a collective element: the next answer of the environment says whether the
element puts the tracking on hold (no further answers: it does not). -/
def trackCo (idx : Nat) (hs : List Bool) : PartResult :=
  match hs with
  | true :: hs' => ⟨[.held idx], false, false, hs', true⟩
  | false :: hs' => ⟨[.ele idx], false, false, hs', false⟩
  | [] => ⟨[.ele idx], false, false, [], false⟩

/-- The stop element is in part `ipp` of turn `tt`; tracker.py:949-950,962-963. -/
def stopHere (s : Session) (tt ipp : Nat) : Bool :=
  match s.stop with
  | none => false
  | some b => decide (b < s.L) && decide (tt + 1 = s.numTurns) && (s.elementPart[b]? == some ipp)

/-- Index of the stop element in its part; tracker.py:952,965. -/
def stopIndex (s : Session) : Option Nat := (s.stop.bind (fun b => s.elementIndex[b]?)).join

/-- `_track_part`; tracker.py:929-989. -/
def trackPart (s : Session) (p : Part) (tt ipp : Nat) (hs : List Bool) : Option PartResult :=
  if tt = 0 ∧ ipp < (s.elementPart[s.start]?).getD 0 then some ⟨[], false, true, hs, false⟩
  else if tt = 0 ∧ s.elementPart[s.start]? = some ipp then
    match (s.elementIndex[s.start]?).join, p with
    | none, .co idx => some (trackCo idx hs)
    | some i, .nc ps pe =>
      if stopHere s tt ipp then do
        let evs ← trackNC s ps pe (some i) (stopIndex s) none
        some ⟨evs, true, false, hs, false⟩
      else do
        let evs ← trackNC s ps pe (some i) none none
        some ⟨evs, false, false, hs, false⟩
    | _, _ => none
  else if stopHere s tt ipp then
    match stopIndex s, p with
    | some i, .nc ps pe => do
      let evs ← trackNC s ps pe none none (some i)
      some ⟨evs, true, false, hs, false⟩
    | some _, .co _ => none
    | none, _ => some ⟨[], true, false, hs, false⟩
  else
    match p with
    | .nc ps pe => do
      let evs ← trackNC s ps pe none none none
      some ⟨evs, false, false, hs, false⟩
    | .co idx => some (trackCo idx hs)

/-- How the loop over the parts ended. -/
inductive Outcome where
  | finished (stop : Bool)
  | hold (ipp : Nat)
  deriving DecidableEq, Repr

structure LoopResult where
  evs : List Ev
  out : Outcome
  hs : List Bool
  deriving DecidableEq, Repr

/-- The loop over the parts; tracker.py:1091-1172. `resume` is `ipp_resume`. -/
def partsLoop (s : Session) (tt : Nat) : List Part → Nat → Option Nat → List Bool → Option LoopResult
  | [], _, _, hs => some ⟨[], .finished false, hs⟩
  | p :: ps, ipp, resume, hs =>
    if resume.any (fun r => decide (ipp < r)) then partsLoop s tt ps (ipp + 1) resume hs
    else do
      let r ← trackPart s p tt ipp hs
      if r.hold then some ⟨r.evs, .hold ipp, r.hs⟩
      else if r.stop then some ⟨r.evs, .finished true, r.hs⟩
      else
        let rest ← partsLoop s tt ps (ipp + 1) none r.hs
        some { rest with evs := r.evs ++ rest.evs }

/-- How a call of `_track_with_collective` ended: `some (tt, ipp)` for a session on hold. -/
structure CallResult where
  evs : List Ev
  session : Option (Nat × Nat)
  hs : List Bool
  deriving DecidableEq, Repr

/-- The loop over the turns, `k` turns from turn `tt`; tracker.py:1073-1195.  `resume` is
`(tt_resume, ipp_resume)`; the particles are taken from the session only inside the loop over the
parts (line 1096), so that updating the time-dependent variables in a resumed turn fails. -/
def turnsLoop (s : Session) : Nat → Nat → Option (Nat × Nat) → List Bool → Option CallResult
  | 0, _, _, hs => some ⟨[], none, hs⟩
  | k + 1, tt, resume, hs =>
    if resume.any (fun r => decide (tt < r.1)) then turnsLoop s k (tt + 1) resume hs
    else
      let within := resume.any (fun r => decide (tt = r.1))
      let pre : List Ev := if s.mon && (s.start == 0 || decide (0 < tt)) && !within then [.mon] else []
      if s.timeVars && resume.isSome then none
      else do
        let vars : List Ev := if s.timeVars then [.vars] else []
        let r ← partsLoop s tt s.parts 0 (resume.map Prod.snd) hs
        match r.out with
        | .hold ipp => some ⟨pre ++ vars ++ r.evs, some (tt, ipp), r.hs⟩
        | .finished true => some ⟨pre ++ vars ++ r.evs, none, r.hs⟩
        | .finished false =>
          let e ← track s.L false false s.endAct none ⟨some s.L, none, some 0, none⟩
          let rest ← turnsLoop s k (tt + 1) none r.hs
          some { rest with evs := pre ++ vars ++ r.evs ++ e ++ rest.evs }

/-- `track` followed by `resume` as long as the session is on hold (at most `fuel` resumes);
tracker.py:991-996. -/
def resumeAll (s : Session) : Nat → Option (Nat × Nat) → List Bool → Option CallResult
  | 0, r, hs => turnsLoop s s.numTurns 0 r hs
  | fuel + 1, r, hs => do
    let out ← turnsLoop s s.numTurns 0 r hs
    match out.session with
    | none => some out
    | some p =>
      let rest ← resumeAll s fuel (some p) out.hs
      some { rest with evs := out.evs ++ rest.evs }

/-- The session of `_track_with_collective`; tracker.py:1064-1071. -/
def newSession (line : List Bool) (mon timeVars endAct : Bool) (startAt : Option Nat) (a : Args) :
    Option Session := do
  let (start, stop, n) ← prepare line.length startAt a
  let sp := splitParts line
  some ⟨line.length, sp.1, sp.2.1, sp.2.2, start, stop, n, mon, timeVars, endAct⟩

/-- `_track_with_collective` without holds; tracker.py:998-1198. -/
def trackCollective (line : List Bool) (mon endAct : Bool) (startAt : Option Nat) (a : Args) :
    Option (List Ev) := do
  let s ← newSession line mon false endAct startAt a
  let r ← turnsLoop s s.numTurns 0 none []
  some r.evs

end Verif.Tracker
