import Verif.Tracker.Model

/-!
# Pipeline: message tags, local communicator, tracking of several branches

Source: `/repo/xtrack/pipeline/manager.py`, `/repo/xtrack/pipeline/core.py`,
`/repo/xtrack/pipeline/multitracker.py`.

Dictionaries are association lists (a later entry replaces an earlier one).  Names are strings.  The
contents of the buffers are opaque; a buffer is known by its address and the heap maps addresses to
contents, because `Issend` stores a reference to the buffer.
-/

namespace Verif.Pipeline

/-- `d[k] = v` of a Python dictionary. -/
def insert {β : Type} (d : List (String × β)) (k : String) (v : β) : List (String × β) :=
  if d.any (fun e => e.1 == k) then d.map (fun e => if e.1 == k then (k, v) else e) else d ++ [(k, v)]

/-- `PipelineID`; core.py:8-11. -/
structure ID where
  rank : Nat
  number : Nat
  deriving DecidableEq, Repr

/-- The fields of `PipelineManager` used for registration; manager.py:5-10. `perRank` holds the rank of
each entry of the lists `_particles_per_rank`. -/
structure Manager where
  ids : List (String × ID)
  perRank : List (Nat × String)
  elements : List (String × Nat)
  deriving DecidableEq, Repr

/-- Empty manager; manager.py:5-10. -/
def Manager.new : Manager := ⟨[], [], []⟩

/-- `add_particles`; manager.py:19-27. -/
def Manager.addParticles (m : Manager) (name : String) (rank : Nat) : Manager :=
  let number := (m.perRank.filter (fun e => e.1 == rank)).length
  { m with ids := insert m.ids name ⟨rank, number⟩, perRank := m.perRank ++ [(rank, name)] }

/-- `add_element`; manager.py:35-36. -/
def Manager.addElement (m : Manager) (name : String) : Manager :=
  { m with elements := insert m.elements name m.elements.length }

/-- One registration. -/
inductive Reg where
  | particles (name : String) (rank : Nat)
  | element (name : String)
  deriving DecidableEq, Repr

/-- Executing one registration. -/
def Manager.reg (m : Manager) : Reg → Manager
  | .particles n r => m.addParticles n r
  | .element n => m.addElement n

/-- Who sends what to whom: element, sender, receiver, internal tag. -/
structure Route where
  element : String
  sender : String
  receiver : String
  internal : Nat
  deriving DecidableEq, Repr

/-- `get_message_tag`; manager.py:41-45.  `none` if a name is not registered. -/
def Manager.tag (m : Manager) (r : Route) : Option Nat := do
  let e ← m.elements.lookup r.element
  let s ← m.ids.lookup r.sender
  let d ← m.ids.lookup r.receiver
  some (e + m.elements.length * s.number + m.elements.length * m.ids.length * d.number +
    m.elements.length * m.ids.length * m.ids.length * r.internal)

/-- `get_particles_rank`; manager.py:32-33. -/
def Manager.rank (m : Manager) (name : String) : Option Nat := (m.ids.lookup name).map ID.rank

/-- The key of `_last_request_turn`; manager.py:50-51.  The names joined with underscores, and the
tag (kept apart: it is the part behind the last underscore). -/
def key (r : Route) (tag : Nat) : String × Nat := (r.element ++ "_" ++ r.sender ++ "_" ++ r.receiver, tag)

/-- State of the local communicator and of the sending side; core.py:15-16, manager.py:9-10. `messages`:
the queue for each (rank, tag); `last`: `_last_request_turn`; `heap`: contents of the buffers. -/
structure Comm where
  messages : Nat → Nat → List Nat
  last : (String × Nat) → Option Nat
  heap : Nat → Nat

/-- `PipelineCommunicator.Issend`; core.py:18-24. -/
def Comm.issend (c : Comm) (buf dest tag : Nat) : Comm :=
  { c with messages := fun d t => if d = dest ∧ t = tag then c.messages d t ++ [buf] else c.messages d t }

/-- `PipelineCommunicator.Recv`; core.py:26-31. `none` if there is no message. -/
def Comm.recv (c : Comm) (buf source tag : Nat) : Option Comm :=
  match c.messages source tag with
  | [] => none
  | msg :: rest => some { c with
      messages := fun d t => if d = source ∧ t = tag then rest else c.messages d t
      heap := fun b => if b = buf then c.heap msg else c.heap b }

/-- `PipelineCommunicator.Iprobe`; core.py:33-37. -/
def Comm.iprobe (c : Comm) (source tag : Nat) : Bool := !(c.messages source tag).isEmpty

/-- `PipelineManager.send_message`; manager.py:68-74. -/
def send (m : Manager) (c : Comm) (buf : Nat) (r : Route) (turn : Nat) : Option Comm := do
  let tag ← m.tag r
  let dest ← m.rank r.receiver
  some ({ c with last := fun k => if k = key r tag then some turn else c.last k }.issend buf dest tag)

/-- `PipelineManager.is_ready_to_send`; manager.py:53-66.  `Test()` of the local communicator is always
true (core.py:39-40). -/
def readyToSend (m : Manager) (c : Comm) (r : Route) (turn : Nat) : Option Bool := do
  let tag ← m.tag r
  match c.last (key r tag) with
  | none => some true
  | some t => if turn ≤ t then some false else some true

/-- `PipelineManager.is_ready_to_receive`; manager.py:76-81. -/
def readyToReceive (m : Manager) (c : Comm) (r : Route) : Option Bool := do
  let tag ← m.tag r
  let src ← m.rank r.sender
  some (c.iprobe src tag)

/-- `PipelineManager.receive_message`; manager.py:83-87. -/
def receive (m : Manager) (c : Comm) (buf : Nat) (r : Route) : Option Comm := do
  let tag ← m.tag r
  let src ← m.rank r.sender
  c.recv buf src tag

/-- What the programs do: send, receive, change a buffer. -/
inductive Op where
  | send (r : Route) (buf turn : Nat)
  | recv (r : Route) (buf : Nat)
  | write (buf value : Nat)
  deriving DecidableEq, Repr

/-- One step; `none` if the call fails. -/
def step (m : Manager) (c : Comm) : Op → Option Comm
  | .send r buf turn => send m c buf r turn
  | .recv r buf => receive m c buf r
  | .write buf v => some { c with heap := fun b => if b = buf then v else c.heap b }

/-- Nothing sent yet. -/
def Comm.new (heap : Nat → Nat) : Comm := ⟨fun _ _ => [], fun _ => none, heap⟩

/-- Executing a list of operations. -/
def run (m : Manager) (c : Comm) (ops : List Op) : Option Comm := ops.foldlM (step m) c

/-! ## Several branches -/

open Verif.Tracker (Session Ev turnsLoop)

/-- `PipelineBranch` while it is tracked: session, actions so far, `pipeline_status` (where it is on
hold), remaining answers of its collective elements. -/
structure Branch where
  s : Session
  evs : List Ev
  hold : Option (Nat × Nat)
  hs : List Bool

/-- `branch.line.track` or `branch.line.tracker.resume`; multitracker.py:52-54,78. -/
def Branch.go (b : Branch) (resume : Option (Nat × Nat)) : Option Branch := do
  let r ← turnsLoop b.s b.s.numTurns 0 resume b.hs
  some { b with evs := b.evs ++ r.evs, hold := r.session, hs := r.hs }

/-- The branch is resumed if it is on hold; multitracker.py:60-61,78. -/
def Branch.resume (b : Branch) : Option Branch := if b.hold.isSome then b.go b.hold else some b

/-- One pass over the branches; multitracker.py:59-79. -/
def resumeRound : List Branch → Option (List Branch)
  | [] => some []
  | b :: bs => do
    let b' ← b.resume
    let bs' ← resumeRound bs
    some (b' :: bs')

/-- The `while need_resume` loop, at most `fuel` passes; multitracker.py:56-79. -/
def resumeLoop : Nat → List Branch → Option (List Branch)
  | 0, bs => some bs
  | fuel + 1, bs =>
    if bs.any (fun b => b.hold.isSome) then (resumeRound bs).bind (resumeLoop fuel) else some bs

/-- First pass; multitracker.py:51-54. -/
def firstRound : List Branch → Option (List Branch)
  | [] => some []
  | b :: bs => do
    let b' ← b.go none
    let bs' ← firstRound bs
    some (b' :: bs')

/-- `PipelineMultiTracker.track`; multitracker.py:49-79. -/
def multiTrack (fuel : Nat) (bs : List Branch) : Option (List Branch) := (firstRound bs).bind (resumeLoop fuel)

end Verif.Pipeline
