import Mathlib.Data.Real.Basic
import Mathlib.Data.List.Basic

/-!
# Model of `SyncTime` (coasting beams with collective elements)

File modelled: `/repo/xtrack/synctime.py` (all of it), on the CPU context.

A line has `n` collective elements; `SyncTime` elements are in front of each of them, at the start and
at the end of the line (`install_sync_time_at_collective_elements`, lines 76-112).  Places are numbered
0 (start), 1 … n, n + 1 (end).  Between places particles are tracked: what the elements do to `zeta` is
an arbitrary function, and they may lose a particle.  `ValueError` is `none`.

Observations (not in the code): every particle carries the list of its passages through the places, as
the element behind the `SyncTime` sees them, i.e. when it is alive there.  Times are times the speed of
light.
-/

namespace Verif.Sync

/-- `COAST_STATE_RANGE_START`, line 3. -/
abbrev coast : ℤ := 1000000

/-- Circumference, speed of the reference particle and `frame_relative_length`. -/
structure Cfg where
  C : ℝ
  beta0 : ℝ
  rel : ℝ
  n : ℕ
  /-- Position of the places along the line. -/
  pos : ℕ → ℝ

/-- A passage: number of the frame (turn of the tracking), place, time. -/
structure Seen where
  frame : ℕ
  place : ℕ
  time : ℝ

structure P where
  pid : ℕ
  state : ℤ
  zeta : ℝ
  s : ℝ
  turn : ℕ
  seen : List Seen

/-- `beta1`, line 26. -/
noncomputable def beta1 (c : Cfg) : ℝ := c.beta0 / c.rel

/-- `beta0_beta1`, line 27. -/
noncomputable def ratio (c : Cfg) : ℝ := c.beta0 / beta1 c

/-- `zeta_min`, lines 31-32, 46. -/
noncomputable def zmin (c : Cfg) (p : P) : ℝ := -c.C / 2 * ratio c + p.s * (1 - ratio c)

/-- The identifiers of the elements, lines 85-110. -/
def ident (c : Cfg) (i : ℕ) : ℤ :=
  if i = 0 then coast + c.n + 1 else if i = c.n + 1 then coast + c.n + 2 else coast + (i - 1) + 1

/-- Time of passage of a particle in frame `k`. -/
noncomputable def time (c : Cfg) (k : ℕ) (p : P) : ℝ :=
  (p.s - p.zeta) / c.beta0 + k * (c.C / beta1 c)

/-- `particles.reorganize`: particles which are alive first. -/
def reorganize (ps : List P) : List P :=
  ps.filter (fun p => 0 < p.state) ++ ps.filter (fun p => ¬ 0 < p.state)

open Classical in
/-- Lines 34-38, also `prepare_particles_for_sync_time`, lines 115-122: particles which come too late for
the first frame. -/
noncomputable def park (c : Cfg) (p : P) : P :=
  if 0 < p.state ∧ p.zeta < zmin c p then
    { pid := p.pid, state := -coast, zeta := p.zeta + c.C * c.beta0 / beta1 c, s := p.s, turn := p.turn,
      seen := p.seen }
  else p

/-- Line 41. -/
def resume (c : Cfg) (i : ℕ) (p : P) : P :=
  if p.state = -ident c i then
    { pid := p.pid, state := 1, zeta := p.zeta, s := p.s, turn := p.turn, seen := p.seen }
  else p

open Classical in
/-- Lines 47, 63-66; particles which are not stopped are seen. -/
noncomputable def stop (c : Cfg) (i k : ℕ) (p : P) : P :=
  if 0 < p.state then
    if p.zeta < zmin c p then
      { pid := p.pid, state := -ident c i, zeta := p.zeta + ratio c * c.C, s := p.s, turn := p.turn,
        seen := p.seen }
    else
      { pid := p.pid, state := p.state, zeta := p.zeta, s := p.s, turn := p.turn,
        seen := p.seen ++ [⟨k, i, time c k p⟩] }
  else p

/-- Lines 68-71, at the end of the line. -/
noncomputable def nextFrame (c : Cfg) (p : P) : P :=
  if 0 < p.state then
    { pid := p.pid, state := p.state, zeta := p.zeta - c.C * (1 - ratio c), s := p.s, turn := p.turn,
      seen := p.seen }
  else p

/-- Lines 73-74. -/
def unpark (p : P) : P :=
  if p.state = -coast then
    { pid := p.pid, state := 1, zeta := p.zeta, s := p.s, turn := p.turn, seen := p.seen }
  else p

/-- Line 52. -/
def TooFast (c : Cfg) (p : P) : Prop := 0 < p.state ∧ zmin c p + c.C * ratio c < p.zeta

/-- `particles.at_turn[0] == 0`. -/
def firstTurn (ps : List P) : Prop := ∃ p, ps.head? = some p ∧ p.turn = 0

open Classical in
/-- `SyncTime.track` at place `i` in frame `k`, lines 20-74. -/
noncomputable def sync (c : Cfg) (i k : ℕ) (ps : List P) : Option (List P) :=
  let ps1 := if i = 0 ∧ firstTurn ps ∧ ¬ ∃ p ∈ ps, p.state = -coast then ps.map (park c) else ps
  let ps2 := reorganize (ps1.map (resume c i))
  if ∃ p ∈ ps2, TooFast c p then none
  else
    let ps3 := ps2.map (stop c i k)
    let ps4 := if i = c.n + 1 then ps3.map (nextFrame c) else ps3
    some (if i = c.n + 1 ∧ firstTurn ps4 then ps4.map unpark else ps4)

/-- Tracking from place `i` to the next one: the particle `pid` after `j` passages gets `slip pid j` added to
`zeta`, or is lost. -/
noncomputable def move (c : Cfg) (slip : ℕ → ℕ → Option ℝ) (i : ℕ) (p : P) : P :=
  if 0 < p.state then
    match slip p.pid (p.seen.length - 1) with
    | some d => { pid := p.pid, state := p.state, zeta := p.zeta + d, s := c.pos (i + 1), turn := p.turn,
                  seen := p.seen }
    | none => { pid := p.pid, state := 0, zeta := p.zeta, s := p.s, turn := p.turn, seen := p.seen }
  else p

/-- The end of a turn, for particles which are alive. -/
def endTurn (p : P) : P :=
  if 0 < p.state then
    { pid := p.pid, state := p.state, zeta := p.zeta, s := 0, turn := p.turn + 1, seen := p.seen }
  else p

/-- Places `0 … i` of a frame. -/
noncomputable def upTo (c : Cfg) (slip : ℕ → ℕ → Option ℝ) (k : ℕ) (ps : List P) : ℕ → Option (List P)
  | 0 => sync c 0 k ps
  | i + 1 => (upTo c slip k ps i).bind fun q => sync c (i + 1) k (q.map (move c slip i))

/-- A frame: one turn of the tracking. -/
noncomputable def frame (c : Cfg) (slip : ℕ → ℕ → Option ℝ) (k : ℕ) (ps : List P) : Option (List P) :=
  (upTo c slip k ps (c.n + 1)).map fun q => q.map endTurn

/-- A number of frames. -/
noncomputable def run (c : Cfg) (slip : ℕ → ℕ → Option ℝ) (ps : List P) : ℕ → Option (List P)
  | 0 => some ps
  | k + 1 => (run c slip ps k).bind fun q => frame c slip k q

end Verif.Sync
