import Mathlib.Data.Int.Init

/-!
# Monitors

Source: `/repo/xtrack/monitors/particles_monitor.{h,py}`, `last_turns_monitor.{h,py}`,
`multi_element_monitor.{h,py}`, `/repo/xtrack/tracker.py`.

A passage of the particles through a monitor is the list of the active particles in the order in which
the per-particle loop visits them.  The coordinates of a particle are one opaque record `R`.  The buffer
of a monitor is a function from the (flat) cell index to its content, so that writes outside the
allocated range are visible.
-/

namespace Verif.Monitors

/-- An active particle as seen by a monitor. -/
structure Pt (R : Type) where
  id : Int
  turn : Int
  element : Int
  coords : R

/-- A buffer. -/
abbrev Mem (R : Type) := Int → R

/-- A write into a buffer. -/
def put {R : Type} (mem : Mem R) (w : Int × R) : Mem R := fun i => if i = w.1 then w.2 else mem i

/-! ## ParticlesMonitor -/

/-- Arguments of `ParticlesMonitor.__init__`; particles_monitor.py:12-26. -/
structure PArgs where
  start : Int
  stop : Int
  nRep : Option Int := none
  period : Option Int := none
  numParticles : Option Int := none
  idRange : Option (Int × Int) := none

/-- Fields of the monitor used by the tracking code; particles_monitor.py:182-193. -/
structure PMon where
  start : Int
  stop : Int
  idStart : Int
  idEnd : Int
  ebe : Bool
  nRecords : Int
  nRep : Int
  period : Int
deriving DecidableEq

/-- Range of particle ids; particles_monitor.py:54-61.  `none` is a failed assertion. -/
def PArgs.ids (a : PArgs) : Option (Int × Int) :=
  match a.idRange, a.numParticles with
  | some r, none => some r
  | some _, some _ => none
  | none, some n => some (0, n)
  | none, none => none

/-- Number of repetitions and period; particles_monitor.py:68-76. -/
def PArgs.reps (a : PArgs) : Option (Int × Int) :=
  match a.nRep, a.period with
  | some n, some p => some (n, p)
  | none, none => some (1, -1)
  | _, _ => none

/-- `ParticlesMonitor.__init__`; particles_monitor.py:51-96. -/
def PMon.new (a : PArgs) (ebe : Bool) : Option PMon :=
  a.ids.bind fun ids =>
  a.reps.bind fun reps =>
  if ids.2 - ids.1 < 0 then none
  else some ⟨a.start, a.stop, ids.1, ids.2, ebe, (a.stop - a.start) * (ids.2 - ids.1) * reps.1, reps.1, reps.2⟩

/-- `at_turn` of the C code: the element in element-by-element mode; particles_monitor.h:28-37. -/
def PMon.clock {R : Type} (m : PMon) (p : Pt R) : Int := if m.ebe then p.element else p.turn

/-- The writes of one passage on CPU; particles_monitor.h:27-76.  `back`: the backtrack flag.
C division truncates towards zero. -/
def PMon.writes {R : Type} (m : PMon) (back : Bool) : List (Pt R) → List (Int × R)
  | [] => []
  | p :: ps =>
    if m.ebe = false ∧ back = true then []
    else if m.nRep = 1 then
      (if m.start ≤ m.clock p ∧ m.clock p < m.stop then
        if p.id < m.idEnd ∧ m.idStart ≤ p.id then
          [((m.stop - m.start) * (p.id - m.idStart) + m.clock p - m.start, p.coords)]
        else []
       else []) ++ m.writes back ps
    else if 1 < m.nRep then
      if m.clock p < m.start then []
      else
        (if (m.clock p - m.start).tdiv m.period < m.nRep ∧
            m.start + (m.clock p - m.start).tdiv m.period * m.period ≤ m.clock p ∧
            m.clock p < m.stop + (m.clock p - m.start).tdiv m.period * m.period then
          if p.id < m.idEnd ∧ m.idStart ≤ p.id then
            [((m.stop - m.start) * (m.idEnd - m.idStart) * (m.clock p - m.start).tdiv m.period +
              (m.stop - m.start) * (p.id - m.idStart) +
              (m.clock p - (m.clock p - m.start).tdiv m.period * m.period) - m.start, p.coords)]
          else []
         else []) ++ m.writes back ps
    else m.writes back ps

/-- One passage. -/
def PMon.track {R : Type} (m : PMon) (back : Bool) (mem : Mem R) (ps : List (Pt R)) : Mem R :=
  (m.writes back ps).foldl put mem

/-- Cell read by `monitor.x[row, col]` (one repetition) or `monitor.x[rep, row, col]`;
particles_monitor.py:163-171 (C order of numpy `reshape`). -/
def PMon.cell (m : PMon) (rep row col : Int) : Int :=
  if m.nRep = 1 then row * (m.stop - m.start) + col
  else rep * (m.nRecords / (m.stop - m.start) / m.nRep * (m.stop - m.start)) + row * (m.stop - m.start) + col

/-! ## LastTurnsMonitor -/

/-- Parameters; last_turns_monitor.py:36-42. -/
structure LMon where
  n : Int
  idStart : Int
  num : Int
  every : Int

/-- `data` and `lost_at_offset`; last_turns_monitor.py:18-30.  The values are stored with 32 bits, `R` is
the rounded record. -/
structure LData (R : Type) where
  data : Mem R
  offset : Int → Int

/-- One particle; last_turns_monitor.h:23-51. -/
def LMon.one {R : Type} (m : LMon) (d : LData R) (p : Pt R) : LData R :=
  if 0 ≤ p.turn ∧ p.turn.tmod m.every = 0 ∧ m.idStart ≤ p.id ∧ p.id < m.idStart + m.num then
    ⟨put d.data (m.n * (p.id - m.idStart) + (p.turn.tdiv m.every).tmod m.n, p.coords),
     fun i => if i = p.id - m.idStart then (p.turn.tdiv m.every).tmod m.n else d.offset i⟩
  else d

/-- One passage. -/
def LMon.track {R : Type} (m : LMon) (d : LData R) (ps : List (Pt R)) : LData R := ps.foldl m.one d

/-- New monitor, filled with zeros; last_turns_monitor.py:94-96. -/
def LData.new {R : Type} (zero : R) : LData R := ⟨fun _ => zero, fun _ => 0⟩

/-- `monitor.x[row, col]`; last_turns_monitor.py:108-117. -/
def LMon.get {R : Type} (m : LMon) (d : LData R) (row col : Int) : R :=
  d.data (row * m.n + (col + (d.offset row + 1)) % m.n)

/-! ## MultiElementMonitor -/

/-- Names of the recorded coordinates; multi_element_monitor.py:23-24. -/
inductive Coord
  | x | px | y | py | zeta | delta | s
deriving DecidableEq

/-- `_coord_name_to_index`; multi_element_monitor.py:23-24. -/
def Coord.index : Coord → Int
  | .x => 0 | .px => 1 | .y => 2 | .py => 3 | .zeta => 4 | .delta => 5 | .s => 6

/-- Monitor; multi_element_monitor.py:6-13.  `obs`: indices of the observed elements, in the order given
by the user (element names of the table are unique, a name is its index); `lenTable`: number of rows of
the line table. -/
structure MMon where
  start : Int
  stop : Int
  idStart : Int
  idEnd : Int
  obs : List Nat
  lenTable : Nat

/-- Position of the last occurrence in the list, as left by a loop of assignments. -/
def lastIndex (k : Nat) (e : Nat) : List Nat → Option Nat
  | [] => none
  | o :: os => match lastIndex (k + 1) e os with
    | some i => some i
    | none => if o = e then some k else none

/-- `at_element_mapping`; tracker.py:1503-1505. -/
def MMon.mapping (m : MMon) (e : Nat) : Int :=
  match lastIndex 0 e m.obs with
  | some k => k
  | none => -1

/-- `_name_to_index`; multi_element_monitor.py:40-42.  `none` is a `KeyError`. -/
def MMon.nameToIndex (m : MMon) (e : Nat) : Option Nat := lastIndex 0 e m.obs

/-- Flat index in `data` of shape (turns, particles, 7, locations), C order; tracker.py:1521. -/
def MMon.flat (m : MMon) (turn part coord loc : Int) : Int :=
  ((turn * (m.idEnd - m.idStart) + part) * 7 + coord) * m.obs.length + loc

/-- Number of cells; tracker.py:1521. -/
def MMon.size (m : MMon) : Int := (m.stop - m.start) * (m.idEnd - m.idStart) * 7 * m.obs.length

/-- The writes for one particle; multi_element_monitor.h:22-62. -/
def MMon.writes {R : Type} (m : MMon) (p : Pt (Coord → R)) : List (Int × R) :=
  if (m.start ≤ p.turn ∧ p.turn < m.stop) ∧ (m.idStart ≤ p.id ∧ p.id < m.idEnd) then
    let storeAt : Int := if p.element < m.lenTable then m.mapping p.element.toNat else -1
    if 0 ≤ storeAt then
      let t := p.turn - m.start
      let i := p.id - m.idStart
      [(m.flat t i 0 storeAt, p.coords .x), (m.flat t i 1 storeAt, p.coords .px), (m.flat t i 2 storeAt, p.coords .y),
       (m.flat t i 3 storeAt, p.coords .py), (m.flat t i 4 storeAt, p.coords .zeta), (m.flat t i 5 storeAt, p.coords .delta),
       (m.flat t i 6 storeAt, p.coords .s)]
    else []
  else []

/-- One passage. -/
def MMon.track {R : Type} (m : MMon) (mem : Mem R) (ps : List (Pt (Coord → R))) : Mem R :=
  (ps.flatMap m.writes).foldl put mem

/-- `monitor.get(coordinate, obs_name, particle_id, turn)`; multi_element_monitor.py:51-69. -/
def MMon.get {R : Type} (m : MMon) (mem : Mem R) (c : Coord) (e : Nat) (id turn : Int) : Option R :=
  (m.nameToIndex e).map fun k : Nat => mem (m.flat (turn - m.start) (id - m.idStart) c.index k)

end Verif.Monitors
