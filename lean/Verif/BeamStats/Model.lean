import Mathlib.Data.Rat.Floor
import Mathlib.Algebra.Order.Floor.Ring
import Mathlib.Tactic.Linarith
import Mathlib.Tactic.Ring

/-!
# The monitor of beam statistics: constructor and tracking kernel

Model of `xtrack/monitors/beam_stats_monitor/beam_stats_monitor.py` (constructor) and of
`xtrack/monitors/beam_stats_monitor.h` (what a particle passing the monitor adds to which
entry of the arrays).

Simplifications: numbers are taken from an ordered field (no rounding); arrays are functions
from the flat index (that every index used is inside the array is a theorem);
the list of `sum_…` arrays of the kernel is one array per `Moment`.
-/

namespace Verif.BeamStats

variable {K : Type*} [Field K] [LinearOrder K] [IsStrictOrderedRing K] [FloorRing K]

/-- The modes 0, 1, 2, 3 of the monitor: beam_stats_monitor.py:429-470. -/
inductive Mode | beam | bunch | slice | coasting
  deriving DecidableEq, Repr

/-- Arguments of the constructor which decide what is recorded where:
beam_stats_monitor.py:269-286.  (`stats`, `profiles` and `output_file` are modelled in
other files.) -/
structure Input (K : Type*) where
  start : ℤ := 0
  stop : Option ℤ := none
  every : ℤ := 1
  zetaRange : Option (K × K) := none
  numSlices : Option ℤ := none
  spacing : Option K := none
  numBunches : Option ℤ := none
  scheme : Option (List ℤ) := none
  filled : Option (List ℤ) := none
  selected : Option (List ℤ) := none
  coasting : Bool := false
  idRange : Option (ℤ × ℤ) := none

/-- Fields of the element: beam_stats_monitor.py:237-256. -/
structure Conf (K : Type*) where
  start : ℤ
  stop : ℤ
  every : ℤ
  mode : Mode
  nRecords : ℤ
  nSelected : ℤ
  nSlices : ℤ
  zMin : K
  dzeta : K
  spacing : K
  idStart : ℤ
  idStop : ℤ
  selected : List ℤ
  slotTo : List ℤ
  deriving DecidableEq

/-- Exceptions raised by the constructor. -/
inductive Err
  | slicesMissing | rangeInCoasting | together | every | idRange | bunchesInCoasting | onlyOne
  | noFilled | dupFilled | dupSelected | unfilled | spacingMissing | slotZero | spacingSign
  | negative | numSlices | rangeOrder
  deriving DecidableEq, Repr

/-- beam_stats_monitor.py:1337-1361 `_validate_particle_id_range`. -/
def idBounds : Option (ℤ × ℤ) → Except Err (ℤ × ℤ)
  | none => .ok (-1, -1)
  | some (a, b) => if a < 0 then .error .idRange else if b ≤ a then .error .idRange else .ok (a, b)

/-- `np.nonzero(filling_scheme)[0]`: beam_stats_monitor.py:362-363. -/
def nonzeroAt (l : List ℤ) : List ℤ :=
  (l.zipIdx.filter (fun a => a.1 ≠ 0)).map (fun a => (a.2 : ℤ))

/-- The filled slots: beam_stats_monitor.py:361-369. -/
def filledSlots (inp : Input K) : List ℤ :=
  match inp.scheme, inp.filled, inp.numBunches with
  | some l, _, _ => nonzeroAt l
  | none, some l, _ => l
  | none, none, some n => (List.range n.toNat).map (fun i : ℕ => (i : ℤ))
  | none, none, none => [0]

/-- How many of `num_bunches`, `filled_slots` and `filling_scheme` are given:
beam_stats_monitor.py:350-356. -/
def definitions (inp : Input K) : ℕ :=
  (if inp.numBunches.isSome then 1 else 0) + (if inp.filled.isSome then 1 else 0)
    + (if inp.scheme.isSome then 1 else 0)

/-- Checks of the slots in the modes with bunches; the result is `selected_slots`:
beam_stats_monitor.py:347-400. -/
def slots (inp : Input K) : Except Err (List ℤ) :=
  if 1 < definitions inp then .error .onlyOne else
  let filled := filledSlots inp
  if filled = [] then .error .noFilled else
  if ¬ filled.Nodup then .error .dupFilled else
  let sel := inp.selected.getD filled
  if ¬ sel.Nodup then .error .dupSelected else
  if ¬ ∀ s ∈ sel, s ∈ filled then .error .unfilled else
  match inp.spacing with
  | none =>
    if 1 < sel.length then .error .spacingMissing else
    if filled ≠ [0] ∨ sel ≠ [0] then .error .slotZero else .ok sel
  | some sp => if sp ≤ 0 then .error .spacingSign else .ok sel

/-- `slot_to_selected[slot] = ii` for the slots in order: beam_stats_monitor.py:412-417. -/
def assign : List (ℤ × ℕ) → List ℤ → List ℤ
  | [], t => t
  | (s, i) :: rest, t => assign rest (t.set s.toNat (i : ℤ))

/-- The largest slot (`np.max`). -/
def maxSlot (l : List ℤ) : ℤ := l.foldl max (l.headD 0)

/-- The dense lookup from slot to position among the selected ones:
beam_stats_monitor.py:406-417. -/
def lookup (sel : List ℤ) : Except Err (List ℤ) :=
  if sel = [] then .ok [] else
  if maxSlot sel < 0 then .error .negative else
  if ∃ s ∈ sel, s < 0 then .error .negative else
  .ok (assign sel.zipIdx (List.replicate (maxSlot sel + 1).toNat (-1)))

/-- `len(np.arange(start, stop, every))`: beam_stats_monitor.py:419-422. -/
def turnCount (start stop every : ℤ) : ℤ := max 0 ((stop - start + every - 1) / every)

/-- Whether any argument about bunches is given: beam_stats_monitor.py:331-343. -/
def bunchInput (inp : Input K) : Bool :=
  inp.filled.isSome || inp.scheme.isSome || inp.selected.isSome || inp.spacing.isSome
    || inp.numBunches.isSome

/-- The constructor: beam_stats_monitor.py:298-471. -/
def build (inp : Input K) : Except Err (Conf K) :=
  if inp.coasting ∧ inp.numSlices = none then .error .slicesMissing else
  if inp.coasting ∧ inp.zetaRange.isSome then .error .rangeInCoasting else
  if ¬ inp.coasting ∧ inp.zetaRange.isSome ≠ inp.numSlices.isSome then .error .together else
  let stop := inp.stop.getD (inp.start + 1)
  if inp.every ≤ 0 then .error .every else
  match idBounds inp.idRange with
  | .error e => .error e
  | .ok (ids, ide) =>
  if inp.coasting ∧ bunchInput inp then .error .bunchesInCoasting else
  let n := turnCount inp.start stop inp.every
  let sp := inp.spacing.getD 0
  if inp.coasting then
    let k := inp.numSlices.getD 0
    if k ≤ 0 then .error .numSlices else
    .ok ⟨inp.start, stop, inp.every, .coasting, n, 1, k, 0, 1 / (k : K), sp, ids, ide, [0], [0]⟩
  else if inp.zetaRange.isSome ∨ bunchInput inp then
    match slots inp with
    | .error e => .error e
    | .ok sel =>
    match lookup sel with
    | .error e => .error e
    | .ok tab =>
    match inp.zetaRange with
    | some (a, b) =>
      let k := inp.numSlices.getD 0
      if k ≤ 0 then .error .numSlices else
      if (b - a) / (k : K) ≤ 0 then .error .rangeOrder else
      .ok ⟨inp.start, stop, inp.every, .slice, n, sel.length, k, a, (b - a) / (k : K), sp, ids, ide,
        sel, tab⟩
    | none =>
      .ok ⟨inp.start, stop, inp.every, .bunch, n, sel.length, 1,
        (if inp.spacing.isSome then -(1 / 2) * sp else 0), 0, sp, ids, ide, sel, tab⟩
  else
    .ok ⟨inp.start, stop, inp.every, .beam, n, 0, 0, 0, 0, sp, ids, ide, [], []⟩

/-- The particle quantities with a stored sum, `_FIRST_MOMENTS`: beam_stats_monitor.py:26-34
(and beam_stats_monitor.h:288-298). -/
inductive Coord | x | px | y | py | zeta | delta | pzeta | charge | mass
  deriving DecidableEq, Repr

/-- What the monitor reads of a particle: beam_stats_monitor.h:193-201, 288-301.
`bg` is `beta0 * gamma0`; the mass ratio is charge ratio divided by chi. -/
structure Part (K : Type*) where
  state : ℤ
  turn : ℤ
  id : ℤ
  weight : K
  bg : K
  q : Coord → K

/-- The periodic longitudinal position of a coasting beam: effective turn, slice and recorded
zeta, or nothing if not accepted: beam_stats_monitor.h:207-226. -/
def periodic (n : ℤ) (L : K) (turn : ℤ) (zeta : K) : Option (ℤ × ℤ × K) :=
  if L ≤ 0 then none else
  let u := (turn : K) - zeta / L
  let eff := ⌊u + 1 / 2⌋
  let f := u - (eff : K)
  let s := ⌊(f + 1 / 2) * (n : K)⌋
  if s < 0 ∨ n ≤ s then none else some (eff, s, -f * L)

/-- The slot of a particle and its position among the selected slots:
beam_stats_monitor.h:244-266. -/
def chosen (c : Conf K) (zeta : K) : Option (ℤ × ℤ) :=
  if c.spacing ≠ 0 then
    let slot := -⌊(zeta - c.zMin) / c.spacing⌋
    if 0 ≤ slot ∧ slot < c.slotTo.length then
      let i := c.slotTo.getD slot.toNat (-1)
      if i < 0 then none else some (slot, i)
    else none
  else if c.nSelected = 1 then some (c.selected.headD 0, 0)
  else none

/-- The flat index for a record: beam_stats_monitor.h:237-283. -/
def flat (c : Conf K) (zeta : K) (iRecord iCoasting : ℤ) : Option ℤ :=
  match c.mode with
  | .beam => some iRecord
  | .coasting => some ((iRecord * c.nSelected) * c.nSlices + iCoasting)
  | .bunch => (chosen c zeta).map (fun a => iRecord * c.nSelected + a.2)
  | .slice =>
    match chosen c zeta with
    | none => none
    | some (slot, i) =>
      let s := ⌊(zeta - (c.zMin - (slot : K) * c.spacing)) / c.dzeta⌋
      if s < 0 ∨ c.nSlices ≤ s then none else some ((iRecord * c.nSelected + i) * c.nSlices + s)

/-- Whether the particle number passes the filter: beam_stats_monitor.h:199-205. -/
def idPasses (c : Conf K) (id : ℤ) : Prop :=
  ¬ (0 ≤ c.idStart ∧ (id < c.idStart ∨ c.idStop ≤ id))

instance (c : Conf K) (id : ℤ) : Decidable (idPasses c id) := by unfold idPasses; infer_instance

/-- Record, flat index and recorded zeta for an effective turn: beam_stats_monitor.h:228-285. -/
def atTurn (c : Conf K) (eff iCoasting : ℤ) (zeta : K) : Option (ℤ × ℤ × K) :=
  let off := eff - c.start
  if c.start ≤ eff ∧ eff < c.stop ∧ off.tmod c.every = 0 then
    let r := off.tdiv c.every
    if 0 ≤ r ∧ r < c.nRecords then (flat c zeta r iCoasting).map (fun i => (r, i, zeta)) else none
  else none

/-- Record, flat index and recorded zeta for a particle, or nothing if it is not recorded:
beam_stats_monitor.h:192-285.  `L` is the length of the line. -/
def cell (c : Conf K) (L : K) (p : Part K) : Option (ℤ × ℤ × K) :=
  if 0 < p.state then
    if idPasses c p.id then
      match c.mode with
      | .coasting =>
        match periodic c.nSlices L p.turn (p.q .zeta) with
        | none => none
        | some (eff, s, z) => atTurn c eff s z
      | _ => atTurn c p.turn 0 (p.q .zeta)
    else none
  else none

/-- The arrays of sums: `num_particles`, `sum_beta0_gamma0`, `sum_<coord>`,
`sum_<coord>_<coord>`: beam_stats_monitor.py:62-102. -/
inductive Moment | one | bg | first (a : Coord) | second (a b : Coord)
  deriving DecidableEq, Repr

/-- Coordinate of a particle as recorded: beam_stats_monitor.h:195, 224, 289-298. -/
def coordOf (p : Part K) (z : K) (a : Coord) : K := if a = .zeta then z else p.q a

/-- The product which is summed with the weight: beam_stats_monitor.h:303-370. -/
def product (p : Part K) (z : K) : Moment → K
  | .one => 1
  | .bg => p.bg
  | .first a => coordOf p z a
  | .second a b => coordOf p z a * coordOf p z b

/-- What is stored: the sums, and which records have received anything:
beam_stats_monitor.h:47-54, 286. -/
structure Store (K : Type*) where
  sum : Moment → ℤ → K
  touched : ℤ → Bool

/-- Nothing stored: `_reset_data`, `_reset_touched_records`:
beam_stats_monitor.py:1188-1200. -/
def Store.empty : Store K := ⟨fun _ _ => 0, fun _ => false⟩

/-- One particle passes the monitor; `kept m` says that the array has length > 0:
beam_stats_monitor.h:285-370. -/
def pass (c : Conf K) (kept : Moment → Bool) (L : K) (s : Store K) (p : Part K) : Store K :=
  match cell c L p with
  | none => s
  | some (r, i, z) =>
    { sum := fun m j => if kept m = true ∧ j = i then s.sum m j + p.weight * product p z m
                        else s.sum m j
      touched := fun j => if j = r then true else s.touched j }

/-- All particles pass: START_PER_PARTICLE_BLOCK, beam_stats_monitor.h:192-416. -/
def track (c : Conf K) (kept : Moment → Bool) (L : K) (s : Store K) (ps : List (Part K)) : Store K :=
  ps.foldl (pass c kept L) s

end Verif.BeamStats
