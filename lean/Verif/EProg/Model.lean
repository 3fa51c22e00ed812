import Mathlib.Data.Real.Basic
import Mathlib.Algebra.Order.Floor.Ring
import Mathlib.Data.Real.Archimedean
import Mathlib.Tactic.Linarith
import Mathlib.Tactic.FieldSimp
import Mathlib.Tactic.Ring
import Mathlib.Tactic.NormNum

/-!
# Energy programs

`EnergyProgram` (`xtrack/line.py:8155-8312`), the setter `line.energy_program` (`line.py:7006-7018`) and the update of the reference
momentum at the beginning of each turn (`xtrack/tracker.py:1640-1672`).

The interpolation (`xdeps.FunctionPieceWiseLinear`) is not part of the repository: it is taken as linear between the points and
constant outside. Conversions between momentum and velocity are those of the particles (area `Energy`); here the velocities of the
program are given.
-/

namespace Verif.EProg

/-- Linear interpolation between points given in increasing order, constant outside. -/
noncomputable def interp : List (ℝ × ℝ) → ℝ → ℝ
  | [], _ => 0
  | [p], _ => p.2
  | p :: q :: t, x => if x ≤ p.1 then p.2 else if x ≤ q.1 then p.2 + (q.2 - p.2) * (x - p.1) / (q.1 - p.1) else interp (q :: t) x

/-- `np.cumsum(bet0_mid * clight / circumference * dt_s)` with a running sum: the turn numbers of the points after the first;
line.py:8203-8211. A point is a time and the velocity in units of that of light; `k` is `clight / circumference`. -/
noncomputable def turnsFrom (k : ℝ) : ℝ → List (ℝ × ℝ) → List ℝ
  | _, [] => []
  | _, [_] => []
  | acc, p :: q :: t =>
    let n := acc + (p.2 + q.2) / 2 * k * (q.1 - p.1)
    n :: turnsFrom k n (q :: t)

/-- `i_turn_at_t_samples`: zero for the first point, then `beta0_program[0] * clight / circumference * t_s[0]` plus the sums;
line.py:8208-8212. -/
noncomputable def turns (k : ℝ) (pts : List (ℝ × ℝ)) : List ℝ :=
  match pts with
  | [] => []
  | p :: t => 0 :: (turnsFrom k 0 (p :: t)).map fun n => p.2 * k * p.1 + n

/-- The same when the times are integers: `np.zeros_like(t_s)` is then an array of integers, and the numbers assigned to it lose
their fractions. -/
noncomputable def turnsInteger (k : ℝ) (pts : List (ℝ × ℝ)) : List ℝ := (turns k pts).map fun n => (⌊n⌋ : ℝ)

/-- `get_t_s_at_turn`, line.py:8224-8231: `none` beyond the last turn of the program. -/
noncomputable def timeAtTurn (ts : List ℝ) (ns : List ℝ) (i : ℝ) : Option ℝ :=
  if ns.getLastD 0 < i then none else some (interp (ns.zip ts) i)

/-! ### Which line is accelerated -/

/-- The lines of an environment which share the one element named `energy_program`: the address of the reference particle of each
line, the momenta of the reference particles, and the line to which the program is attached (`energy_program.line`). -/
structure Env where
  refOf : ℕ → ℕ
  p0c : ℕ → ℝ
  owner : ℕ
  nLines : ℕ
  nRefs : ℕ

/-- Start of a turn of line `i` at time `t`: setting `t_turn_s` calls the setter of `energy_program.t_turn_s_line`, which updates the
reference of the line to which the program is attached (line.py:8289-8293); then the particles get the momentum of the reference of
the tracked line (tracker.py:1668-1670). Returns the environment and the momentum given to the particles. -/
noncomputable def turnStart (prog : ℝ → ℝ) (e : Env) (i : ℕ) (t : ℝ) : Env × ℝ :=
  let p := fun a => if a = e.refOf e.owner then prog t else e.p0c a
  ({ e with p0c := p }, p (e.refOf i))

/-- Turns in sequence: the momenta given to the particles. -/
noncomputable def turnStarts (prog : ℝ → ℝ) (e : Env) (i : ℕ) : List ℝ → Env × List ℝ
  | [] => (e, [])
  | t :: ts =>
    let r := turnStart prog e i t
    let q := turnStarts prog r.1 i ts
    (q.1, r.2 :: q.2)

/-- Attach the program to a line; line.py:7006-7018. -/
def attach (e : Env) (i : ℕ) : Env := { e with owner := i }

/-- `line.copy(shallow=True)` for a line with its own reference particle: a new line with a copy of the reference, and the program is
attached to the new line; line.py:1211-1213, 1235-1240, 1248-1249. -/
def shallowCopy (e : Env) (i : ℕ) : Env :=
  { refOf := fun j => if j = e.nLines then e.nRefs else e.refOf j
    p0c := fun a => if a = e.nRefs then e.p0c (e.refOf i) else e.p0c a
    owner := e.nLines
    nLines := e.nLines + 1
    nRefs := e.nRefs + 1 }

/-- Reading an environment with its lines: each line attaches the program to itself, so that the last one keeps it; line.py:495-497,
environment.py:1187-1200. -/
def reload (e : Env) : Env := (List.range e.nLines).foldl attach e

end Verif.EProg
