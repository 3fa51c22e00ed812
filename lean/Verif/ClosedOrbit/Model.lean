import Mathlib.Data.Real.Sqrt
import Mathlib.Data.Fin.VecNotation

/-!
# The search for the closed orbit

Model of `xtrack/twiss/closed_orbit.py`, `find_closed_orbit_line` and what it calls.

The coordinates of a particle are the six numbers x, px, y, py, zeta, delta in this order.  Tracking
is a function which gives `none` if the particle is lost.  The optimizer, which belongs to another
package, is a parameter: what is assumed of it is written where it is used.
-/

namespace Verif.ClosedOrbit

/-- x, px, y, py, zeta, delta. -/
abbrev V := Fin 6 → ℝ

/-- `DEFAULT_CO_SEARCH_TOL`: twiss_defaults_and_input_preparation.py:20. -/
noncomputable def guessTol : V := ![1/10^11, 1/10^11, 1/10^11, 1/10^11, 1/10^5, 1/10^9]

/-- The tolerances given to the optimizer: closed_orbit.py:150. -/
noncomputable def solveTol : V := ![1/10^12, 1/10^12, 1/10^12, 1/10^12, 1/10^11, 1/10^12]

/-- The coordinates with another zeta. -/
def withZeta (p : V) (z : ℝ) : V := ![p 0, p 1, p 2, p 3, z, p 5]

/-- What is asked for. -/
structure Ask where
  shift : ℝ := 0
  delta0 : Option ℝ := none
  zeta0 : Option ℝ := none
  keepGoing : Bool := false

/-- `_one_turn_map`: the particle starts with zeta less the shift; a lost particle is an
exception: closed_orbit.py:181-212.  (The energy program and the mirrored second pass are part of
`F`.) -/
def oneTurn (F : V → Option V) (a : Ask) (p : V) : Option V := F (withZeta p (p 4 - a.shift))

/-- The four `_error_for_co_search_…`, chosen as in closed_orbit.py:121-132: closed_orbit.py:215-248. -/
def err (F : V → Option V) (a : Ask) (p : V) : Option V :=
  match oneTurn F a p with
  | none => none
  | some q => some (match a.delta0, a.zeta0 with
    | some d, none => ![p 0 - q 0, p 1 - q 1, p 2 - q 2, p 3 - q 3, 0, p 5 - d]
    | none, some z => ![p 0 - q 0, p 1 - q 1, p 2 - q 2, p 3 - q 3, p 4 - z, 0]
    | some d, some z => ![p 0 - q 0, p 1 - q 1, p 2 - q 2, p 3 - q 3, p 4 - z, p 5 - d]
    | none, none => fun i => p i - q i)

/-- The starting point of an attempt: closed_orbit.py:115-132. -/
noncomputable def begin_ (a : Ask) (g : V) (k : ℝ) : V :=
  let x : V := ![g 0 + k * (1/10^5), g 1 + k * (1/10^7), g 2 + k * (1/10^5), g 3 + k * (1/10^7),
    g 4 + k * (1/10^4), g 5 + k * (1/10^5)]
  ![x 0, x 1, x 2, x 3, match a.zeta0 with | some z => z | none => x 4,
    match a.delta0, a.zeta0 with | some d, none => d | _, _ => x 5]

/-- The optimizer: the last point and whether it succeeded. -/
abbrev Solver := (V → Option V) → V → V × Bool

/-- Result of one attempt: an exception of the first evaluation, which is not caught, a point with
success, or one without. -/
inductive Try
  | lost
  | found (p : V)
  | failed (p : V)

open Classical in
/-- One pass through the loop: closed_orbit.py:111-164. -/
noncomputable def attempt (F : V → Option V) (solve : Solver) (a : Ask) (g : V) (k : ℝ) : Try :=
  let x := begin_ a g k
  match err F a x with
  | none => .lost
  | some e =>
    if ∀ i, |e i| < guessTol i then .found x
    else
      let r := solve (err F a) x
      if r.2 then .found r.1 else .failed r.1

/-- `find_closed_orbit_line` without `co_search_at` and without spin; `none` is
`ClosedOrbitSearchError`: closed_orbit.py:111-176. -/
noncomputable def find (F : V → Option V) (solve : Solver) (a : Ask) (g : V) : Option V :=
  let out : Option V := match attempt F solve a g 0 with
    | .lost => none
    | .found p => some p
    | .failed _ =>
      match attempt F solve a g 1 with
      | .lost => none
      | .found p => some p
      | .failed p => if a.keepGoing then some p else none
  out.map (fun p => withZeta p (p 4 - a.shift))

/-! ## Searching elsewhere, and spin -/

/-- Spin of a particle. -/
abbrev Spin := Fin 3 → ℝ

/-- An element acts on coordinates and spin. -/
structure Elem where
  move : V → Option V
  turn : V → Spin → Spin

/-- Tracking through elements one after the other. -/
def orbit : List Elem → V → Option V
  | [], p => some p
  | e :: es, p => match e.move p with
    | none => none
    | some q => orbit es q

/-- What happens to the spin on the way. -/
def spins : List Elem → V → Spin → Spin
  | [], _, s => s
  | e :: es, p, s => match e.move p with
    | none => s
    | some q => spins es q (e.turn p s)

/-- `line.track(p, ele_start=k, ele_stop=k)`: one turn from element `k`. -/
def turnFrom (line : List Elem) (k : ℕ) : List Elem := line.drop k ++ line.take k

/-- `find_closed_orbit_line`: with `at_ = 0` at the start of the line; otherwise the search is done
at the element and the particle is tracked on to the start: closed_orbit.py:58-68, 166-178.
The spin is found by `spin.py:18-56`, which tracks a turn from the start of the line (no
`ele_start`), wherever the particle is. -/
noncomputable def findAt (line : List Elem) (solve : Solver) (spinSolve : (Spin → Spin) → Spin) (a : Ask)
    (g : V) (at_ : ℕ) : Option (V × Spin) :=
  match find (orbit (turnFrom line at_)) solve a g with
  | none => none
  | some p =>
    let s := spinSolve (spins line p)
    if at_ = 0 then some (p, s)
    else match orbit (line.drop at_) p with
      | none => none
      | some q => some (q, spins (line.drop at_) p s)

/-! ## Search for the revolution time -/

/-- `n` turns. -/
def turns (F : V → V) : ℕ → V → V
  | 0, p => p
  | n + 1, p => turns F n (F p)

/-- `_merit_function_co_t_rev`, the numbers for one turn of the record, which has the turns before
the `n`-th: closed_orbit.py:255-268. -/
def merit (F : V → V) (n : ℕ) (p : V) : List (List ℝ) :=
  (List.range n).map (fun t => [turns F t p 0 - p 0, turns F t p 1 - p 1, turns F t p 2 - p 2,
    turns F t p 3 - p 3, turns F t p 5 - p 5])

end Verif.ClosedOrbit
