import Mathlib.Data.Real.Basic
import Mathlib.Data.Real.Archimedean
import Mathlib.Algebra.Order.Floor.Semiring
import Mathlib.Data.List.Basic
import Mathlib.Tactic.Ring
import Mathlib.Tactic.NormNum
import Mathlib.Tactic.Linarith
import Mathlib.Tactic.FieldSimp
import Mathlib.Tactic.Positivity

/-!
# Refinement of the location of losses (C124)

Modelled: `LossLocationRefinement.refine_loss_location`, `refine_loss_location_single_aperture`, `generate_interp_aperture_locations` and the order of the
elements which `build_interp_line` makes, of `/repo/xtrack/loss_location_refinement/loss_location_refinement.py`, lines 110-212, 305-383, 466-477, 493-531.

Simplifications: real numbers; the coordinates of a particle are a value of any type, and the motion in the part of the line between two apertures is a function
of the two positions between which one tracks (backwards when the second is smaller); the interpolated apertures are one predicate for each position.  The
construction of the polygons is not modelled, and thin elements beside the apertures count as part of the apertures.
-/

namespace Verif.LossRef

open Classical

/-- A particle: `state`, `at_element`, `s`, and the other coordinates. -/
structure Part (α : Type) where
  state : ℤ
  atElement : ℕ
  s : ℝ
  c : α

/-- What lies between an aperture and the one before it. -/
structure Section (α : Type) where
  s0 : ℝ
  s1 : ℝ
  /-- one of the elements has `skip_in_loss_location_refinement` -/
  skip : Bool
  /-- particles can be tracked backwards through all elements -/
  canBacktrack : Bool
  /-- tracking from a distance to another -/
  move : ℝ → ℝ → α → α
  /-- inside of the aperture at a distance from the first aperture -/
  inside : ℝ → α → Prop

noncomputable section

variable {α : Type}

/-- `s_vect` of `generate_interp_aperture_locations`, lines 466-477, as distances from the first aperture: `n_segments = ceil((s1 - s0) / ds)`, and the inner
points of `linspace(s0, s1, n_segments + 1)`. -/
def sVect (S : Section α) (ds : ℝ) : List ℝ :=
  let n := Nat.ceil ((S.s1 - S.s0) / ds)
  if n ≤ 1 then [] else (List.range (n - 1)).map fun (k : ℕ) => (S.s1 - S.s0) * ((k : ℝ) + 1) / n

/-- Distances of the apertures of the line of `build_interp_line`, lines 493-531: the first one, the interpolated ones, the last one. -/
def grid (S : Section α) (ds : ℝ) : List ℝ := 0 :: (sVect S ds ++ [S.s1 - S.s0])

/-- Tracking through that line, from the distance `d`: the particle stops at the first aperture in which it is not inside. -/
def walk (S : Section α) : ℝ → α → List ℝ → α × ℝ
  | d, c, [] => (c, d)
  | d, c, d' :: r => if S.inside d' (S.move d d' c) then walk S d' (S.move d d' c) r else (S.move d d' c, d')

/-- `refine_loss_location_single_aperture` for one particle, lines 305-383: back to the first aperture, then forward. -/
def refineSingle (S : Section α) (ds : ℝ) (p : Part α) : Part α :=
  let L := S.s1 - S.s0
  let w := walk S 0 (S.move L 0 p.c) (grid S ds)
  { p with c := w.1, s := p.s - L + w.2 }

/-- `mask_part`, line 310. -/
def LostAt (i : ℕ) (p : Part α) : Prop := p.state = 0 ∧ p.atElement = i

/-- The loop of `refine_loss_location` over the apertures, lines 134-212; each aperture with its index and, except for the first of the line, what lies before it.
`none`: `TypeError`. -/
def refine (ds : ℝ) : List (ℕ × Option (Section α)) → List (Part α) → Option (List (Part α))
  | [], ps => some ps
  | (i, sec) :: r, ps =>
    if ∃ p ∈ ps, LostAt i p then
      match sec with
      | none => refine ds r ps
      | some S =>
        if S.skip then some ps
        else if S.s1 - S.s0 ≤ ds then refine ds r ps
        else if S.canBacktrack then refine ds r (ps.map fun p => if LostAt i p then refineSingle S ds p else p)
        else none
    else refine ds r ps

end

end Verif.LossRef
