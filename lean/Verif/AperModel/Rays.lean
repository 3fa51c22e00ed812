import Verif.AperModel.Polygon

/-!
Distances from the centre of the beam to the aperture along rays, and the extents of the aperture on the axes,
xtrack/aperture/headers/polygon_algs.h and cross_sections.h. Coordinates are rationals; a ray is given by its direction.
-/
namespace Verif.AperModel.Rays
open Polygon (P)

/-- `point2d_sub`, `point2d_cross`, `point2d_dot`, base.h:101-129. -/
def sub (a b : P) : P := ⟨a.x - b.x, a.y - b.y⟩
def cross (a b : P) : Rat := a.x * b.y - a.y * b.x
def dot (a b : P) : Rat := a.x * b.x + a.y * b.y

/-- What the body of the loop of `dist_to_poly_along_ray` finds for one edge. -/
inductive Found where
  | miss
  | zero
  | at (t : Rat)
deriving DecidableEq

/-- The body of the loop, polygon_algs.h:258-316, for the edge from `a0` to `b0`, the origin `o` and the direction `d`. -/
def look (eps : Rat) (o d a0 b0 : P) : Found :=
  let a := sub a0 o
  let b := sub b0 o
  let ca := cross a d
  let cb := cross b d
  if |cb - ca| > eps then
    let u := ca / (ca - cb)
    if u < -eps ∨ 1 + eps < u then .miss
    else
      let t := dot ⟨a.x + u * (b.x - a.x), a.y + u * (b.y - a.y)⟩ d
      if t ≥ 0 then .at t else .miss
  else if |ca| > eps ∨ |cb| > eps then .miss
  else if decide (dot a d < 0) ≠ decide (dot b d < 0) then .zero
  else .at (min |dot a d| |dot b d|)

/-- Is the distance smaller than the best one so far? `none` is infinity. -/
def better (t : Rat) : Option Rat → Bool
  | none => true
  | some b => decide (t < b)

/-- `dist_to_poly_along_ray`, polygon_algs.h:213-319, over the edges in the order in which they are visited (from `start_at`). -/
def scan (eps : Rat) (o d : P) (convex : Bool) : List (P × P) → Option Rat → Option Rat
  | [], best => best
  | e :: rest, best => match look eps o d e.1 e.2 with
    | .miss => scan eps o d convex rest best
    | .zero => some 0
    | .at t => if better t best then (if convex then some t else scan eps o d convex rest (some t)) else scan eps o d convex rest best

/-- The edges of a polygon given by its points. -/
def edges : List P → List (P × P)
  | a :: b :: rest => (a, b) :: edges (b :: rest)
  | _ => []

/-- `dist_to_poly_along_ray` with `start_at`. -/
def distance (eps : Rat) (o d : P) (pts : List P) (convex : Bool) (start : Nat) : Option Rat :=
  scan eps o d convex ((edges pts).rotateLeft start) none

/-- The sign found by the loop of `polygon_is_convex`, polygon_algs.h:60-77: 0 at the beginning; `none` is `return 0`. -/
def signs (eps : Rat) : List Rat → Int → Option Int
  | [], s => some s
  | c :: rest, s =>
    if |c| ≤ eps * eps then signs eps rest s
    else
      let this : Int := if c > 0 then 1 else -1
      if s = 0 then signs eps rest this else if s ≠ this then none else signs eps rest s

/-- `polygon_is_convex`, polygon_algs.h:47-79, for a closed polygon of `n` different corners. -/
def isConvex (eps : Rat) (v : Nat → P) (n : Nat) : Bool :=
  if n + 1 < 4 then true
  else match signs eps ((List.range n).map fun i =>
      cross (sub (v ((i + 1) % n)) (v i)) (sub (v ((i + 2) % n)) (v ((i + 1) % n)))) 0 with
    | none => false
    | some s => decide (s ≠ 0)

/-- The places where `update_axis_extents_for_segment` updates `min_x` and `max_x`, cross_sections.h:497-509. -/
def onAxis (p0 p1 : P) : List Rat :=
  (if p0.y = 0 then [p0.x] else []) ++ (if p1.y = 0 then [p1.x] else []) ++
  (if (p0.y < 0 ∧ p1.y > 0) ∨ (p0.y > 0 ∧ p1.y < 0) then [p0.x - p0.y * (p1.x - p0.x) / (p1.y - p0.y)] else [])

/-- `if (x < *min_x) *min_x = x`; `none` is infinity, which becomes NaN at the end (line 652). -/
def lower (m : Option Rat) (x : Rat) : Option Rat := match m with
  | none => some x
  | some b => if x < b then some x else some b

/-- `if (x > *max_x) *max_x = x`. -/
def upper (m : Option Rat) (x : Rat) : Option Rat := match m with
  | none => some x
  | some b => if x > b then some x else some b

/-- `min_x` and `max_x` of a cross-section, cross_sections.h:642-655. -/
def minX (pts : List P) : Option Rat := ((edges pts).flatMap fun e => onAxis e.1 e.2).foldl lower none
def maxX (pts : List P) : Option Rat := ((edges pts).flatMap fun e => onAxis e.1 e.2).foldl upper none

end Verif.AperModel.Rays
