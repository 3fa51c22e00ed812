import Mathlib.Algebra.Order.Field.Rat
import Mathlib.Tactic.Linarith
import Mathlib.Tactic.Ring
import Mathlib.Tactic.NormNum

/-!
Is a point inside a polygon? xtrack/aperture/headers/polygon_algs.h. Coordinates are rationals instead of floating point numbers.
-/
namespace Verif.AperModel.Polygon

/-- `Point2D`, base.h. -/
structure P where
  x : Rat
  y : Rat
deriving DecidableEq, Inhabited

/-- `horizontal_ray_intersects_segment`, polygon_algs.h:82-96. -/
def ray (q a b : P) : Bool :=
  if decide (a.y > q.y) = decide (b.y > q.y) then false
  else if b.y - a.y > 0 then decide ((b.x - a.x) * (q.y - a.y) > (q.x - a.x) * (b.y - a.y))
  else decide ((b.x - a.x) * (q.y - a.y) < (q.x - a.x) * (b.y - a.y))

/-- The value of `inside` after `n` turns of a loop which does `inside ^= r(i)`, polygon_algs.h:107-112. -/
def parity (r : Nat → Bool) : Nat → Bool
  | 0 => false
  | n + 1 => xor (parity r n) (r n)

/-- `is_point_inside_polygon_points`, polygon_algs.h:99-116. -/
def inside (q : P) (pts : List P) : Bool := parity (fun i => ray q (pts.getD i default) (pts.getD (i + 1) default)) (pts.length - 1)

/-- `points_inside_polygon_points`, polygon_algs.h:119-138. -/
def allInside (points pts : List P) : Bool := points.all fun q => inside q pts

end Verif.AperModel.Polygon
