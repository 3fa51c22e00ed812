import Mathlib.Analysis.Convex.Segment
import Mathlib.Analysis.Convex.Topology
import Verif.Apertures.Model

/-!
# What an aperture is: plane shapes, and the sides of a polygon

Nothing here refers to the tests done by the code.
-/

namespace Verif.Apertures

/-- The particle is either unchanged, or only its state changed to `lost`. -/
def Verdict (lost : Int) (inside : Prop) (p p' : Pt) : Prop :=
  (inside → p' = p) ∧ (¬ inside → p' = { p with state := lost })

/-- The rectangle, boundary included. -/
def InRect (minX maxX minY maxY : ℝ) (x y : ℝ) : Prop :=
  (minX ≤ x ∧ x ≤ maxX) ∧ (minY ≤ y ∧ y ≤ maxY)

/-- The ellipse with half axes `a` and `b` around the origin, boundary included. -/
def InEllipse (a b : ℝ) (x y : ℝ) : Prop := (x / a) ^ 2 + (y / b) ^ 2 ≤ 1

/-- The rectangle with corners rounded by ellipses of half axes `a` and `b`: all the points which
an ellipse covers while its centre moves in the inner rectangle. The ellipse is given as the set
`(a r cos t, b r sin t)`, `r ≤ 1`, which makes sense when `a` or `b` is zero. -/
def InRounded (minX maxX minY maxY a b : ℝ) (x y : ℝ) : Prop :=
  ∃ cx cy u v : ℝ, InRect (minX + a) (maxX - a) (minY + b) (maxY - b) cx cy ∧
    u ^ 2 + v ^ 2 ≤ 1 ∧ x = cx + a * u ∧ y = cy + b * v

/-- The sides of the closed polygon: each vertex with the next one, the last with the first. -/
def sides : List Pnt → List (Pnt × Pnt)
  | [] => []
  | f :: vs => (f :: vs).zip (vs ++ [f])

/-- The point is on the boundary of the polygon. -/
def OnBoundary (vs : List Pnt) (q : Pnt) : Prop :=
  ∃ e ∈ sides vs, q ∈ segment ℝ e.1 e.2

/-- Twice the signed area of the triangle `u v q`: tells on which side of the line through `u` and
`v` the point `q` is. -/
def side (u v q : Pnt) : ℝ := (v.1 - u.1) * (q.2 - u.2) - (v.2 - u.2) * (q.1 - u.1)

/-- What it means for `inside` to be the interior of the closed polygon, up to points of the
boundary: nothing far away is inside, the verdict does not change along a path which does not touch
the boundary, and it changes wherever exactly one side is crossed. -/
structure IsInterior (vs : List Pnt) (inside : Pnt → Prop) : Prop where
  /-- Points above, below, left or right of all vertices are outside. -/
  far : ∀ q : Pnt, ((∀ v ∈ vs, v.1 < q.1) ∨ (∀ v ∈ vs, q.1 < v.1) ∨ (∀ v ∈ vs, v.2 < q.2) ∨
    (∀ v ∈ vs, q.2 < v.2)) → ¬ inside q
  /-- Two points of a connected set without boundary points are both inside or both outside. -/
  connected : ∀ S : Set Pnt, IsPreconnected S → (∀ q ∈ S, ¬ OnBoundary vs q) →
    ∀ q ∈ S, ∀ r ∈ S, (inside q ↔ inside r)
  /-- Close to a point in the inside of one side and of no other, the two sides of that line differ
  in the verdict. -/
  cross : ∀ (l r : List (Pnt × Pnt)) (e : Pnt × Pnt) (m : Pnt), sides vs = l ++ e :: r →
    m ∈ openSegment ℝ e.1 e.2 → e.1 ≠ e.2 → (∀ d ∈ l ++ r, m ∉ segment ℝ d.1 d.2) →
    ∃ U ∈ nhds m, ∀ q ∈ U, ∀ q' ∈ U, side e.1 e.2 q * side e.1 e.2 q' < 0 →
      (inside q ↔ ¬ inside q')

end Verif.Apertures
