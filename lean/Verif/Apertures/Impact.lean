import Verif.Apertures.Model

/-!
# `LimitPolygon.impact_point_and_normal`

`limitpolygon.h:93-172` and the computation of the normals in `limit_polygon.py:109-128`.
Real numbers instead of double precision; one impact (the kernel treats each one on its own).
-/

namespace Verif.Apertures

noncomputable section

open Classical

/-- A side with its normal. -/
structure Edge where
  v : Pnt
  w : Pnt
  n : Pnt

/-- The normal of a side before the sign of the area is looked at, `limit_polygon.py:114-125`. -/
def normal (flip : Bool) (v w : Pnt) : Pnt :=
  let nx := if flip then (w.2 - v.2) else -(w.2 - v.2)
  let ny := if flip then -(w.1 - v.1) else w.1 - v.1
  let norm := Real.sqrt (nx ^ 2 + ny ^ 2)
  (nx / norm, ny / norm)

/-- The pairs of vertices `ii`, `(ii + 1) % N_edg`. -/
def pairs (vs : List Pnt) : List (Pnt × Pnt) := vs.zip (vs.tail ++ vs.head?.toList)

/-- `LimitPolygon.__init__`, `limit_polygon.py:109-128`: `none` if a side has length zero. -/
def newPolygon (vs : List Pnt) : Option (List Edge) :=
  if ∀ e ∈ pairs vs, Real.sqrt ((e.2.1 - e.1.1) ^ 2 + (e.2.2 - e.1.2) ^ 2) > 0 then
    some ((pairs vs).map (fun e => ⟨e.1, e.2, normal (decide (signedArea vs < 0)) e.1 e.2⟩))
  else none

/-- The denominator of `t_border`, `limitpolygon.h:131`. -/
def impactDen (pin pout v w : Pnt) : ℝ :=
  (pout.2 - pin.2) * (w.1 - v.1) + (pin.1 - pout.1) * (w.2 - v.2)

/-- `t_border`, `limitpolygon.h:132-143`. -/
def tBorder (pin pout v w : Pnt) : ℝ :=
  if impactDen pin pout v w = 0 then -2
  else ((pout.2 - pin.2) * (pin.1 - v.1) + (pin.1 - pout.1) * (pin.2 - v.2))
    / impactDen pin pout v w

/-- `t_ii`, `limitpolygon.h:146-149`. -/
def tAlong (pin pout : Pnt) (e : Edge) : ℝ :=
  (e.n.1 * (e.v.1 - pin.1) + e.n.2 * (e.v.2 - pin.2))
    / (e.n.1 * (pout.1 - pin.1) + e.n.2 * (pout.2 - pin.2))

/-- The loop, `limitpolygon.h:127-156`: parameter so far and index of the side so far. -/
def impactLoop (tol : ℝ) (pin pout : Pnt) : List Edge → ℕ → ℝ × Option ℕ → ℝ × Option ℕ
  | [], _, s => s
  | e :: es, i, s =>
    impactLoop tol pin pout es (i + 1)
      (if tBorder pin pout e.v e.w ≥ 0 - tol ∧ tBorder pin pout e.v e.w ≤ 1 + tol then
        if tAlong pin pout e ≥ 0 - tol ∧ tAlong pin pout e < s.1 + tol then
          (tAlong pin pout e, some i)
        else s
      else s)

/-- What the method returns for one impact. -/
structure Impact where
  x : ℝ
  y : ℝ
  z : ℝ
  found : Option ℕ
  normal : Option Pnt

/-- `LimitPolygon_impact_point_and_normal`, `limitpolygon.h:93-169`. -/
def impact (tol resc : ℝ) (es : List Edge) (pin pout : Pnt) (_zin _zout : ℝ) : Impact :=
  let s := impactLoop tol pin pout es 0 (1, none)
  let t := resc * s.1
  { x := t * pout.1 + (1 - t) * pin.1
    y := t * pout.2 + (1 - t) * pin.2
    z := 0
    found := s.2
    normal := s.2.bind (fun i => es[i]?.map (·.n)) }

end

end Verif.Apertures
