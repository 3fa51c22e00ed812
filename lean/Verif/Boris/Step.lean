import Verif.Boris.Field
import Mathlib.Analysis.Real.Sqrt
import Mathlib.Tactic.NormNum

/-!
# Tracking through a `SplineBoris` element

Model of `SplineBoris_single_particle`, xtrack/beam_elements/elements_src/track_splineboris.h:17-350,
without radiation and spin (lines 144-153 and 285-330), over the real numbers.
-/

namespace Verif.Boris

/-- The constants used, track_splineboris.h:50-51. -/
noncomputable abbrev cLight : ℝ := 299792458
noncomputable abbrev qElem : ℝ := 1602176634 / 10 ^ 28

/-- What is read of a particle: track_splineboris.h:53-71. -/
structure Part where
  x : ℝ
  y : ℝ
  px : ℝ
  py : ℝ
  zeta : ℝ
  s : ℝ
  delta : ℝ
  ptau : ℝ
  rvv : ℝ
  chi : ℝ
  chargeRatio : ℝ
  q0 : ℝ
  mass0 : ℝ
  p0c : ℝ
  beta0 : ℝ
  energy0 : ℝ
  state : ℤ

/-- The element.  `spline` is `evaluate_B` (modelled in `Field.lean`), `multipoles` is what
`evaluate_field_from_strengths` adds if there are any. -/
structure Elem where
  length : ℝ
  nSteps : ℕ
  shiftX : ℝ
  shiftY : ℝ
  scaleB : ℝ
  spline : ℝ → ℝ → ℝ → ℝ × ℝ × ℝ
  multipoles : ℝ → ℝ → ℝ × ℝ × ℝ

/-- The field of the splines: track_splineboris.h:185-197. -/
noncomputable def splineField (n : ℕ) (c : Coeffs) (x y s : ℝ) : ℝ × ℝ × ℝ := (Bx n c x y s, By n c x y s, Bs n c x y s)

/-- The field at a point: track_splineboris.h:185-244. -/
noncomputable def Elem.field (e : Elem) (x y s : ℝ) : ℝ × ℝ × ℝ :=
  let b := e.spline (x - e.shiftX) (y - e.shiftY) s
  let m := e.multipoles (x - e.shiftX) (y - e.shiftY)
  (b.1 * e.scaleB + m.1, b.2.1 * e.scaleB + m.2.1, b.2.2 * e.scaleB + m.2.2)

/-- What changes in the loop, momenta in SI units. -/
@[ext] structure Loop where
  x : ℝ
  y : ℝ
  px : ℝ
  py : ℝ
  zeta : ℝ
  sLocal : ℝ

/-- The longitudinal momentum: track_splineboris.h:158-160, 253-255, 286-288. -/
noncomputable def longP (P px py : ℝ) : ℝ :=
  let tmp := P * P - px * px - py * py
  Real.sqrt (if tmp < 0 then 0 else tmp)

/-- One pass of the loop: track_splineboris.h:120-283; none is `break`.  `gm` is
`gamma * mass_kg` and `cb` is `c * beta0`. -/
noncomputable def step (B : ℝ → ℝ → ℝ → ℝ × ℝ × ℝ) (P q gm cb ds : ℝ) (l : Loop) : Option Loop :=
  let halfDs := 1 / 2 * ds
  let ps := longP P l.px l.py
  if ps = 0 then none else
  let invPs := 1 / ps
  let xh := l.x + l.px * invPs * halfDs
  let yh := l.y + l.py * invPs * halfDs
  let sh := l.sLocal + halfDs
  let dt := halfDs * invPs * gm
  let b := B xh yh sh
  let halfQds := q * halfDs
  let pxm := l.px - halfQds * b.2.1
  let pym := l.py + halfQds * b.1
  let psMid := longP P pxm pym
  if psMid = 0 then none else
  let t := q * b.2.2 * halfDs / psMid
  let t2 := t * t
  let invDen := 1 / (1 + t2)
  let sR := 2 * t * invDen
  let c0 := (1 - t2) * invDen
  let pxp := c0 * pxm + sR * pym
  let pyp := -sR * pxm + c0 * pym
  let px1 := pxp - halfQds * b.2.1
  let py1 := pyp + halfQds * b.1
  let ps1 := longP P px1 py1
  if ps1 = 0 then none else
  let invPs1 := 1 / ps1
  let dt1 := dt + halfDs * invPs1 * gm
  some { x := xh + px1 * invPs1 * halfDs, y := yh + py1 * invPs1 * halfDs, px := px1, py := py1,
         zeta := l.zeta + (ds - dt1 * cb), sLocal := l.sLocal + ds }

/-- The loop: the state at its end, and whether every pass was completed: track_splineboris.h:117-331. -/
noncomputable def loop (B : ℝ → ℝ → ℝ → ℝ × ℝ × ℝ) (P q gm cb ds : ℝ) : ℕ → Loop → Loop × Bool
  | 0, l => (l, true)
  | n + 1, l =>
    match step B P q gm cb ds l with
    | none => (l, false)
    | some l' => loop B P q gm cb ds n l'

/-- `mass_ratio`: track_splineboris.h:72. -/
noncomputable def Part.massRatio (p : Part) : ℝ := p.chargeRatio / p.chi

/-- `P0`: track_splineboris.h:80. -/
noncomputable def Part.P0 (p : Part) : ℝ := p.p0c * qElem / cLight

/-- `gamma * mass_kg`: track_splineboris.h:74-76, 127-130. -/
noncomputable def Part.gm (p : Part) : ℝ :=
  let mass := p.massRatio * p.mass0
  let energy := (p.energy0 + p.ptau * p.p0c) * p.massRatio
  energy / mass * (mass * qElem / (cLight * cLight))

/-- Where the loop begins: track_splineboris.h:56-60, 83-84, 97-99. -/
noncomputable def enter (e : Elem) (back : Bool) (p : Part) : Loop :=
  ⟨p.x, p.y, p.px * p.P0, p.py * p.P0, p.zeta, if back then e.length else 0⟩

/-- The passes through the element: track_splineboris.h:86-331. -/
noncomputable def passes (e : Elem) (back : Bool) (p : Part) : Loop × Bool :=
  loop e.field (p.P0 * (1 + p.delta)) (p.q0 * qElem) p.gm (cLight * p.beta0)
    ((if back then -e.length else e.length) / e.nSteps) e.nSteps (enter e back p)

/-- The particle after the element: track_splineboris.h:43-46, 333-350. -/
noncomputable def track (e : Elem) (back : Bool) (p : Part) : Part :=
  if p.state ≤ 0 then p else
  let l := (passes e back p).1
  { p with x := l.x, y := l.y, s := p.s + (if back then -e.length else e.length),
           px := l.px / p.P0, py := l.py / p.P0, zeta := l.zeta }

end Verif.Boris
