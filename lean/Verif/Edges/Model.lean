import Verif.Magnets.Body
import Mathlib.Analysis.SpecialFunctions.Trigonometric.Arctan

/-!
# Wedges, fringes and the full edge of a magnet

Source, all in /repo/xtrack/beam_elements/elements_src: track_wedge.h, track_dipole_fringe.h (the implementation which is compiled
without `XTRACK_FRINGE_FROM_PTC`), track_mult_fringe.h, track_magnet_edge.h, track_dipole_edge_nonlinear.h, wedge.h, dipoleedge.h;
and /repo/xtrack/beam_elements/dipole_edge.py.

Simplifications: double precision numbers are real numbers; one particle which is not lost; no radiation, hence no tapering; the
vector potential `ax`, `ay` is left out.
-/

namespace Verif.Edges

open Frames Magnets

noncomputable section

/-- `Wedge_single_particle`; track_wedge.h:13-70. -/
def wedge (theta k0 : ℝ) (p : Part) : Part :=
  let b1 := k0 * p.chi
  if |b1| < 10e-10 then yRot p (-Real.sin theta) (Real.cos theta) (-Real.tan theta)
  else
    let opd := p.delta + 1
    let A := 1 / Real.sqrt (opd ^ 2 - p.py ^ 2)
    let pz := Real.sqrt (opd ^ 2 - p.px ^ 2 - p.py ^ 2)
    let px' := p.px * Real.cos theta + (pz - b1 * p.x) * Real.sin theta
    let pz' := Real.sqrt (opd ^ 2 - px' ^ 2 - p.py ^ 2)
    let x' := p.x * Real.cos theta
      + (p.x * p.px * Real.sin (2 * theta) + Real.sin theta ^ 2 * (2 * p.x * pz - b1 * p.x ^ 2))
        / (pz' + pz * Real.cos theta - p.px * Real.sin theta)
    let D := Real.arcsin (A * p.px) - Real.arcsin (A * px')
    let q := { p with
      x := x'
      y := p.y + p.py * (theta + D) / b1
      px := px'
      zeta := p.zeta + -(opd * (theta + D) / b1) / p.rvv }
    let sn := -Real.sin theta
    let cn := Real.cos theta
    if p.spinX ≠ 0 ∨ p.spinZ ≠ 0 then
      { q with spinX := cn * p.spinX - sn * p.spinZ, spinZ := sn * p.spinX + cn * p.spinZ }
    else q

/-- `Quad_wedge_single_particle`; track_wedge.h:72-95. -/
def quadWedge (theta k1 : ℝ) (p : Part) : Part :=
  let b2 := k1 * p.chi
  { p with
    px := p.px - b2 * p.x * p.x * theta + b2 * p.y * p.y / 2 * theta
    py := p.py + b2 * p.x * p.y * theta }

/-- `DipoleFringe_single_particle`; track_dipole_fringe.h:16-81. -/
def dipoleFringe (fint hgap k0 : ℝ) (p : Part) : Part :=
  if |k0| < 10e-10 then p
  else
    let t := p.zeta / p.beta0
    let fh := hgap * fint
    let fsad := if fh > 10e-10 then 1 / (72 * fh) else 0
    let b0 := k0 * p.chi
    let dpp := (1 + p.delta) ^ 2
    let pz := Real.sqrt (dpp - p.px ^ 2 - p.py ^ 2)
    let ipz := 1 / pz
    let relp := 1 / Real.sqrt dpp
    let tfac := -(1 / p.beta0 + p.ptau)
    let c2 := b0 * fh * 2
    let c3 := b0 ^ 2 * fsad * relp
    let xp := p.px / pz
    let yp := p.py / pz
    let xyp := xp * yp
    let yp2 := 1 + yp ^ 2
    let xp2 := xp ^ 2
    let iyp2 := 1 / yp2
    let fi0 := Real.arctan (xp * iyp2) - c2 * (1 + xp2 * (1 + yp2)) * ipz
    let co2 := b0 / Real.cos fi0 ^ 2
    let co1 := co2 / (1 + (xp * iyp2) ^ 2) * iyp2
    let co3 := co2 * c2
    let fi1 := co1 - co3 * 2 * xp * (1 + yp2) * ipz
    let fi2 := -2 * co1 * xyp * iyp2 - co3 * 2 * xp * xyp * ipz
    let fi3 := co3 * (1 + xp2 * (1 + yp2)) * ipz ^ 2
    let kx := fi1 * (1 + xp2) * ipz + fi2 * xyp * ipz - fi3 * xp
    let ky := fi1 * xyp * ipz + fi2 * yp2 * ipz - fi3 * yp
    let kz := fi1 * tfac * xp * ipz ^ 2 + fi2 * tfac * yp * ipz ^ 2 - fi3 * tfac * ipz
    let y' := 2 * p.y / (1 + Real.sqrt (1 - 2 * ky * p.y))
    let t' := t + 0.5 * kz * y' ^ 2 + c3 * y' ^ 4 * relp ^ 2 * tfac
    { p with
      x := p.x + 0.5 * kx * y' ^ 2
      y := y'
      py := p.py - 4 * c3 * y' ^ 3 - b0 * Real.tan fi0 * y'
      zeta := t' * p.beta0 }

/-- The variables of the loop of `MultFringe_track_single_particle`; track_mult_fringe.h:44-54. -/
structure FringeSum where
  rx : ℝ
  ix : ℝ
  fx : ℝ
  fxx : ℝ
  fxy : ℝ
  fy : ℝ
  fyx : ℝ
  fyy : ℝ
  invFactorial : ℝ

/-- The arguments of `MultFringe_track_single_particle`; the orders are -1 for empty arrays; track_mult_fringe.h:12-24. -/
structure FringeArgs where
  kn : ℕ → ℝ
  ks : ℕ → ℝ
  kOrder : ℤ
  knl : ℕ → ℝ
  ksl : ℕ → ℝ
  klOrder : ℤ
  length : ℝ
  isExit : Bool
  minOrder : ℕ

/-- One component of the field; track_mult_fringe.h:66-80. -/
def FringeArgs.total (a : FringeArgs) (k kl : ℕ → ℝ) (inv : ℝ) (i : ℕ) : ℝ :=
  if a.minOrder ≤ i then
    (if (i : ℤ) ≤ a.kOrder then k i * inv else 0)
      + (if (i : ℤ) ≤ a.klOrder ∧ a.length ≠ 0 then kl i / a.length * inv else 0)
  else 0

/-- One pass of the loop; track_mult_fringe.h:57-115. -/
def fringeStep (a : FringeArgs) (chi x y : ℝ) (v : FringeSum) (i : ℕ) : FringeSum :=
  let inv := if i > 1 then v.invFactorial / i else v.invFactorial
  let comp : ℝ := i + 1
  let drx := v.rx
  let dix := v.ix
  let rx := drx * x - dix * y
  let ix := drx * y + dix * x
  let nj := -(if a.isExit then -1 else 1) / (4 * (comp + 1))
  let nf := (comp + 2) / comp
  let kj := a.total a.kn a.knl inv i * chi
  let ksj := a.total a.ks a.ksl inv i * chi
  let u := if i = 0 then nj * (-ksj * ix) else nj * (kj * rx - ksj * ix)
  let w := if i = 0 then nj * (ksj * rx) else nj * (kj * ix + ksj * rx)
  let du := if i = 0 then nj * (-ksj * dix) else nj * (kj * drx - ksj * dix)
  let dw := if i = 0 then nj * (ksj * drx) else nj * (kj * dix + ksj * drx)
  let dux := comp * du
  let dvx := comp * dw
  let duy := -comp * dw
  let dvy := comp * du
  { rx := rx, ix := ix
    fx := v.fx + u * x + nf * w * y
    fy := v.fy + u * y - nf * w * x
    fxx := v.fxx + dux * x + nf * dvx * y + u
    fyy := v.fyy + duy * y - nf * dvy * x + u
    fxy := v.fxy + duy * x + nf * (dvy * y + w)
    fyx := v.fyx + dux * y - nf * (dvx * x + w)
    invFactorial := inv }

/-- The loop, `n` passes; track_mult_fringe.h:57-115. -/
def fringeSum (a : FringeArgs) (chi x y : ℝ) (n : ℕ) : FringeSum :=
  (List.range n).foldl (fringeStep a chi x y) ⟨1, 0, 0, 0, 0, 0, 0, 0, 1⟩

/-- `MultFringe_track_single_particle`, not backtracking; track_mult_fringe.h:12-134. -/
def multFringe (a : FringeArgs) (p : Part) : Part :=
  if a.kOrder = -1 ∧ a.klOrder = -1 then p
  else
    let v := fringeSum a p.chi p.x p.y (max a.kOrder a.klOrder + 1).toNat
    let t := p.zeta / p.beta0
    let A := 1 - v.fxx * p.rpp
    let B := -v.fyx * p.rpp
    let C := -v.fxy * p.rpp
    let D := 1 - v.fyy * p.rpp
    let det := A * D - B * C
    let px' := (D * p.px - B * p.py) / det
    let py' := (A * p.py - C * p.px) / det
    let dt := (1 / p.beta0 + p.ptau) * (px' * v.fx + py' * v.fy) * p.rpp ^ 3
    { p with
      x := p.x + -v.fx * p.rpp
      y := p.y + -v.fy * p.rpp
      px := px'
      py := py'
      zeta := (t + dt) * p.beta0 }

/-- The fringe arguments which an edge of a magnet passes on (`k_order` is 3 there); track_magnet_edge.h:100-113,
track_magnet.template.h:405-431. -/
def fringeArgs (m : Magnet) (length : ℝ) (isExit : Bool) : FringeArgs :=
  { kn := fun i => if i = 0 then m.k0 else if i = 1 then m.k1 else if i = 2 then m.k2 else m.k3
    ks := fun i => if i = 0 then m.k0s else if i = 1 then m.k1s else if i = 2 then m.k2s else m.k3s
    kOrder := 3, knl := m.knl, ksl := m.ksl, klOrder := m.order, length := length, isExit := isExit, minOrder := 1 }

/-- `MAGNET_Y_ROTATE`; track_magnet_edge.h:84-96. -/
def faceRotate (angle : ℝ) (p : Part) : Part :=
  if |angle| > 10e-10 then yRot p (-Real.sin angle) (Real.cos angle) (-Real.tan angle) else p

/-- `MAGNET_WEDGE`; track_magnet_edge.h:119-120. -/
def faceWedge (angle k0 : ℝ) (p : Part) : Part := if |angle| > 10e-10 then wedge (-angle) k0 p else p

/-- `MAGNET_QUAD_WEDGE`; track_magnet_edge.h:122-123. -/
def faceQuadWedge (angle k1 : ℝ) (p : Part) : Part := if |angle| > 10e-10 then quadWedge (-angle) k1 p else p

/-- The full edge, models 1 and 2, of a magnet which is not backtracked; track_magnet_edge.h:75-158. -/
def fullEdge (m : Magnet) (length : ℝ) (e : Edge) (isExit : Bool) (p : Part) : Part :=
  let k0 := edgeK0 m length
  if !isExit then
    let p1 := dipoleFringe e.fint e.hgap k0 (faceRotate e.angle p)
    let p2 := if e.model = 1 then faceQuadWedge e.angle m.k1 (multFringe (fringeArgs m length isExit) p1) else p1
    faceWedge e.angle m.k0 p2
  else
    let p1 := faceWedge e.angle m.k0 p
    let p2 := if e.model = 1 then multFringe (fringeArgs m length isExit) (faceQuadWedge e.angle m.k1 p1) else p1
    faceRotate e.angle (dipoleFringe e.fint e.hgap (-k0) p2)

/-- `Wedge_track_local_particle`; wedge.h:14-38. -/
def wedgeElement (angle k k1 : ℝ) (order : ℤ) (p : Part) : Part :=
  if order = 0 then quadWedge angle k1 (wedge angle k p)
  else if order = 1 then wedge angle k (quadWedge angle k1 p)
  else p

/-! ## The element `DipoleEdge` -/

/-- The fields of `DipoleEdge`; dipole_edge.py:36-47. -/
@[ext] structure DipoleEdge where
  r21 : ℝ
  r43 : ℝ
  hgap : ℝ
  k : ℝ
  e1 : ℝ
  e1fd : ℝ
  fint : ℝ
  model : ℤ
  side : ℤ

/-- `_update_r21_r43`; dipole_edge.py:130-138. -/
def DipoleEdge.update (d : DipoleEdge) : DipoleEdge :=
  let corr := 2 * d.k * d.hgap * d.fint
  let v := d.e1 + d.e1fd
  let temp := corr / Real.cos v * (1 + Real.sin v * Real.sin v)
  { d with r21 := d.k * Real.tan d.e1, r43 := -d.k * Real.tan (v - temp) }

/-- Assignments to the attributes; dipole_edge.py:140-236. -/
inductive EdgeOp
  | k (v : ℝ)
  | e1 (v : ℝ)
  | e1fd (v : ℝ)
  | hgap (v : ℝ)
  | fint (v : ℝ)
  | model (v : ℤ)
  | side (v : ℤ)

/-- One assignment; the codes of the models are -1, 0, 1, those of the sides 0, 1; others are refused with an exception before
anything is written. -/
def DipoleEdge.assign (d : DipoleEdge) : EdgeOp → DipoleEdge
  | .k v => { d with k := v }.update
  | .e1 v => { d with e1 := v }.update
  | .e1fd v => { d with e1fd := v }.update
  | .hgap v => { d with hgap := v }.update
  | .fint v => { d with fint := v }.update
  | .model v => if v = -1 ∨ v = 0 ∨ v = 1 then { d with model := v } else d
  | .side v => if v = 0 ∨ v = 1 then { d with side := v } else d

/-- A new element without `_xobject`; arguments which are not given leave zero; dipole_edge.py:67-108. -/
def DipoleEdge.new (k e1 e1fd hgap fint : ℝ) (model side : ℤ) : DipoleEdge :=
  DipoleEdge.update ⟨0, 0, hgap, k, e1, e1fd, fint, model, side⟩

/-- `DipoleEdgeNonLinear_single_particle`; track_dipole_edge_nonlinear.h:11-49. -/
def dipoleEdgeNonLinear (k e1 fint hgap : ℝ) (side : ℤ) (p : Part) : Part :=
  let rot := fun q : Part => if |e1| < 10e-10 then q else yRot q (-Real.sin e1) (Real.cos e1) (-Real.tan e1)
  let wdg := fun q : Part => if |e1| < 10e-10 then q else wedge (-e1) k q
  if side = 0 then wdg (dipoleFringe fint hgap k (rot p))
  else if side = 1 then rot (dipoleFringe fint hgap (-k) (wdg p))
  else p

/-- `DipoleEdge_track_local_particle` without tapering; `none`: the particle is lost with code -32; dipoleedge.h:16-76. -/
def DipoleEdge.track (d : DipoleEdge) (back : Bool) (p : Part) : Option Part :=
  if d.model = 0 then some (edgeKick (if back then -d.r21 else d.r21) (if back then -d.r43 else d.r43) p)
  else if d.model = 1 then if back then none else some (dipoleEdgeNonLinear d.k d.e1 d.fint d.hgap d.side p)
  else some p

end

end Verif.Edges
