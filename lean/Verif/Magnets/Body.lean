import Verif.Magnets.Kick
import Verif.Magnets.Drift

/-!
# A whole magnet

Source: /repo/xtrack/beam_elements/elements_src/track_magnet.template.h (track_magnet.h is generated from it),
_include_integrator.py, track_magnet_configure.h, track_magnet_edge.h, track_dipole_edge_linear.h.

Simplifications.
* Double precision numbers are real numbers.  `num_multipole_kicks` is not negative.
* Without radiation (`radiation_flag = 0`, then `delta_taper` has no effect) and without spin; the vector potential `ax`, `ay` is
  left out.
* The full edge (model 1 or 2) is an arbitrary map `fullEdge isExit`; what the code does with it under backtracking is modelled.
* One active particle; `none`: it is lost with code -32.
-/

namespace Verif.Magnets

open Frames

noncomputable section

/-! ## Integrators -/

/-- `DRIFT_FUNCTION(PART, r * LENGTH)` or `KICK_FUNCTION(PART, w)`. -/
inductive Step
  | drift (r : ℝ)
  | kick (w : ℝ)

/-- The teapot scheme; _include_integrator.py:6-28. -/
def teapot (n : ℕ) : List Step :=
  let edge : ℝ := if n > 1 then 1 / (2 * (1 + n)) else 0.5
  let inside : ℝ := if n > 1 then (n : ℝ) / ((n : ℝ) * n - 1) else 0
  [.drift edge] ++ (List.replicate (n - 1) [.kick (1 / n), .drift inside]).flatten ++ [.kick (1 / n), .drift edge]

/-- The uniform scheme; _include_integrator.py:29-42. -/
def uniform (n : ℕ) : List Step :=
  (List.replicate n [.drift (0.5 * (1 / n)), .kick (1 / n), .drift (0.5 * (1 / n))]).flatten

/-- `d_yoshida`; _include_integrator.py:52-57. -/
def yd : Fin 4 → ℝ
  | 0 => 3.922568052387799819591407413100e-01
  | 1 => 5.100434119184584780271052295575e-01
  | 2 => -4.710533854097565531482416645304e-01
  | 3 => 6.875316825251809316199569366290e-02

/-- `k_yoshida`; _include_integrator.py:61-66. -/
def yk : Fin 4 → ℝ
  | 0 => 7.845136104775599639182814826199e-01
  | 1 => 2.355732133593569921359289764951e-01
  | 2 => -1.177679984178870098432412305556e+00
  | 3 => 1.315186320683906284756403692882e+00

/-- One slice of the Yoshida scheme of `m` slices; _include_integrator.py:72-86. -/
def yoshidaSlice (m : ℕ) : List Step :=
  [.drift (1 / m * yd 0), .kick (1 / m * yk 0), .drift (1 / m * yd 1), .kick (1 / m * yk 1), .drift (1 / m * yd 2),
   .kick (1 / m * yk 2), .drift (1 / m * yd 3), .kick (1 / m * yk 3), .drift (1 / m * yd 3), .kick (1 / m * yk 2),
   .drift (1 / m * yd 2), .kick (1 / m * yk 1), .drift (1 / m * yd 1), .kick (1 / m * yk 0), .drift (1 / m * yd 0)]

/-- The Yoshida scheme; _include_integrator.py:43-88. -/
def yoshida (n : ℕ) : List Step :=
  let m := n / 7 + (if n % 7 ≠ 0 then 1 else 0)
  (List.replicate m (yoshidaSlice m)).flatten

/-- The integration code; _include_integrator.py:6-89. -/
def steps (integrator : ℤ) (n : ℕ) : List Step :=
  if integrator = 1 then teapot n else if integrator = 3 then uniform n else if integrator = 2 then yoshida n else []

/-- One step of the body. -/
def Step.run (d : DriftArgs) (k : KickArgs) (length : ℝ) : Step → Part → Part
  | .drift r, p => magnetDrift d (r * length) p
  | .kick w, p => magnetKick k w p

/-- All steps in a row. -/
def runSteps (d : DriftArgs) (k : KickArgs) (length : ℝ) (l : List Step) (p : Part) : Part :=
  l.foldl (fun q s => s.run d k length q) p

/-! ## Configuration -/

/-- The outputs of `configure_tracking_model`. -/
structure Conf where
  k0Drift : ℝ
  k1Drift : ℝ
  hDrift : ℝ
  ksDrift : ℝ
  k0Kick : ℝ
  k1Kick : ℝ
  hKick : ℝ
  k0h : ℝ
  k1h : ℝ
  rot : Bool
  driftModel : ℤ

/-- `drift_model`; track_magnet_configure.h:37-92. -/
def driftModelOf (model : ℤ) (h : ℝ) : ℤ :=
  let model := if model = 1 then 3 else model
  let hz := |h| < 1e-8
  if model = 2 then (if hz then 5 else 4)
  else if model = 3 then (if hz then 1 else 7)
  else if model = 4 then 3
  else if model = 5 then 1
  else if model = 6 then 0
  else if model = -1 then -1
  else if model = -2 then 6
  else if model = 7 then (if hz then 1 else 2)
  else if model = 8 then (if hz then 1 else 8)
  else 99999999

/-- `configure_tracking_model`; track_magnet_configure.h:7-193.  For an unknown model nothing is written and the drift model is
truncated to an `int8_t`. -/
def configure (model : ℤ) (k0 k1 h ks : ℝ) : Conf :=
  let dm := driftModelOf model h
  if dm = -1 ∨ dm = 0 ∨ dm = 1 then ⟨0, 0, 0, 0, k0, k1, h, k0, k1, true, dm⟩
  else if dm = 2 then ⟨0, 0, h, 0, k0, k1, h, k0, k1, false, dm⟩
  else if dm = 3 then ⟨k0, k1, h, 0, 0, 0, h, 0, k1, false, dm⟩
  else if dm = 4 then ⟨k0, 0, h, 0, 0, k1, h, 0, k1, false, dm⟩
  else if dm = 5 then ⟨k0, 0, 0, 0, 0, k1, 0, 0, 0, false, dm⟩
  else if dm = 6 then ⟨0, 0, 0, ks, k0, k1, h, k0, k1, true, dm⟩
  else if dm = 7 then ⟨k0, 0, h, 0, 0, k1, h, k0, k1, false, dm⟩
  else if dm = 8 then ⟨k0, 0, h, 0, 0, k1, h, k0, k1, false, dm⟩
  else ⟨0, 0, 0, 0, 0, 0, 0, 0, 0, false, -1⟩

/-! ## The element -/

/-- The arguments of `track_magnet_particles` (those about an edge are repeated for entry and exit); track_magnet.template.h:208-262. -/
structure Edge where
  active : Bool
  model : ℤ
  angle : ℝ
  fdown : ℝ
  fint : ℝ
  hgap : ℝ

/-- The arguments of `track_magnet_particles` besides the weight; track_magnet.template.h:208-262. -/
structure Magnet where
  length : ℝ
  order : ℕ
  knl : ℕ → ℝ
  ksl : ℕ → ℝ
  orderRel : ℕ
  knlRel : ℕ → ℝ
  kslRel : ℕ → ℝ
  relRef : ℝ
  numKicks : ℕ
  model : ℤ
  defaultModel : ℤ
  integrator : ℤ
  defaultIntegrator : ℤ
  h : ℝ
  hxl : ℝ
  k0 : ℝ
  k1 : ℝ
  k2 : ℝ
  k3 : ℝ
  k0s : ℝ
  k1s : ℝ
  k2s : ℝ
  k3s : ℝ
  ks : ℝ
  x0 : ℝ
  y0 : ℝ
  rbendModel : ℤ
  compensateSagitta : Bool
  rbendShift : ℝ
  rbendAngleDiff : ℝ
  lengthStraight : ℝ
  bodyActive : Bool
  entry : Edge
  exit : Edge

/-- The rotation and the shift of a straight body at one end. -/
structure Tilt where
  sin : ℝ
  cos : ℝ
  x0 : ℝ

/-- The local variables after track_magnet.template.h:264-328. -/
structure Geometry where
  straight : Bool
  length : ℝ
  lengthCurved : ℝ
  h : ℝ
  tin : Tilt
  tout : Tilt
  entry : Edge
  exit : Edge

/-- `x0_mid` for a straight body; track_magnet.template.h:303-309. -/
def x0Mid (m : Magnet) : ℝ :=
  if m.compensateSagitta ∧ |m.h * m.length| > 1e-10 then
    -m.rbendShift + 0.5 / m.h * (1 - Real.cos (m.h * m.length / 2)) else -m.rbendShift

/-- `sqrt_mid`; track_magnet.template.h:314-316. -/
def sqrtMid (m : Magnet) : ℝ :=
  Real.sqrt (1 - (Real.sin ((m.h * m.length - m.rbendAngleDiff) / 2) - m.h * m.lengthStraight / 2) ^ 2)

/-- Sine and cosine, for angles above the threshold; track_magnet.template.h:290-299. -/
def sincos (t : ℝ) : ℝ × ℝ := if |t| > 1e-10 then (Real.sin t, Real.cos t) else (0, 1)

/-- The preparation for the models of a rectangular bend; track_magnet.template.h:264-328. -/
def geometry (m : Magnet) : Geometry :=
  let angle := m.h * m.length
  let tin := (angle - m.rbendAngleDiff) / 2
  let tout := (angle + m.rbendAngleDiff) / 2
  if m.rbendModel = 0 ∨ m.rbendModel = 1 then
    { straight := false, length := m.length, lengthCurved := 0, h := m.h, tin := ⟨0, 1, 0⟩, tout := ⟨0, 1, 0⟩
      entry := { m.entry with angle := m.entry.angle + tin }, exit := { m.exit with angle := m.exit.angle + tout } }
  else if m.rbendModel = 2 then
    let xin := if |angle| > 1e-10 then x0Mid m - 1 / m.h * (sqrtMid m - (sincos tin).2) else x0Mid m
    let xout := if |angle| > 1e-10 then x0Mid m + 1 / m.h * ((sincos tout).2 - sqrtMid m) else x0Mid m
    { straight := true, length := m.lengthStraight, lengthCurved := m.length, h := 0
      tin := ⟨(sincos tin).1, (sincos tin).2, xin⟩, tout := ⟨(sincos tout).1, (sincos tout).2, xout⟩
      entry := { m.entry with fdown := m.entry.fdown + tin }, exit := { m.exit with fdown := m.exit.fdown + tout } }
  else
    { straight := false, length := m.length, lengthCurved := 0, h := m.h, tin := ⟨0, 1, 0⟩, tout := ⟨0, 1, 0⟩
      entry := m.entry, exit := m.exit }

/-- The linear coefficients of an edge; track_dipole_edge_linear.h:12-27. -/
def edgeCoefs (k e1 e1fd hgap fint : ℝ) : ℝ × ℝ :=
  let corr := 2 * k * hgap * fint
  let v := e1 + e1fd
  let temp := corr / Real.cos v * (1 + Real.sin v * Real.sin v)
  (k * Real.tan e1, -k * Real.tan (v - temp))

/-- `DipoleEdgeLinear_single_particle`; track_dipole_edge_linear.h:30-39. -/
def edgeKick (r21 r43 : ℝ) (p : Part) : Part := { p with px := p.px + p.chi * r21 * p.x, py := p.py + p.chi * r43 * p.y }

/-- The dipole strength at an edge; track_magnet_edge.h:42-49. -/
def edgeK0 (m : Magnet) (length : ℝ) : ℝ :=
  m.k0 + (if |length| > 1e-10 then m.knl 0 / length + m.relRef * m.knlRel 0 / length else 0)

/-- `track_magnet_edge_particles`; track_magnet_edge.h:17-166. -/
def edge (m : Magnet) (fullEdge : Bool → Part → Part) (length : ℝ) (e : Edge) (isExit back : Bool) (p : Part) : Option Part :=
  if e.model = 0 then
    let r := edgeCoefs (edgeK0 m length) e.angle e.fdown e.hgap e.fint
    some (edgeKick (r.1 * if back then -1 else 1) (r.2 * if back then -1 else 1) p)
  else if e.model = 1 ∨ e.model = 2 then if back then none else some (fullEdge isExit p)
  else some p

/-- The number of kicks; track_magnet.template.h:437-469. -/
def kickNumber (m : Magnet) (w : ℝ) (h coreLength : ℝ) : ℕ :=
  let model := if m.model = 0 then m.defaultModel else m.model
  let n0 := if model = -1 then 1 else m.numKicks
  let n1 := if w ≠ 1 ∧ n0 > 0 then ⌈(n0 : ℝ) * w⌉₊ else n0
  if n1 = 0 then
    open Classical in
    if kickInactive m.order m.knl m.ksl m.k0 m.k1 m.k2 m.k3 m.k0s m.k1s m.k2s m.k3s h then 0
    else if |h| < 1e-8 then 1
    else max 1 ⌊|coreLength| / (2 * 3.14159 / |h|) / 0.5e-3⌋₊
  else n1

/-- The model which is used; track_magnet.template.h:440-442. -/
def modelOf (m : Magnet) : ℤ := if m.model = 0 then m.defaultModel else m.model

/-- The integrator which is used; track_magnet.template.h:437-446. -/
def integratorOf (m : Magnet) : ℤ :=
  if modelOf m = -1 then 3 else if m.integrator = 0 then m.defaultIntegrator else m.integrator

/-- The arguments of the drifts of the body. -/
def driftArgs (m : Magnet) (c : Conf) : DriftArgs :=
  { k0 := c.k0Drift, k1 := c.k1Drift, ks := c.ksDrift, h := c.hDrift, x0 := m.x0, y0 := m.y0, model := c.driftModel }

/-- The arguments of the kicks of the body; `MAGNET_KICK`, track_magnet.template.h:71-79. -/
def kickArgs (m : Magnet) (c : Conf) (length factor hxl : ℝ) : KickArgs :=
  { length := length, order := m.order, knl := m.knl, ksl := m.ksl, orderRel := m.orderRel, knlRel := m.knlRel, kslRel := m.kslRel
    relRef := m.relRef, factor := factor, k0 := c.k0Kick, k1 := c.k1Kick, k2 := m.k2, k3 := m.k3, k0s := m.k0s, k1s := m.k1s
    k2s := m.k2s, k3s := m.k3s, h := c.hKick, hxl := hxl, k0h := c.k0h, k1h := c.k1h, rotFrame := c.rot }

/-- `track_magnet_body_single_particle`; track_magnet.template.h:26-205. -/
def body (d : DriftArgs) (k : KickArgs) (length : ℝ) (n : ℕ) (integrator : ℤ) (p : Part) : Part :=
  if n = 0 ∧ k.k0 = 0 ∧ k.k1 = 0 ∧ k.h = 0 then magnetDrift d length p
  else runSteps d k length (steps integrator n) p

/-- The body with the preparation of its arguments, and the correction for straight bodies; track_magnet.template.h:332-361,
435-525.  `sg`: 1, or -1 under backtracking. -/
def trackBody (m : Magnet) (g : Geometry) (w sg : ℝ) (p : Part) : Part :=
  let core := sg * g.length * w
  let c := configure (modelOf m) m.k0 m.k1 g.h m.ks
  let q := body (driftArgs m c) (kickArgs m c core (sg * w) (sg * m.hxl)) core (kickNumber m w g.h core) (integratorOf m) p
  if g.straight ∧ modelOf m ≥ 0 then
    { q with s := q.s + (sg * g.lengthCurved * w - core), zeta := q.zeta + (sg * g.lengthCurved * w - core) }
  else q

/-- The entry of a straight body; track_magnet.template.h:396-403. -/
def tiltIn (t : Tilt) (p : Part) : Part :=
  let q := yRot p (-t.sin) t.cos (-t.sin / t.cos)
  { q with x := q.x + t.x0 }

/-- The exit of a straight body; track_magnet.template.h:556-563. -/
def tiltOut (t : Tilt) (p : Part) : Part :=
  yRot { p with x := p.x - t.x0 } (-t.sin) t.cos (-t.sin / t.cos)

/-- The entry of the magnet; track_magnet.template.h:394-433. -/
def trackEntry (m : Magnet) (fullEdge : Bool → Part → Part) (g : Geometry) (e : Edge) (t : Tilt) (back : Bool) (p : Part) :
    Option Part :=
  if e.active then edge m fullEdge g.length e false back (if g.straight then tiltIn t p else p) else some p

/-- The exit of the magnet; track_magnet.template.h:527-564. -/
def trackExit (m : Magnet) (fullEdge : Bool → Part → Part) (g : Geometry) (e : Edge) (t : Tilt) (back : Bool) (p : Part) :
    Option Part :=
  if e.active then
    match edge m fullEdge g.length e true back p with
    | none => none
    | some q => some (if g.straight then tiltOut t q else q)
  else some p

/-- `track_magnet_particles`; track_magnet.template.h:208-566. -/
def trackMagnet (m : Magnet) (fullEdge : Bool → Part → Part) (w : ℝ) (back : Bool) (p : Part) : Option Part :=
  let g := geometry m
  let ein := if back then g.exit else g.entry
  let eout := if back then g.entry else g.exit
  let tin := if back then ⟨-g.tout.sin, g.tout.cos, g.tout.x0⟩ else g.tin
  let tout := if back then ⟨-g.tin.sin, g.tin.cos, g.tin.x0⟩ else g.tout
  match trackEntry m fullEdge g ein tin back p with
  | none => none
  | some q => trackExit m fullEdge g eout tout back (if m.bodyActive then trackBody m g w (if back then -1 else 1) q else q)

end

end Verif.Magnets
