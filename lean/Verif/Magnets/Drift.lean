import Verif.Frames.Model
import Mathlib.Analysis.SpecialFunctions.Trigonometric.Inverse
import Mathlib.Analysis.SpecialFunctions.Trigonometric.Deriv

/-!
# The drift parts of the magnet models

Source: /repo/xtrack/beam_elements/elements_src/track_magnet_drift.h.  The expanded, exact and polar drifts (lines 13-87) are those
of `Verif.Frames` (`driftExpanded`, `driftExact`, `polarDrift`).

Simplifications: double precision numbers are real numbers; `NONZERO(x)` is `x ≠ 0`; the vector potential `ax`, `ay`, which is only
used by the radiation and spin code and which the solenoid writes, is not modelled.
-/

namespace Verif.Magnets

open Frames

noncomputable section

/-- `Cx`, `Cy`; track_magnet_drift.h:119-147. -/
def focC (K l : ℝ) : ℝ :=
  if K > 0 then Real.cos (Real.sqrt K * l) else if K < 0 then Real.cosh (Real.sqrt (-K) * l) else 1

/-- `Sx`, `Sy`; track_magnet_drift.h:119-147. -/
def focS (K l : ℝ) : ℝ :=
  if K > 0 then Real.sin (Real.sqrt K * l) / Real.sqrt K else if K < 0 then Real.sinh (Real.sqrt (-K) * l) / Real.sqrt (-K) else l

/-- One of the two sums of squares in the path length, for slope `b` and second derivative `a`;
track_magnet_drift.h:172-179, 191-198. -/
def pathQuad (K l a b : ℝ) : ℝ :=
  0.5 * (-(a ^ 2 * focC K l * focS K l) / (2 * K) + (b ^ 2 * focC K l * focS K l) / 2 + (a ^ 2 * l) / (2 * K) + (b ^ 2 * l) / 2
    - (a * b * focC K l ^ 2) / K + (a * b) / K)

/-- `track_expanded_combined_dipole_quad_single_particle`; track_magnet_drift.h:91-213. -/
def combined (length k0' k1' h : ℝ) (p : Part) : Part :=
  let opd := p.delta + 1
  let k0 := p.chi * k0' / opd
  let k1 := p.chi * k1' / opd
  let Kx := k0 * h + k1
  let Ky := -k1
  let Sx := focS Kx length
  let Cx := focC Kx length
  let Sy := focS Ky length
  let Cy := focC Ky length
  let xp := p.px / opd
  let yp := p.py / opd
  let A := -Kx * p.x - k0 + h
  let C := -Ky * p.y
  let x1 := p.x * Cx + xp * Sx
  let x2 := if Kx ≠ 0 then x1 + (k0 - h) * (Cx - 1) / Kx else x1 - (k0 - h) * 0.5 * length ^ 2
  let l1 := if Kx ≠ 0 then
      length - (h * ((Cx - 1) * xp + Sx * A + length * (k0 - h))) / Kx + pathQuad Kx length A xp
    else length + h * length * (3 * length * xp + 6 * p.x - (k0 - h) * length ^ 2) / 6 + 0.5 * xp ^ 2 * length
  let l2 := if Ky ≠ 0 then l1 + pathQuad Ky length C yp else l1 + 0.5 * yp ^ 2 * length
  { p with
    x := x2
    px := (A * Sx + xp * Cx) * opd
    y := p.y * Cy + yp * Sy
    py := (C * Sy + yp * Cy) * opd
    zeta := p.zeta + (length - l2 / p.rvv)
    s := p.s + length }

/-- `track_curved_exact_bend_single_particle`; track_magnet_drift.h:272-345. -/
def curvedBend (length k0 h : ℝ) (p : Part) : Part :=
  let k := k0 * p.chi
  if |k| < 1e-8 then polarDrift p length h
  else
    let opd := p.delta + 1
    let hs := h * length
    let sinHs := Real.sin hs
    let cosHs := Real.cos hs
    let sinHs2 := Real.sin (hs / 2)
    let pz0 := Real.sqrt (opd ^ 2 - p.px ^ 2 - p.py ^ 2)
    let C := pz0 - k * (1 / h + p.x)
    let pxs := p.px * cosHs + C * sinHs
    let pzs := Real.sqrt (opd ^ 2 - pxs ^ 2 - p.py ^ 2)
    let deltaPz := (p.px - pxs) * (p.px + pxs) / (pz0 + pzs)
    let deltaD := -2 * C * sinHs2 ^ 2 - p.px * sinHs
    let deltaX := (deltaPz - deltaD) / k
    let deltaPx := -2 * p.px * sinHs2 ^ 2 + C * sinHs
    let nA := p.px * deltaPz - pz0 * deltaPx
    let dA := pz0 * pzs + p.px * pxs
    let deltaA := atan2 nA dA
    let integ := (hs + deltaA) / k
    { p with
      x := p.x + deltaX
      px := pxs
      y := p.y + p.py * integ
      zeta := p.zeta + (length - opd * integ / p.rvv)
      s := p.s + length }

/-- `track_straight_exact_bend_single_particle`; track_magnet_drift.h:349-394. -/
def straightBend (length k0 : ℝ) (p : Part) : Part :=
  let k := k0 * p.chi
  if |k| < 1e-8 then driftExact p length
  else
    let opd := p.delta + 1
    let A := 1 / Real.sqrt (opd ^ 2 - p.py ^ 2)
    let pz := Real.sqrt (opd ^ 2 - p.px ^ 2 - p.py ^ 2)
    let px' := p.px - k * length
    let D := Real.arcsin (A * p.px) - Real.arcsin (A * px')
    { p with
      x := p.x + (Real.sqrt (opd ^ 2 - px' ^ 2 - p.py ^ 2) - pz) / k
      px := px'
      y := p.y + p.py / k * D
      zeta := p.zeta + (length - opd / k * D / p.rvv)
      s := p.s + length }

/-- `track_solenoid_single_particle` without the vector potential; track_magnet_drift.h:397-463. -/
def solenoid (length ks x0 y0 : ℝ) (p : Part) : Part :=
  let sk := ks / 2
  if |sk| < 1e-9 then driftExact p length
  else if |length| < 1e-9 then p
  else
    let skl := sk * length
    let x := p.x - x0
    let y := p.y - y0
    let pk1 := p.px + sk * y
    let pk2 := p.py - sk * x
    let ptr2 := pk1 * pk1 + pk2 * pk2
    let opd := 1 + p.delta
    let pz := Real.sqrt (opd * opd - ptr2)
    let cosTh := Real.cos (skl / pz)
    let sinTh := Real.sin (skl / pz)
    let si := Real.sin (skl / pz) / sk
    let r0 := cosTh * x + sinTh * y
    let r1 := cosTh * p.px + sinTh * p.py
    let r2 := cosTh * y - sinTh * x
    let r3 := cosTh * p.py - sinTh * p.px
    { p with
      x := cosTh * r0 + si * r1 + x0
      px := cosTh * r1 - sk * sinTh * r0
      y := cosTh * r2 + si * r3 + y0
      py := cosTh * r3 - sk * sinTh * r2
      zeta := p.zeta + length * (1 - opd / (pz * p.rvv))
      s := p.s + length }

/-- `LocalParticle_set_px(part, px - c * k0 * chi * length)`. -/
def k0Kick (c length k0 : ℝ) (p : Part) : Part := { p with px := p.px - c * k0 * p.chi * length }

/-- A sequence of polar drifts and kicks of `k0`: the lengths and the strengths, relative to the whole. -/
def nested (length k0 h : ℝ) : List (ℝ × ℝ) → ℝ → Part → Part
  | [], last, p => polarDrift p (last * length) h
  | (d, c) :: rest, last, p => nested length k0 h rest last (k0Kick c length k0 (polarDrift p (d * length) h))

/-- The coefficients of the fourth order integrator; track_magnet_drift.h:521-531. -/
def nested4 : List (ℝ × ℝ) :=
  [(0.6756035959798289, 1.3512071919596578), (-0.17560359597982889, -1.7024143839193155), (-0.17560359597982889, 1.3512071919596578)]

/-- The coefficients of the sixth order integrator; track_magnet_drift.h:532-550. -/
def nested6 : List (ℝ × ℝ) :=
  [(3.922568052387799819591407413100e-01, 7.845136104775599639182814826199e-01),
   (5.100434119184584780271052295575e-01, 2.355732133593569921359289764951e-01),
   (-4.710533854097565531482416645304e-01, -1.177679984178870098432412305556e+00),
   (6.875316825251809316199569366290e-02, 1.315186320683906284756403692882e+00),
   (6.875316825251809316199569366290e-02, -1.177679984178870098432412305556e+00),
   (-4.710533854097565531482416645304e-01, 2.355732133593569921359289764951e-01),
   (5.100434119184584780271052295575e-01, 7.845136104775599639182814826199e-01)]

/-- The arguments of `track_magnet_drift_single_particle` besides the length. -/
structure DriftArgs where
  k0 : ℝ
  k1 : ℝ
  ks : ℝ
  h : ℝ
  x0 : ℝ
  y0 : ℝ
  model : ℤ

/-- `track_magnet_drift_single_particle`; track_magnet_drift.h:468-555. -/
def magnetDrift (a : DriftArgs) (length : ℝ) (p : Part) : Part :=
  if a.model = -1 then p
  else if length = 0 then p
  else if a.model = 0 then driftExpanded p length
  else if a.model = 1 then driftExact p length
  else if a.model = 2 then polarDrift p length a.h
  else if a.model = 3 then combined length a.k0 a.k1 a.h p
  else if a.model = 4 then curvedBend length a.k0 a.h p
  else if a.model = 5 then straightBend length a.k0 p
  else if a.model = 6 then solenoid length a.ks a.x0 a.y0 p
  else if a.model = 7 then nested length a.k0 a.h nested4 0.6756035959798289 p
  else if a.model = 8 then nested length a.k0 a.h nested6 3.922568052387799819591407413100e-01 p
  else p

end

end Verif.Magnets
