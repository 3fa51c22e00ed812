import Verif.Frames.Model

/-!
# The kick of a magnet

Source: /repo/xtrack/beam_elements/elements_src/track_magnet_kick.h 12-259 and /repo/xtrack/headers/factorial.h.

Simplifications: double precision numbers are real numbers; `inv_factorial_order` and the table of inverse factorials are the exact
values (`factorial.h:6-36` rounds them to doubles); an array is a function from indices, of which the code reads those up to `order`;
the pointers are not null.
-/

namespace Verif.Magnets

open Frames

noncomputable section

/-- The `while` loop of `kick_simple_single_coordinates`; track_magnet_kick.h:205-219.  `f`: `inv_factorial`. -/
def horner (chi x y factor : ℝ) (knl ksl : ℕ → ℝ) : ℕ → ℝ → ℝ → ℝ → ℝ × ℝ
  | 0, _, re, im => (re, im)
  | i + 1, f, re, im =>
    let zre := re * x - im * y
    let zim := re * y + im * x
    let f' := f * ((i : ℝ) + 1)
    horner chi x y factor knl ksl i f' (chi * knl i * factor * f' + zre) (chi * ksl i * factor * f' + zim)

/-- `kick_simple_single_coordinates`: `dpx` and `dpy`; track_magnet_kick.h:177-225. -/
def kickCoords (x y chi : ℝ) (order : ℕ) (f : ℝ) (knl ksl : ℕ → ℝ) (factor w : ℝ) : ℝ × ℝ :=
  let r := horner chi x y factor knl ksl order f (chi * knl order * factor * f) (chi * ksl order * factor * f)
  (w * (-r.1), w * r.2)

/-- `kick_simple_single_particle`; track_magnet_kick.h:228-259. -/
def kickSimple (p : Part) (order : ℕ) (f : ℝ) (knl ksl : ℕ → ℝ) (factor w : ℝ) : Part :=
  let d := kickCoords p.x p.y p.chi order f knl ksl factor w
  { p with px := p.px + d.1, py := p.py + d.2 }

/-- `one_over_factorial`, `inv_factorial_order`. -/
def invFact (n : ℕ) : ℝ := 1 / (n.factorial : ℝ)

/-- `knl_main`, `ksl_main`; track_magnet_kick.h:58-64. -/
def mainArr (k0 k1 k2 k3 length : ℝ) : ℕ → ℝ
  | 0 => k0 * length
  | 1 => k1 * length
  | 2 => k2 * length
  | 3 => k3 * length
  | _ => 0

/-- The arguments of `track_magnet_kick_single_particle` that are the same for all kicks of a body; track_magnet_kick.h:25-54. -/
structure KickArgs where
  length : ℝ
  order : ℕ
  knl : ℕ → ℝ
  ksl : ℕ → ℝ
  orderRel : ℕ
  knlRel : ℕ → ℝ
  kslRel : ℕ → ℝ
  /-- `rel_ref_strength` -/
  relRef : ℝ
  /-- `factor_knl_ksl` -/
  factor : ℝ
  k0 : ℝ
  k1 : ℝ
  k2 : ℝ
  k3 : ℝ
  k0s : ℝ
  k1s : ℝ
  k2s : ℝ
  k3s : ℝ
  h : ℝ
  hxl : ℝ
  /-- `k0_h_correction` -/
  k0h : ℝ
  /-- `k1_h_correction` -/
  k1h : ℝ
  rotFrame : Bool

/-- `htot`; track_magnet_kick.h:112-115. -/
def hTot (a : KickArgs) : ℝ := if a.length ≠ 0 then a.h + a.hxl / a.length else a.h

/-- `k0l_mult`; track_magnet_kick.h:121-127. -/
def k0lMult (a : KickArgs) : ℝ := a.knl 0 * a.factor + a.knlRel 0 * a.factor * a.relRef

/-- `k1l_mult`; track_magnet_kick.h:133-139. -/
def k1lMult (a : KickArgs) : ℝ :=
  (if 1 ≤ a.order then a.knl 1 * a.factor else 0) + (if 1 ≤ a.orderRel then a.knlRel 1 * a.factor * a.relRef else 0)

/-- The correction for the curvature; track_magnet_kick.h:98-147. -/
def curvature (a : KickArgs) (w : ℝ) (p : Part) : Part :=
  let hl := a.h * a.length * w + a.hxl * w
  let dpx0 := if a.rotFrame then hl * (1 + p.delta) else 0
  let dzeta := if a.rotFrame then -(1 / p.rvv) * hl * p.x else 0
  let dpx1 := -p.chi * (a.k0h * a.length + k0lMult a) * w * hTot a * p.x
  let dpx2 := hTot a * p.chi * (a.k1h * a.length + k1lMult a) * w * (-p.x * p.x + 0.5 * p.y * p.y)
  let dpy2 := hTot a * p.chi * (a.k1h * a.length + k1lMult a) * w * p.x * p.y
  { p with px := p.px + (dpx0 + dpx1 + dpx2), py := p.py + dpy2, zeta := p.zeta + dzeta }

/-- `track_magnet_kick_single_particle` with kick weight `w`; track_magnet_kick.h:24-148. -/
def magnetKick (a : KickArgs) (w : ℝ) (p : Part) : Part :=
  let p1 := kickSimple p a.order (invFact a.order) a.knl a.ksl a.factor w
  let p2 := kickSimple p1 a.orderRel (invFact a.orderRel) a.knlRel a.kslRel (a.factor * a.relRef) w
  let p3 := kickSimple p2 3 (1 / (3 * 2)) (mainArr a.k0 a.k1 a.k2 a.k3 a.length) (mainArr a.k0s a.k1s a.k2s a.k3s a.length) 1 w
  curvature a w p3

/-- `kick_is_inactive`; track_magnet_kick.h:152-173. -/
def kickInactive (order : ℕ) (knl ksl : ℕ → ℝ) (k0 k1 k2 k3 k0s k1s k2s k3s h : ℝ) : Prop :=
  h = 0 ∧ k0 = 0 ∧ k1 = 0 ∧ k2 = 0 ∧ k3 = 0 ∧ k0s = 0 ∧ k1s = 0 ∧ k2s = 0 ∧ k3s = 0 ∧ ∀ i ≤ order, knl i = 0 ∧ ksl i = 0

end

end Verif.Magnets
