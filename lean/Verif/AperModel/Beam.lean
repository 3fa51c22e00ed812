import Mathlib.Analysis.SpecialFunctions.Sqrt
import Mathlib.Tactic.Linarith
import Mathlib.Tactic.Ring
import Mathlib.Tactic.NormNum
import Mathlib.Tactic.FieldSimp

/-!
The shape of the beam and the search for the largest one which fits, xtrack/aperture/headers/beam_aperture.h and polygon_algs.h.
Numbers are reals instead of floating point numbers; the square root of a negative number, which is NaN in C, is an exception here
(`none`).
-/
namespace Verif.AperModel.Beam

/-- `Racetrack_s`, polygon_algs.h:12-17: half width, half height and the semi-axes of the rounded corners. -/
@[ext] structure RT where
  h : ℝ
  v : ℝ
  a : ℝ
  b : ℝ

/-- `add_racetracks`, polygon_algs.h:141-151. -/
noncomputable def add (p q : RT) : RT := ⟨p.h + q.h, p.v + q.v, p.a + q.a, p.b + q.b⟩

/-- `scale_racetrack`, polygon_algs.h:154-163. -/
noncomputable def scale (p : RT) (k : ℝ) : RT := ⟨p.h * k, p.v * k, p.a * k, p.b * k⟩

/-- `sqrt` of C. -/
noncomputable def csqrt (x : ℝ) : Option ℝ := if x < 0 then none else some (Real.sqrt x)

/-- The radius of the corners in units of sigma, beam_aperture.h:121. -/
noncomputable def cornerRadius (hx hy hr : ℝ) : Option ℝ := (csqrt (2 * (hr - hx) * (hr - hy))).map fun w => hx + hy - hr - w

/-- `beam_racetrack`, beam_aperture.h:92-130, for given sizes `sx`, `sy` (lines 103-107). -/
noncomputable def beamRT (haloX haloY haloR primary sx sy : ℝ) : Option RT :=
  (cornerRadius (haloX / primary) (haloY / primary) (haloR / primary)).map fun sr =>
    ⟨haloX / primary * sx, haloY / primary * sy, sr * sx, sr * sy⟩

/-- The radius in the rounded corner, polygon_algs.h:191-209. -/
noncomputable def corner (c s : ℝ) (rt : RT) : ℝ :=
  let qa := c * c / (rt.a * rt.a) + s * s / (rt.b * rt.b)
  let qb := -2 * ((rt.h - rt.a) * c / (rt.a * rt.a) + (rt.v - rt.b) * s / (rt.b * rt.b))
  let qc := (rt.h - rt.a) * (rt.h - rt.a) / (rt.a * rt.a) + (rt.v - rt.b) * (rt.v - rt.b) / (rt.b * rt.b) - 1
  (Real.sqrt (qb * qb - 4 * qa * qc) - qb) / (2 * qa)

/-- `racetrack_radius_at_angle`, polygon_algs.h:166-210, in terms of the absolute values of the cosine and of the sine. The comparisons of
the tangent with quotients are multiplied out, so that the infinities of C at vanishing denominators are not needed. -/
noncomputable def radius (eps c s : ℝ) (rt : RT) : ℝ :=
  if (rt.h < eps ∧ rt.a < eps) ∨ (rt.v < eps ∧ rt.b < eps) then 0
  else if s * rt.h ≤ (rt.v - rt.b) * c then rt.h / c
  else if rt.v * c ≤ s * (rt.h - rt.a) then rt.v / s
  else corner c s rt

/-- One turn of the loop of `compute_n1_for_point`, beam_aperture.h:482-495, on `(n0, f0, n1, f1)`; `none` is `break`. -/
noncomputable def secantStep (eps : ℝ) (f : ℝ → ℝ) (st : ℝ × ℝ × ℝ × ℝ) : Option (ℝ × ℝ × ℝ × ℝ) :=
  if |st.2.2.2 - st.2.1| < eps then none
  else
    let n2 := st.2.2.1 - st.2.2.2 * (st.2.2.1 - st.1) / (st.2.2.2 - st.2.1)
    some (st.2.2.1, st.2.2.2, n2, f n2)

/-- `compute_n1_for_point`, beam_aperture.h:449-498: at most two steps; `f` is `_envelope_at_n_error`. -/
noncomputable def secant (eps : ℝ) (f : ℝ → ℝ) (n0 n1 : ℝ) : ℝ :=
  match secantStep eps f (n0, f n0, n1, f n1) with
  | none => n1
  | some st => match secantStep eps f st with
    | none => st.2.2.1
    | some st' => st'.2.2.1

/-- The loop of `max_aperture_sigma_bisect_one_slice`, beam_aperture.h:220-230; `fuel` bounds the number of turns. -/
noncomputable def bisect (fits : ℝ → Bool) (tol : ℝ) : Nat → ℝ → ℝ → ℝ
  | 0, lo, _ => lo
  | k + 1, lo, hi => if hi - lo > tol then
      (if fits ((lo + hi) / 2) then bisect fits tol k ((lo + hi) / 2) hi else bisect fits tol k lo ((lo + hi) / 2))
    else lo

end Verif.AperModel.Beam
