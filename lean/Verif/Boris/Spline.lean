import Verif.Boris.Horner
import Mathlib.Analysis.SpecialFunctions.Integrals.Basic
import Mathlib.Tactic.FieldSimp
import Mathlib.Tactic.NormNum

/-!
# C183: the splines of `SplineBoris`

Model of `hermite_to_polynomial` and of the arithmetic of polynomials it uses,
xtrack/beam_elements/splineboris_src/spline_B_field_eval.h:28-104.
-/

namespace Verif.Boris

/-- `Poly`: five coefficients and a degree: spline_B_field_eval.h:27-30. -/
structure Poly where
  coeffs : List ℝ
  degree : ℕ

/-- A coefficient; the array has five. -/
def Poly.at (p : Poly) (i : ℕ) : ℝ := p.coeffs.getD i 0

/-- `poly_scale`: spline_B_field_eval.h:32-35. -/
noncomputable def scale (p : Poly) (s : ℝ) : Poly :=
  ⟨(List.range 5).map (fun i => if i ≤ p.degree then p.at i * s else p.at i), p.degree⟩

/-- `poly_add`: spline_B_field_eval.h:37-43. -/
noncomputable def add (a b : Poly) : Poly :=
  ⟨(List.range 5).map (fun i => (if i ≤ a.degree then a.at i else 0) + (if i ≤ b.degree then b.at i else 0)),
    if a.degree > b.degree then a.degree else b.degree⟩

/-- `poly_mul`, which leaves out what is beyond the fourth power: spline_B_field_eval.h:45-60. -/
noncomputable def mul (a b : Poly) : Poly :=
  ⟨(List.range 5).map (fun k => ((List.range (a.degree + 1)).map (fun i =>
      if i ≤ k ∧ k - i ≤ b.degree then a.at i * b.at (k - i) else 0)).sum),
    if a.degree + b.degree > 4 then 4 else a.degree + b.degree⟩

/-- One pass of `poly_compose`: spline_B_field_eval.h:70-76. -/
noncomputable def compStep (g r : Poly) (f : ℝ) : Poly :=
  let m := mul r g
  ⟨(List.range 5).map (fun i => if i = 0 then m.at 0 + f else m.at i), if m.degree < 4 then m.degree + 1 else m.degree⟩

/-- `poly_compose` for a polynomial of fourth degree: spline_B_field_eval.h:65-78. -/
noncomputable def compose (f g : Poly) : Poly :=
  compStep g (compStep g (compStep g (compStep g ⟨[f.at 4, 0, 0, 0, 0], 0⟩ (f.at 3)) (f.at 2)) (f.at 1)) (f.at 0)

/-- The values of a `Spline4`: splineboris.py:51-55. -/
structure Spline where
  start : ℝ
  slopeStart : ℝ
  stop : ℝ
  slopeStop : ℝ
  mean : ℝ

/-- `hermite_to_polynomial(0, L, …)`: spline_B_field_eval.h:80-104. -/
noncomputable def toPoly (L : ℝ) (d : Spline) : Poly :=
  let z : Poly := ⟨[0, 0, 0, 0, 0], 0⟩
  let b1 : Poly := ⟨[1, 0, -18, 32, -15], 4⟩
  let b2 : Poly := ⟨[0, 1, -(9/2), 6, -(5/2)], 4⟩
  let b3 : Poly := ⟨[0, 0, -12, 28, -15], 4⟩
  let b4 : Poly := ⟨[0, 0, 3/2, -4, 5/2], 4⟩
  let b5 : Poly := ⟨[0, 0, 30, -60, 30], 4⟩
  let p := add z (scale b1 d.start)
  let p := add p (scale b2 (L * d.slopeStart))
  let p := add p (scale b3 d.stop)
  let p := add p (scale b4 (L * d.slopeStop))
  let p := add p (scale b5 d.mean)
  compose p ⟨[0, 1 / L, 0, 0, 0], 1⟩

/-- The function along s which is used. -/
noncomputable def along (L : ℝ) (d : Spline) (s : ℝ) : ℝ := poly (fun k => (toPoly L d).at k) s

theorem along_eq (L : ℝ) (d : Spline) (s : ℝ) : along L d s =
    horner [d.start, L * d.slopeStart * (1 / L),
      (-18 * d.start - 9/2 * (L * d.slopeStart) - 12 * d.stop + 3/2 * (L * d.slopeStop) + 30 * d.mean) * (1 / L) ^ 2,
      (32 * d.start + 6 * (L * d.slopeStart) + 28 * d.stop - 4 * (L * d.slopeStop) - 60 * d.mean) * (1 / L) ^ 3,
      (-15 * d.start - 5/2 * (L * d.slopeStart) - 15 * d.stop + 5/2 * (L * d.slopeStop) + 30 * d.mean) * (1 / L) ^ 4] s := by
  simp [along, toPoly, poly, compose, compStep, mul, add, scale, Poly.at, horner, List.range_succ]
  ring

/-! ## C183 -/

/-- C183 (splines): the function along s has the given values and slopes at both ends of the
element. -/
theorem C183_ends (L : ℝ) (hL : 0 < L) (d : Spline) :
    along L d 0 = d.start ∧ HasDerivAt (along L d) d.slopeStart 0 ∧
      along L d L = d.stop ∧ HasDerivAt (along L d) d.slopeStop L := by
  have e : along L d = horner _ := funext (along_eq L d)
  have hL' : L ≠ 0 := hL.ne'
  refine ⟨?_, ?_, ?_, ?_⟩
  · rw [along_eq]; simp [horner]
  · rw [e]
    refine (horner_deriv _ 0).congr_deriv ?_
    simp only [dhorner, horner]
    field_simp
    ring
  · rw [along_eq]
    simp only [horner]
    field_simp
    ring
  · rw [e]
    refine (horner_deriv _ L).congr_deriv ?_
    simp only [dhorner, horner]
    field_simp
    ring

/-- C183 (splines): its mean over the element is the given one. -/
theorem C183_mean (L : ℝ) (hL : 0 < L) (d : Spline) : (∫ s in (0 : ℝ)..L, along L d s) = L * d.mean := by
  have hL' : L ≠ 0 := hL.ne'
  have hp : ∀ s, HasDerivAt (horner [0, d.start, L * d.slopeStart * (1 / L) / 2,
      (-18 * d.start - 9/2 * (L * d.slopeStart) - 12 * d.stop + 3/2 * (L * d.slopeStop) + 30 * d.mean) * (1 / L) ^ 2 / 3,
      (32 * d.start + 6 * (L * d.slopeStart) + 28 * d.stop - 4 * (L * d.slopeStop) - 60 * d.mean) * (1 / L) ^ 3 / 4,
      (-15 * d.start - 5/2 * (L * d.slopeStart) - 15 * d.stop + 5/2 * (L * d.slopeStop) + 30 * d.mean) * (1 / L) ^ 4 / 5])
      (along L d s) s := by
    intro s
    refine (horner_deriv _ s).congr_deriv ?_
    rw [along_eq]
    simp only [dhorner, horner]
    ring
  have e : along L d = horner _ := funext (along_eq L d)
  have hc : Continuous (along L d) := by
    rw [e]
    exact continuous_iff_continuousAt.mpr (fun s => (horner_deriv _ s).continuousAt)
  rw [intervalIntegral.integral_eq_sub_of_hasDerivAt (fun s _ => hp s) (hc.intervalIntegrable _ _)]
  simp only [horner]
  field_simp
  ring

/-- A spline from one to three, flat at both ends, of mean five, on an element of length two. -/
example : along 2 ⟨1, 0, 3, 0, 5⟩ 0 = 1 ∧ along 2 ⟨1, 0, 3, 0, 5⟩ 2 = 3 :=
  ⟨(C183_ends 2 (by norm_num) _).1, (C183_ends 2 (by norm_num) _).2.2.1⟩

end Verif.Boris
