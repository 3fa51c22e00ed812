import Verif.Boris.Field
import Verif.Boris.Horner

/-! The field for the multipole order 1 has no divergence and no curl. -/

namespace Verif.Boris

theorem Bx1_x (c : Coeffs) (x y s : ℝ) : Bx1 c x y s = horner
    [1 * c.bx 0 0 + 1 * c.bx 0 1 * s + 1 * c.bx 0 2 * s ^ 2 + 1 * c.bx 0 3 * s ^ 3 + 1 * c.bx 0 4 * s ^ 4 - 1 * c.bx 0 2 * y ^ 2 - 3 * c.bx 0 3 * y ^ 2 * s - 6 * c.bx 0 4 * y ^ 2 * s ^ 2 + 1 * c.bx 0 4 * y ^ 4] x := by
  simp only [Bx1, horner]; ring

theorem Bx1_y (c : Coeffs) (x y s : ℝ) : Bx1 c x y s = horner
    [1 * c.bx 0 0 + 1 * c.bx 0 1 * s + 1 * c.bx 0 2 * s ^ 2 + 1 * c.bx 0 3 * s ^ 3 + 1 * c.bx 0 4 * s ^ 4,
      0,
      -1 * c.bx 0 2 - 3 * c.bx 0 3 * s - 6 * c.bx 0 4 * s ^ 2,
      0,
      1 * c.bx 0 4] y := by
  simp only [Bx1, horner]; ring

theorem Bx1_s (c : Coeffs) (x y s : ℝ) : Bx1 c x y s = horner
    [1 * c.bx 0 0 - 1 * c.bx 0 2 * y ^ 2 + 1 * c.bx 0 4 * y ^ 4,
      1 * c.bx 0 1 - 3 * c.bx 0 3 * y ^ 2,
      1 * c.bx 0 2 - 6 * c.bx 0 4 * y ^ 2,
      1 * c.bx 0 3,
      1 * c.bx 0 4] s := by
  simp only [Bx1, horner]; ring

theorem By1_x (c : Coeffs) (x y s : ℝ) : By1 c x y s = horner
    [1 * c.by_ 0 0 + 1 * c.by_ 0 1 * s + 1 * c.by_ 0 2 * s ^ 2 + 1 * c.by_ 0 3 * s ^ 3 + 1 * c.by_ 0 4 * s ^ 4 - 1 * c.bs 1 * y - 2 * c.bs 2 * y * s - 3 * c.bs 3 * y * s ^ 2 - 4 * c.bs 4 * y * s ^ 3 - 1 * c.by_ 0 2 * y ^ 2 - 3 * c.by_ 0 3 * y ^ 2 * s - 6 * c.by_ 0 4 * y ^ 2 * s ^ 2 + 1 * c.bs 3 * y ^ 3 + 4 * c.bs 4 * y ^ 3 * s + 1 * c.by_ 0 4 * y ^ 4,
      -2 * c.bx 0 2 * y - 6 * c.bx 0 3 * y * s - 12 * c.bx 0 4 * y * s ^ 2 + 4 * c.bx 0 4 * y ^ 3] x := by
  simp only [By1, horner]; ring

theorem By1_y (c : Coeffs) (x y s : ℝ) : By1 c x y s = horner
    [1 * c.by_ 0 0 + 1 * c.by_ 0 1 * s + 1 * c.by_ 0 2 * s ^ 2 + 1 * c.by_ 0 3 * s ^ 3 + 1 * c.by_ 0 4 * s ^ 4,
      -1 * c.bs 1 - 2 * c.bs 2 * s - 3 * c.bs 3 * s ^ 2 - 4 * c.bs 4 * s ^ 3 - 2 * c.bx 0 2 * x - 6 * c.bx 0 3 * x * s - 12 * c.bx 0 4 * x * s ^ 2,
      -1 * c.by_ 0 2 - 3 * c.by_ 0 3 * s - 6 * c.by_ 0 4 * s ^ 2,
      1 * c.bs 3 + 4 * c.bs 4 * s + 4 * c.bx 0 4 * x,
      1 * c.by_ 0 4] y := by
  simp only [By1, horner]; ring

theorem By1_s (c : Coeffs) (x y s : ℝ) : By1 c x y s = horner
    [1 * c.by_ 0 0 - 1 * c.bs 1 * y - 1 * c.by_ 0 2 * y ^ 2 + 1 * c.bs 3 * y ^ 3 + 1 * c.by_ 0 4 * y ^ 4 - 2 * c.bx 0 2 * x * y + 4 * c.bx 0 4 * x * y ^ 3,
      1 * c.by_ 0 1 - 2 * c.bs 2 * y - 3 * c.by_ 0 3 * y ^ 2 + 4 * c.bs 4 * y ^ 3 - 6 * c.bx 0 3 * x * y,
      1 * c.by_ 0 2 - 3 * c.bs 3 * y - 6 * c.by_ 0 4 * y ^ 2 - 12 * c.bx 0 4 * x * y,
      1 * c.by_ 0 3 - 4 * c.bs 4 * y,
      1 * c.by_ 0 4] s := by
  simp only [By1, horner]; ring

theorem Bs1_x (c : Coeffs) (x y s : ℝ) : Bs1 c x y s = horner
    [1 * c.bs 0 + 1 * c.bs 1 * s + 1 * c.bs 2 * s ^ 2 + 1 * c.bs 3 * s ^ 3 + 1 * c.bs 4 * s ^ 4 + 1 * c.by_ 0 1 * y + 2 * c.by_ 0 2 * y * s + 3 * c.by_ 0 3 * y * s ^ 2 + 4 * c.by_ 0 4 * y * s ^ 3 - 1 * c.bs 2 * y ^ 2 - 3 * c.bs 3 * y ^ 2 * s - 6 * c.bs 4 * y ^ 2 * s ^ 2 - 1 * c.by_ 0 3 * y ^ 3 - 4 * c.by_ 0 4 * y ^ 3 * s + 1 * c.bs 4 * y ^ 4,
      1 * c.bx 0 1 + 2 * c.bx 0 2 * s + 3 * c.bx 0 3 * s ^ 2 + 4 * c.bx 0 4 * s ^ 3 - 3 * c.bx 0 3 * y ^ 2 - 12 * c.bx 0 4 * y ^ 2 * s] x := by
  simp only [Bs1, horner]; ring

theorem Bs1_y (c : Coeffs) (x y s : ℝ) : Bs1 c x y s = horner
    [1 * c.bs 0 + 1 * c.bs 1 * s + 1 * c.bs 2 * s ^ 2 + 1 * c.bs 3 * s ^ 3 + 1 * c.bs 4 * s ^ 4 + 1 * c.bx 0 1 * x + 2 * c.bx 0 2 * x * s + 3 * c.bx 0 3 * x * s ^ 2 + 4 * c.bx 0 4 * x * s ^ 3,
      1 * c.by_ 0 1 + 2 * c.by_ 0 2 * s + 3 * c.by_ 0 3 * s ^ 2 + 4 * c.by_ 0 4 * s ^ 3,
      -1 * c.bs 2 - 3 * c.bs 3 * s - 6 * c.bs 4 * s ^ 2 - 3 * c.bx 0 3 * x - 12 * c.bx 0 4 * x * s,
      -1 * c.by_ 0 3 - 4 * c.by_ 0 4 * s,
      1 * c.bs 4] y := by
  simp only [Bs1, horner]; ring

theorem Bs1_s (c : Coeffs) (x y s : ℝ) : Bs1 c x y s = horner
    [1 * c.bs 0 + 1 * c.by_ 0 1 * y - 1 * c.bs 2 * y ^ 2 - 1 * c.by_ 0 3 * y ^ 3 + 1 * c.bs 4 * y ^ 4 + 1 * c.bx 0 1 * x - 3 * c.bx 0 3 * x * y ^ 2,
      1 * c.bs 1 + 2 * c.by_ 0 2 * y - 3 * c.bs 3 * y ^ 2 - 4 * c.by_ 0 4 * y ^ 3 + 2 * c.bx 0 2 * x - 12 * c.bx 0 4 * x * y ^ 2,
      1 * c.bs 2 + 3 * c.by_ 0 3 * y - 6 * c.bs 4 * y ^ 2 + 3 * c.bx 0 3 * x,
      1 * c.bs 3 + 4 * c.by_ 0 4 * y + 4 * c.bx 0 4 * x,
      1 * c.bs 4] s := by
  simp only [Bs1, horner]; ring

theorem maxwell1 (c : Coeffs) (x y s : ℝ) : Vacuum (Bx1 c) (By1 c) (Bs1 c) x y s := by
  have hBxx : HasDerivAt (fun t => Bx1 c t y s) _ x :=
    (horner_deriv _ x).congr_of_eventuallyEq (Filter.Eventually.of_forall fun t => Bx1_x c t y s)
  have hBxy : HasDerivAt (fun t => Bx1 c x t s) _ y :=
    (horner_deriv _ y).congr_of_eventuallyEq (Filter.Eventually.of_forall fun t => Bx1_y c x t s)
  have hBxs : HasDerivAt (fun t => Bx1 c x y t) _ s :=
    (horner_deriv _ s).congr_of_eventuallyEq (Filter.Eventually.of_forall fun t => Bx1_s c x y t)
  have hByx : HasDerivAt (fun t => By1 c t y s) _ x :=
    (horner_deriv _ x).congr_of_eventuallyEq (Filter.Eventually.of_forall fun t => By1_x c t y s)
  have hByy : HasDerivAt (fun t => By1 c x t s) _ y :=
    (horner_deriv _ y).congr_of_eventuallyEq (Filter.Eventually.of_forall fun t => By1_y c x t s)
  have hBys : HasDerivAt (fun t => By1 c x y t) _ s :=
    (horner_deriv _ s).congr_of_eventuallyEq (Filter.Eventually.of_forall fun t => By1_s c x y t)
  have hBsx : HasDerivAt (fun t => Bs1 c t y s) _ x :=
    (horner_deriv _ x).congr_of_eventuallyEq (Filter.Eventually.of_forall fun t => Bs1_x c t y s)
  have hBsy : HasDerivAt (fun t => Bs1 c x t s) _ y :=
    (horner_deriv _ y).congr_of_eventuallyEq (Filter.Eventually.of_forall fun t => Bs1_y c x t s)
  have hBss : HasDerivAt (fun t => Bs1 c x y t) _ s :=
    (horner_deriv _ s).congr_of_eventuallyEq (Filter.Eventually.of_forall fun t => Bs1_s c x y t)
  refine ⟨_, _, _, _, _, _, _, _, _, hBxx, hBxy, hBxs, hByx, hByy, hBys, hBsx, hBsy, hBss, ?_, ?_, ?_, ?_⟩ <;>
    (simp only [dhorner, horner]; ring)

theorem midplane1 (c : Coeffs) (x s : ℝ) :
    Bx1 c x 0 s = x ^ 0 / 1 * poly (c.bx 0) s ∧
    By1 c x 0 s = x ^ 0 / 1 * poly (c.by_ 0) s ∧
    Bs1 c 0 0 s = poly c.bs s := by
  refine ⟨?_, ?_, ?_⟩
  · simp only [Bx1, poly]; ring
  · simp only [By1, poly]; ring
  · simp only [Bs1, poly]; ring

end Verif.Boris
