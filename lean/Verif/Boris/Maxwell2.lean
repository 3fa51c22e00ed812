import Verif.Boris.Field
import Verif.Boris.Horner
import Verif.Boris.Maxwell1

/-! The field for the multipole order 2 has no divergence and no curl: it is that for the order 1 and
the terms of the last coefficients. -/

namespace Verif.Boris

/-- What the coefficients 1 add to `Bx`. -/
noncomputable def dBx2 (c : Coeffs) (x y s : ℝ) : ℝ :=
  1 * c.by_ 1 0 * y + 1 * c.by_ 1 1 * y * s + 1 * c.by_ 1 2 * y * s ^ 2 + 1 * c.by_ 1 3 * y * s ^ 3 + 1 * c.by_ 1 4 * y * s ^ 4 - 1/3 * c.by_ 1 2 * y ^ 3 - 1 * c.by_ 1 3 * y ^ 3 * s - 2 * c.by_ 1 4 * y ^ 3 * s ^ 2 + 1/5 * c.by_ 1 4 * y ^ 5 + 1 * c.bx 1 0 * x + 1 * c.bx 1 1 * x * s + 1 * c.bx 1 2 * x * s ^ 2 + 1 * c.bx 1 3 * x * s ^ 3 + 1 * c.bx 1 4 * x * s ^ 4 - 1 * c.bx 1 2 * x * y ^ 2 - 3 * c.bx 1 3 * x * y ^ 2 * s - 6 * c.bx 1 4 * x * y ^ 2 * s ^ 2 + 1 * c.bx 1 4 * x * y ^ 4

theorem Bx2_add (c : Coeffs) (x y s : ℝ) : Bx2 c x y s = Bx1 c x y s + dBx2 c x y s := by
  simp only [Bx2, Bx1, dBx2]; ring

/-- What the coefficients 1 add to `By`. -/
noncomputable def dBy2 (c : Coeffs) (x y s : ℝ) : ℝ :=
  -1 * c.bx 1 0 * y - 1 * c.bx 1 1 * y * s - 1 * c.bx 1 2 * y * s ^ 2 - 1 * c.bx 1 3 * y * s ^ 3 - 1 * c.bx 1 4 * y * s ^ 4 + 2/3 * c.bx 1 2 * y ^ 3 + 2 * c.bx 1 3 * y ^ 3 * s + 4 * c.bx 1 4 * y ^ 3 * s ^ 2 - 3/5 * c.bx 1 4 * y ^ 5 + 1 * c.by_ 1 0 * x + 1 * c.by_ 1 1 * x * s + 1 * c.by_ 1 2 * x * s ^ 2 + 1 * c.by_ 1 3 * x * s ^ 3 + 1 * c.by_ 1 4 * x * s ^ 4 - 1 * c.by_ 1 2 * x * y ^ 2 - 3 * c.by_ 1 3 * x * y ^ 2 * s - 6 * c.by_ 1 4 * x * y ^ 2 * s ^ 2 + 1 * c.by_ 1 4 * x * y ^ 4 - 1 * c.bx 1 2 * x ^ 2 * y - 3 * c.bx 1 3 * x ^ 2 * y * s - 6 * c.bx 1 4 * x ^ 2 * y * s ^ 2 + 2 * c.bx 1 4 * x ^ 2 * y ^ 3

theorem By2_add (c : Coeffs) (x y s : ℝ) : By2 c x y s = By1 c x y s + dBy2 c x y s := by
  simp only [By2, By1, dBy2]; ring

/-- What the coefficients 1 add to `Bs`. -/
noncomputable def dBs2 (c : Coeffs) (x y s : ℝ) : ℝ :=
  -1/2 * c.bx 1 1 * y ^ 2 - 1 * c.bx 1 2 * y ^ 2 * s - 3/2 * c.bx 1 3 * y ^ 2 * s ^ 2 - 2 * c.bx 1 4 * y ^ 2 * s ^ 3 + 1/2 * c.bx 1 3 * y ^ 4 + 2 * c.bx 1 4 * y ^ 4 * s + 1 * c.by_ 1 1 * x * y + 2 * c.by_ 1 2 * x * y * s + 3 * c.by_ 1 3 * x * y * s ^ 2 + 4 * c.by_ 1 4 * x * y * s ^ 3 - 1 * c.by_ 1 3 * x * y ^ 3 - 4 * c.by_ 1 4 * x * y ^ 3 * s + 1/2 * c.bx 1 1 * x ^ 2 + 1 * c.bx 1 2 * x ^ 2 * s + 3/2 * c.bx 1 3 * x ^ 2 * s ^ 2 + 2 * c.bx 1 4 * x ^ 2 * s ^ 3 - 3/2 * c.bx 1 3 * x ^ 2 * y ^ 2 - 6 * c.bx 1 4 * x ^ 2 * y ^ 2 * s

theorem Bs2_add (c : Coeffs) (x y s : ℝ) : Bs2 c x y s = Bs1 c x y s + dBs2 c x y s := by
  simp only [Bs2, Bs1, dBs2]; ring

theorem dBx2_x (c : Coeffs) (x y s : ℝ) : dBx2 c x y s = horner
    [1 * c.by_ 1 0 * y + 1 * c.by_ 1 1 * y * s + 1 * c.by_ 1 2 * y * s ^ 2 + 1 * c.by_ 1 3 * y * s ^ 3 + 1 * c.by_ 1 4 * y * s ^ 4 - 1/3 * c.by_ 1 2 * y ^ 3 - 1 * c.by_ 1 3 * y ^ 3 * s - 2 * c.by_ 1 4 * y ^ 3 * s ^ 2 + 1/5 * c.by_ 1 4 * y ^ 5,
      1 * c.bx 1 0 + 1 * c.bx 1 1 * s + 1 * c.bx 1 2 * s ^ 2 + 1 * c.bx 1 3 * s ^ 3 + 1 * c.bx 1 4 * s ^ 4 - 1 * c.bx 1 2 * y ^ 2 - 3 * c.bx 1 3 * y ^ 2 * s - 6 * c.bx 1 4 * y ^ 2 * s ^ 2 + 1 * c.bx 1 4 * y ^ 4] x := by
  simp only [dBx2, horner]; ring

theorem dBx2_y (c : Coeffs) (x y s : ℝ) : dBx2 c x y s = horner
    [1 * c.bx 1 0 * x + 1 * c.bx 1 1 * x * s + 1 * c.bx 1 2 * x * s ^ 2 + 1 * c.bx 1 3 * x * s ^ 3 + 1 * c.bx 1 4 * x * s ^ 4,
      1 * c.by_ 1 0 + 1 * c.by_ 1 1 * s + 1 * c.by_ 1 2 * s ^ 2 + 1 * c.by_ 1 3 * s ^ 3 + 1 * c.by_ 1 4 * s ^ 4,
      -1 * c.bx 1 2 * x - 3 * c.bx 1 3 * x * s - 6 * c.bx 1 4 * x * s ^ 2,
      -1/3 * c.by_ 1 2 - 1 * c.by_ 1 3 * s - 2 * c.by_ 1 4 * s ^ 2,
      1 * c.bx 1 4 * x,
      1/5 * c.by_ 1 4] y := by
  simp only [dBx2, horner]; ring

theorem dBx2_s (c : Coeffs) (x y s : ℝ) : dBx2 c x y s = horner
    [1 * c.by_ 1 0 * y - 1/3 * c.by_ 1 2 * y ^ 3 + 1/5 * c.by_ 1 4 * y ^ 5 + 1 * c.bx 1 0 * x - 1 * c.bx 1 2 * x * y ^ 2 + 1 * c.bx 1 4 * x * y ^ 4,
      1 * c.by_ 1 1 * y - 1 * c.by_ 1 3 * y ^ 3 + 1 * c.bx 1 1 * x - 3 * c.bx 1 3 * x * y ^ 2,
      1 * c.by_ 1 2 * y - 2 * c.by_ 1 4 * y ^ 3 + 1 * c.bx 1 2 * x - 6 * c.bx 1 4 * x * y ^ 2,
      1 * c.by_ 1 3 * y + 1 * c.bx 1 3 * x,
      1 * c.by_ 1 4 * y + 1 * c.bx 1 4 * x] s := by
  simp only [dBx2, horner]; ring

theorem dBy2_x (c : Coeffs) (x y s : ℝ) : dBy2 c x y s = horner
    [-1 * c.bx 1 0 * y - 1 * c.bx 1 1 * y * s - 1 * c.bx 1 2 * y * s ^ 2 - 1 * c.bx 1 3 * y * s ^ 3 - 1 * c.bx 1 4 * y * s ^ 4 + 2/3 * c.bx 1 2 * y ^ 3 + 2 * c.bx 1 3 * y ^ 3 * s + 4 * c.bx 1 4 * y ^ 3 * s ^ 2 - 3/5 * c.bx 1 4 * y ^ 5,
      1 * c.by_ 1 0 + 1 * c.by_ 1 1 * s + 1 * c.by_ 1 2 * s ^ 2 + 1 * c.by_ 1 3 * s ^ 3 + 1 * c.by_ 1 4 * s ^ 4 - 1 * c.by_ 1 2 * y ^ 2 - 3 * c.by_ 1 3 * y ^ 2 * s - 6 * c.by_ 1 4 * y ^ 2 * s ^ 2 + 1 * c.by_ 1 4 * y ^ 4,
      -1 * c.bx 1 2 * y - 3 * c.bx 1 3 * y * s - 6 * c.bx 1 4 * y * s ^ 2 + 2 * c.bx 1 4 * y ^ 3] x := by
  simp only [dBy2, horner]; ring

theorem dBy2_y (c : Coeffs) (x y s : ℝ) : dBy2 c x y s = horner
    [1 * c.by_ 1 0 * x + 1 * c.by_ 1 1 * x * s + 1 * c.by_ 1 2 * x * s ^ 2 + 1 * c.by_ 1 3 * x * s ^ 3 + 1 * c.by_ 1 4 * x * s ^ 4,
      -1 * c.bx 1 0 - 1 * c.bx 1 1 * s - 1 * c.bx 1 2 * s ^ 2 - 1 * c.bx 1 3 * s ^ 3 - 1 * c.bx 1 4 * s ^ 4 - 1 * c.bx 1 2 * x ^ 2 - 3 * c.bx 1 3 * x ^ 2 * s - 6 * c.bx 1 4 * x ^ 2 * s ^ 2,
      -1 * c.by_ 1 2 * x - 3 * c.by_ 1 3 * x * s - 6 * c.by_ 1 4 * x * s ^ 2,
      2/3 * c.bx 1 2 + 2 * c.bx 1 3 * s + 4 * c.bx 1 4 * s ^ 2 + 2 * c.bx 1 4 * x ^ 2,
      1 * c.by_ 1 4 * x,
      -3/5 * c.bx 1 4] y := by
  simp only [dBy2, horner]; ring

theorem dBy2_s (c : Coeffs) (x y s : ℝ) : dBy2 c x y s = horner
    [-1 * c.bx 1 0 * y + 2/3 * c.bx 1 2 * y ^ 3 - 3/5 * c.bx 1 4 * y ^ 5 + 1 * c.by_ 1 0 * x - 1 * c.by_ 1 2 * x * y ^ 2 + 1 * c.by_ 1 4 * x * y ^ 4 - 1 * c.bx 1 2 * x ^ 2 * y + 2 * c.bx 1 4 * x ^ 2 * y ^ 3,
      -1 * c.bx 1 1 * y + 2 * c.bx 1 3 * y ^ 3 + 1 * c.by_ 1 1 * x - 3 * c.by_ 1 3 * x * y ^ 2 - 3 * c.bx 1 3 * x ^ 2 * y,
      -1 * c.bx 1 2 * y + 4 * c.bx 1 4 * y ^ 3 + 1 * c.by_ 1 2 * x - 6 * c.by_ 1 4 * x * y ^ 2 - 6 * c.bx 1 4 * x ^ 2 * y,
      -1 * c.bx 1 3 * y + 1 * c.by_ 1 3 * x,
      -1 * c.bx 1 4 * y + 1 * c.by_ 1 4 * x] s := by
  simp only [dBy2, horner]; ring

theorem dBs2_x (c : Coeffs) (x y s : ℝ) : dBs2 c x y s = horner
    [-1/2 * c.bx 1 1 * y ^ 2 - 1 * c.bx 1 2 * y ^ 2 * s - 3/2 * c.bx 1 3 * y ^ 2 * s ^ 2 - 2 * c.bx 1 4 * y ^ 2 * s ^ 3 + 1/2 * c.bx 1 3 * y ^ 4 + 2 * c.bx 1 4 * y ^ 4 * s,
      1 * c.by_ 1 1 * y + 2 * c.by_ 1 2 * y * s + 3 * c.by_ 1 3 * y * s ^ 2 + 4 * c.by_ 1 4 * y * s ^ 3 - 1 * c.by_ 1 3 * y ^ 3 - 4 * c.by_ 1 4 * y ^ 3 * s,
      1/2 * c.bx 1 1 + 1 * c.bx 1 2 * s + 3/2 * c.bx 1 3 * s ^ 2 + 2 * c.bx 1 4 * s ^ 3 - 3/2 * c.bx 1 3 * y ^ 2 - 6 * c.bx 1 4 * y ^ 2 * s] x := by
  simp only [dBs2, horner]; ring

theorem dBs2_y (c : Coeffs) (x y s : ℝ) : dBs2 c x y s = horner
    [1/2 * c.bx 1 1 * x ^ 2 + 1 * c.bx 1 2 * x ^ 2 * s + 3/2 * c.bx 1 3 * x ^ 2 * s ^ 2 + 2 * c.bx 1 4 * x ^ 2 * s ^ 3,
      1 * c.by_ 1 1 * x + 2 * c.by_ 1 2 * x * s + 3 * c.by_ 1 3 * x * s ^ 2 + 4 * c.by_ 1 4 * x * s ^ 3,
      -1/2 * c.bx 1 1 - 1 * c.bx 1 2 * s - 3/2 * c.bx 1 3 * s ^ 2 - 2 * c.bx 1 4 * s ^ 3 - 3/2 * c.bx 1 3 * x ^ 2 - 6 * c.bx 1 4 * x ^ 2 * s,
      -1 * c.by_ 1 3 * x - 4 * c.by_ 1 4 * x * s,
      1/2 * c.bx 1 3 + 2 * c.bx 1 4 * s] y := by
  simp only [dBs2, horner]; ring

theorem dBs2_s (c : Coeffs) (x y s : ℝ) : dBs2 c x y s = horner
    [-1/2 * c.bx 1 1 * y ^ 2 + 1/2 * c.bx 1 3 * y ^ 4 + 1 * c.by_ 1 1 * x * y - 1 * c.by_ 1 3 * x * y ^ 3 + 1/2 * c.bx 1 1 * x ^ 2 - 3/2 * c.bx 1 3 * x ^ 2 * y ^ 2,
      -1 * c.bx 1 2 * y ^ 2 + 2 * c.bx 1 4 * y ^ 4 + 2 * c.by_ 1 2 * x * y - 4 * c.by_ 1 4 * x * y ^ 3 + 1 * c.bx 1 2 * x ^ 2 - 6 * c.bx 1 4 * x ^ 2 * y ^ 2,
      -3/2 * c.bx 1 3 * y ^ 2 + 3 * c.by_ 1 3 * x * y + 3/2 * c.bx 1 3 * x ^ 2,
      -2 * c.bx 1 4 * y ^ 2 + 4 * c.by_ 1 4 * x * y + 2 * c.bx 1 4 * x ^ 2] s := by
  simp only [dBs2, horner]; ring

theorem dmaxwell2 (c : Coeffs) (x y s : ℝ) : Vacuum (dBx2 c) (dBy2 c) (dBs2 c) x y s := by
  have hBxx : HasDerivAt (fun t => dBx2 c t y s) _ x :=
    (horner_deriv _ x).congr_of_eventuallyEq (Filter.Eventually.of_forall fun t => dBx2_x c t y s)
  have hBxy : HasDerivAt (fun t => dBx2 c x t s) _ y :=
    (horner_deriv _ y).congr_of_eventuallyEq (Filter.Eventually.of_forall fun t => dBx2_y c x t s)
  have hBxs : HasDerivAt (fun t => dBx2 c x y t) _ s :=
    (horner_deriv _ s).congr_of_eventuallyEq (Filter.Eventually.of_forall fun t => dBx2_s c x y t)
  have hByx : HasDerivAt (fun t => dBy2 c t y s) _ x :=
    (horner_deriv _ x).congr_of_eventuallyEq (Filter.Eventually.of_forall fun t => dBy2_x c t y s)
  have hByy : HasDerivAt (fun t => dBy2 c x t s) _ y :=
    (horner_deriv _ y).congr_of_eventuallyEq (Filter.Eventually.of_forall fun t => dBy2_y c x t s)
  have hBys : HasDerivAt (fun t => dBy2 c x y t) _ s :=
    (horner_deriv _ s).congr_of_eventuallyEq (Filter.Eventually.of_forall fun t => dBy2_s c x y t)
  have hBsx : HasDerivAt (fun t => dBs2 c t y s) _ x :=
    (horner_deriv _ x).congr_of_eventuallyEq (Filter.Eventually.of_forall fun t => dBs2_x c t y s)
  have hBsy : HasDerivAt (fun t => dBs2 c x t s) _ y :=
    (horner_deriv _ y).congr_of_eventuallyEq (Filter.Eventually.of_forall fun t => dBs2_y c x t s)
  have hBss : HasDerivAt (fun t => dBs2 c x y t) _ s :=
    (horner_deriv _ s).congr_of_eventuallyEq (Filter.Eventually.of_forall fun t => dBs2_s c x y t)
  refine ⟨_, _, _, _, _, _, _, _, _, hBxx, hBxy, hBxs, hByx, hByy, hBys, hBsx, hBsy, hBss, ?_, ?_, ?_, ?_⟩ <;>
    (simp only [dhorner, horner]; ring)

theorem maxwell2 (c : Coeffs) (x y s : ℝ) : Vacuum (Bx2 c) (By2 c) (Bs2 c) x y s := by
  rw [show Bx2 c = fun x y s => Bx1 c x y s + dBx2 c x y s from funext fun x => funext fun y => funext fun s => Bx2_add c x y s,
    show By2 c = fun x y s => By1 c x y s + dBy2 c x y s from funext fun x => funext fun y => funext fun s => By2_add c x y s,
    show Bs2 c = fun x y s => Bs1 c x y s + dBs2 c x y s from funext fun x => funext fun y => funext fun s => Bs2_add c x y s]
  exact (maxwell1 c x y s).add (dmaxwell2 c x y s)

theorem midplane2 (c : Coeffs) (x s : ℝ) :
    Bx2 c x 0 s = x ^ 0 / 1 * poly (c.bx 0) s + x ^ 1 / 1 * poly (c.bx 1) s ∧
    By2 c x 0 s = x ^ 0 / 1 * poly (c.by_ 0) s + x ^ 1 / 1 * poly (c.by_ 1) s ∧
    Bs2 c 0 0 s = poly c.bs s := by
  obtain ⟨h1, h2, h3⟩ := midplane1 c x s
  rw [Bx2_add, By2_add, Bs2_add, h1, h2, h3]
  refine ⟨?_, ?_, ?_⟩
  · simp only [dBx2, poly]; ring
  · simp only [dBy2, poly]; ring
  · simp only [dBs2, poly]; ring

end Verif.Boris
