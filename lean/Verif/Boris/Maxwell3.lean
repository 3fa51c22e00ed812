import Verif.Boris.Field
import Verif.Boris.Horner
import Verif.Boris.Maxwell2

/-! The field for the multipole order 3 has no divergence and no curl: it is that for the order 2 and
the terms of the last coefficients. -/

namespace Verif.Boris

/-- What the coefficients 2 add to `Bx`. -/
noncomputable def dBx3 (c : Coeffs) (x y s : ℝ) : ℝ :=
  -1/2 * c.bx 2 0 * y ^ 2 - 1/2 * c.bx 2 1 * y ^ 2 * s - 1/2 * c.bx 2 2 * y ^ 2 * s ^ 2 - 1/2 * c.bx 2 3 * y ^ 2 * s ^ 3 - 1/2 * c.bx 2 4 * y ^ 2 * s ^ 4 + 1/6 * c.bx 2 2 * y ^ 4 + 1/2 * c.bx 2 3 * y ^ 4 * s + 1 * c.bx 2 4 * y ^ 4 * s ^ 2 - 1/10 * c.bx 2 4 * y ^ 6 + 1 * c.by_ 2 0 * x * y + 1 * c.by_ 2 1 * x * y * s + 1 * c.by_ 2 2 * x * y * s ^ 2 + 1 * c.by_ 2 3 * x * y * s ^ 3 + 1 * c.by_ 2 4 * x * y * s ^ 4 - 1/3 * c.by_ 2 2 * x * y ^ 3 - 1 * c.by_ 2 3 * x * y ^ 3 * s - 2 * c.by_ 2 4 * x * y ^ 3 * s ^ 2 + 1/5 * c.by_ 2 4 * x * y ^ 5 + 1/2 * c.bx 2 0 * x ^ 2 + 1/2 * c.bx 2 1 * x ^ 2 * s + 1/2 * c.bx 2 2 * x ^ 2 * s ^ 2 + 1/2 * c.bx 2 3 * x ^ 2 * s ^ 3 + 1/2 * c.bx 2 4 * x ^ 2 * s ^ 4 - 1/2 * c.bx 2 2 * x ^ 2 * y ^ 2 - 3/2 * c.bx 2 3 * x ^ 2 * y ^ 2 * s - 3 * c.bx 2 4 * x ^ 2 * y ^ 2 * s ^ 2 + 1/2 * c.bx 2 4 * x ^ 2 * y ^ 4

theorem Bx3_add (c : Coeffs) (x y s : ℝ) : Bx3 c x y s = Bx2 c x y s + dBx3 c x y s := by
  simp only [Bx3, Bx2, dBx3]; ring

/-- What the coefficients 2 add to `By`. -/
noncomputable def dBy3 (c : Coeffs) (x y s : ℝ) : ℝ :=
  -1/2 * c.by_ 2 0 * y ^ 2 - 1/2 * c.by_ 2 1 * y ^ 2 * s - 1/2 * c.by_ 2 2 * y ^ 2 * s ^ 2 - 1/2 * c.by_ 2 3 * y ^ 2 * s ^ 3 - 1/2 * c.by_ 2 4 * y ^ 2 * s ^ 4 + 1/6 * c.by_ 2 2 * y ^ 4 + 1/2 * c.by_ 2 3 * y ^ 4 * s + 1 * c.by_ 2 4 * y ^ 4 * s ^ 2 - 1/10 * c.by_ 2 4 * y ^ 6 - 1 * c.bx 2 0 * x * y - 1 * c.bx 2 1 * x * y * s - 1 * c.bx 2 2 * x * y * s ^ 2 - 1 * c.bx 2 3 * x * y * s ^ 3 - 1 * c.bx 2 4 * x * y * s ^ 4 + 2/3 * c.bx 2 2 * x * y ^ 3 + 2 * c.bx 2 3 * x * y ^ 3 * s + 4 * c.bx 2 4 * x * y ^ 3 * s ^ 2 - 3/5 * c.bx 2 4 * x * y ^ 5 + 1/2 * c.by_ 2 0 * x ^ 2 + 1/2 * c.by_ 2 1 * x ^ 2 * s + 1/2 * c.by_ 2 2 * x ^ 2 * s ^ 2 + 1/2 * c.by_ 2 3 * x ^ 2 * s ^ 3 + 1/2 * c.by_ 2 4 * x ^ 2 * s ^ 4 - 1/2 * c.by_ 2 2 * x ^ 2 * y ^ 2 - 3/2 * c.by_ 2 3 * x ^ 2 * y ^ 2 * s - 3 * c.by_ 2 4 * x ^ 2 * y ^ 2 * s ^ 2 + 1/2 * c.by_ 2 4 * x ^ 2 * y ^ 4 - 1/3 * c.bx 2 2 * x ^ 3 * y - 1 * c.bx 2 3 * x ^ 3 * y * s - 2 * c.bx 2 4 * x ^ 3 * y * s ^ 2 + 2/3 * c.bx 2 4 * x ^ 3 * y ^ 3

theorem By3_add (c : Coeffs) (x y s : ℝ) : By3 c x y s = By2 c x y s + dBy3 c x y s := by
  simp only [By3, By2, dBy3]; ring

/-- What the coefficients 2 add to `Bs`. -/
noncomputable def dBs3 (c : Coeffs) (x y s : ℝ) : ℝ :=
  -1/6 * c.by_ 2 1 * y ^ 3 - 1/3 * c.by_ 2 2 * y ^ 3 * s - 1/2 * c.by_ 2 3 * y ^ 3 * s ^ 2 - 2/3 * c.by_ 2 4 * y ^ 3 * s ^ 3 + 1/10 * c.by_ 2 3 * y ^ 5 + 2/5 * c.by_ 2 4 * y ^ 5 * s - 1/2 * c.bx 2 1 * x * y ^ 2 - 1 * c.bx 2 2 * x * y ^ 2 * s - 3/2 * c.bx 2 3 * x * y ^ 2 * s ^ 2 - 2 * c.bx 2 4 * x * y ^ 2 * s ^ 3 + 1/2 * c.bx 2 3 * x * y ^ 4 + 2 * c.bx 2 4 * x * y ^ 4 * s + 1/2 * c.by_ 2 1 * x ^ 2 * y + 1 * c.by_ 2 2 * x ^ 2 * y * s + 3/2 * c.by_ 2 3 * x ^ 2 * y * s ^ 2 + 2 * c.by_ 2 4 * x ^ 2 * y * s ^ 3 - 1/2 * c.by_ 2 3 * x ^ 2 * y ^ 3 - 2 * c.by_ 2 4 * x ^ 2 * y ^ 3 * s + 1/6 * c.bx 2 1 * x ^ 3 + 1/3 * c.bx 2 2 * x ^ 3 * s + 1/2 * c.bx 2 3 * x ^ 3 * s ^ 2 + 2/3 * c.bx 2 4 * x ^ 3 * s ^ 3 - 1/2 * c.bx 2 3 * x ^ 3 * y ^ 2 - 2 * c.bx 2 4 * x ^ 3 * y ^ 2 * s

theorem Bs3_add (c : Coeffs) (x y s : ℝ) : Bs3 c x y s = Bs2 c x y s + dBs3 c x y s := by
  simp only [Bs3, Bs2, dBs3]; ring

theorem dBx3_x (c : Coeffs) (x y s : ℝ) : dBx3 c x y s = horner
    [-1/2 * c.bx 2 0 * y ^ 2 - 1/2 * c.bx 2 1 * y ^ 2 * s - 1/2 * c.bx 2 2 * y ^ 2 * s ^ 2 - 1/2 * c.bx 2 3 * y ^ 2 * s ^ 3 - 1/2 * c.bx 2 4 * y ^ 2 * s ^ 4 + 1/6 * c.bx 2 2 * y ^ 4 + 1/2 * c.bx 2 3 * y ^ 4 * s + 1 * c.bx 2 4 * y ^ 4 * s ^ 2 - 1/10 * c.bx 2 4 * y ^ 6,
      1 * c.by_ 2 0 * y + 1 * c.by_ 2 1 * y * s + 1 * c.by_ 2 2 * y * s ^ 2 + 1 * c.by_ 2 3 * y * s ^ 3 + 1 * c.by_ 2 4 * y * s ^ 4 - 1/3 * c.by_ 2 2 * y ^ 3 - 1 * c.by_ 2 3 * y ^ 3 * s - 2 * c.by_ 2 4 * y ^ 3 * s ^ 2 + 1/5 * c.by_ 2 4 * y ^ 5,
      1/2 * c.bx 2 0 + 1/2 * c.bx 2 1 * s + 1/2 * c.bx 2 2 * s ^ 2 + 1/2 * c.bx 2 3 * s ^ 3 + 1/2 * c.bx 2 4 * s ^ 4 - 1/2 * c.bx 2 2 * y ^ 2 - 3/2 * c.bx 2 3 * y ^ 2 * s - 3 * c.bx 2 4 * y ^ 2 * s ^ 2 + 1/2 * c.bx 2 4 * y ^ 4] x := by
  simp only [dBx3, horner]; ring

theorem dBx3_y (c : Coeffs) (x y s : ℝ) : dBx3 c x y s = horner
    [1/2 * c.bx 2 0 * x ^ 2 + 1/2 * c.bx 2 1 * x ^ 2 * s + 1/2 * c.bx 2 2 * x ^ 2 * s ^ 2 + 1/2 * c.bx 2 3 * x ^ 2 * s ^ 3 + 1/2 * c.bx 2 4 * x ^ 2 * s ^ 4,
      1 * c.by_ 2 0 * x + 1 * c.by_ 2 1 * x * s + 1 * c.by_ 2 2 * x * s ^ 2 + 1 * c.by_ 2 3 * x * s ^ 3 + 1 * c.by_ 2 4 * x * s ^ 4,
      -1/2 * c.bx 2 0 - 1/2 * c.bx 2 1 * s - 1/2 * c.bx 2 2 * s ^ 2 - 1/2 * c.bx 2 3 * s ^ 3 - 1/2 * c.bx 2 4 * s ^ 4 - 1/2 * c.bx 2 2 * x ^ 2 - 3/2 * c.bx 2 3 * x ^ 2 * s - 3 * c.bx 2 4 * x ^ 2 * s ^ 2,
      -1/3 * c.by_ 2 2 * x - 1 * c.by_ 2 3 * x * s - 2 * c.by_ 2 4 * x * s ^ 2,
      1/6 * c.bx 2 2 + 1/2 * c.bx 2 3 * s + 1 * c.bx 2 4 * s ^ 2 + 1/2 * c.bx 2 4 * x ^ 2,
      1/5 * c.by_ 2 4 * x,
      -1/10 * c.bx 2 4] y := by
  simp only [dBx3, horner]; ring

theorem dBx3_s (c : Coeffs) (x y s : ℝ) : dBx3 c x y s = horner
    [-1/2 * c.bx 2 0 * y ^ 2 + 1/6 * c.bx 2 2 * y ^ 4 - 1/10 * c.bx 2 4 * y ^ 6 + 1 * c.by_ 2 0 * x * y - 1/3 * c.by_ 2 2 * x * y ^ 3 + 1/5 * c.by_ 2 4 * x * y ^ 5 + 1/2 * c.bx 2 0 * x ^ 2 - 1/2 * c.bx 2 2 * x ^ 2 * y ^ 2 + 1/2 * c.bx 2 4 * x ^ 2 * y ^ 4,
      -1/2 * c.bx 2 1 * y ^ 2 + 1/2 * c.bx 2 3 * y ^ 4 + 1 * c.by_ 2 1 * x * y - 1 * c.by_ 2 3 * x * y ^ 3 + 1/2 * c.bx 2 1 * x ^ 2 - 3/2 * c.bx 2 3 * x ^ 2 * y ^ 2,
      -1/2 * c.bx 2 2 * y ^ 2 + 1 * c.bx 2 4 * y ^ 4 + 1 * c.by_ 2 2 * x * y - 2 * c.by_ 2 4 * x * y ^ 3 + 1/2 * c.bx 2 2 * x ^ 2 - 3 * c.bx 2 4 * x ^ 2 * y ^ 2,
      -1/2 * c.bx 2 3 * y ^ 2 + 1 * c.by_ 2 3 * x * y + 1/2 * c.bx 2 3 * x ^ 2,
      -1/2 * c.bx 2 4 * y ^ 2 + 1 * c.by_ 2 4 * x * y + 1/2 * c.bx 2 4 * x ^ 2] s := by
  simp only [dBx3, horner]; ring

theorem dBy3_x (c : Coeffs) (x y s : ℝ) : dBy3 c x y s = horner
    [-1/2 * c.by_ 2 0 * y ^ 2 - 1/2 * c.by_ 2 1 * y ^ 2 * s - 1/2 * c.by_ 2 2 * y ^ 2 * s ^ 2 - 1/2 * c.by_ 2 3 * y ^ 2 * s ^ 3 - 1/2 * c.by_ 2 4 * y ^ 2 * s ^ 4 + 1/6 * c.by_ 2 2 * y ^ 4 + 1/2 * c.by_ 2 3 * y ^ 4 * s + 1 * c.by_ 2 4 * y ^ 4 * s ^ 2 - 1/10 * c.by_ 2 4 * y ^ 6,
      -1 * c.bx 2 0 * y - 1 * c.bx 2 1 * y * s - 1 * c.bx 2 2 * y * s ^ 2 - 1 * c.bx 2 3 * y * s ^ 3 - 1 * c.bx 2 4 * y * s ^ 4 + 2/3 * c.bx 2 2 * y ^ 3 + 2 * c.bx 2 3 * y ^ 3 * s + 4 * c.bx 2 4 * y ^ 3 * s ^ 2 - 3/5 * c.bx 2 4 * y ^ 5,
      1/2 * c.by_ 2 0 + 1/2 * c.by_ 2 1 * s + 1/2 * c.by_ 2 2 * s ^ 2 + 1/2 * c.by_ 2 3 * s ^ 3 + 1/2 * c.by_ 2 4 * s ^ 4 - 1/2 * c.by_ 2 2 * y ^ 2 - 3/2 * c.by_ 2 3 * y ^ 2 * s - 3 * c.by_ 2 4 * y ^ 2 * s ^ 2 + 1/2 * c.by_ 2 4 * y ^ 4,
      -1/3 * c.bx 2 2 * y - 1 * c.bx 2 3 * y * s - 2 * c.bx 2 4 * y * s ^ 2 + 2/3 * c.bx 2 4 * y ^ 3] x := by
  simp only [dBy3, horner]; ring

theorem dBy3_y (c : Coeffs) (x y s : ℝ) : dBy3 c x y s = horner
    [1/2 * c.by_ 2 0 * x ^ 2 + 1/2 * c.by_ 2 1 * x ^ 2 * s + 1/2 * c.by_ 2 2 * x ^ 2 * s ^ 2 + 1/2 * c.by_ 2 3 * x ^ 2 * s ^ 3 + 1/2 * c.by_ 2 4 * x ^ 2 * s ^ 4,
      -1 * c.bx 2 0 * x - 1 * c.bx 2 1 * x * s - 1 * c.bx 2 2 * x * s ^ 2 - 1 * c.bx 2 3 * x * s ^ 3 - 1 * c.bx 2 4 * x * s ^ 4 - 1/3 * c.bx 2 2 * x ^ 3 - 1 * c.bx 2 3 * x ^ 3 * s - 2 * c.bx 2 4 * x ^ 3 * s ^ 2,
      -1/2 * c.by_ 2 0 - 1/2 * c.by_ 2 1 * s - 1/2 * c.by_ 2 2 * s ^ 2 - 1/2 * c.by_ 2 3 * s ^ 3 - 1/2 * c.by_ 2 4 * s ^ 4 - 1/2 * c.by_ 2 2 * x ^ 2 - 3/2 * c.by_ 2 3 * x ^ 2 * s - 3 * c.by_ 2 4 * x ^ 2 * s ^ 2,
      2/3 * c.bx 2 2 * x + 2 * c.bx 2 3 * x * s + 4 * c.bx 2 4 * x * s ^ 2 + 2/3 * c.bx 2 4 * x ^ 3,
      1/6 * c.by_ 2 2 + 1/2 * c.by_ 2 3 * s + 1 * c.by_ 2 4 * s ^ 2 + 1/2 * c.by_ 2 4 * x ^ 2,
      -3/5 * c.bx 2 4 * x,
      -1/10 * c.by_ 2 4] y := by
  simp only [dBy3, horner]; ring

theorem dBy3_s (c : Coeffs) (x y s : ℝ) : dBy3 c x y s = horner
    [-1/2 * c.by_ 2 0 * y ^ 2 + 1/6 * c.by_ 2 2 * y ^ 4 - 1/10 * c.by_ 2 4 * y ^ 6 - 1 * c.bx 2 0 * x * y + 2/3 * c.bx 2 2 * x * y ^ 3 - 3/5 * c.bx 2 4 * x * y ^ 5 + 1/2 * c.by_ 2 0 * x ^ 2 - 1/2 * c.by_ 2 2 * x ^ 2 * y ^ 2 + 1/2 * c.by_ 2 4 * x ^ 2 * y ^ 4 - 1/3 * c.bx 2 2 * x ^ 3 * y + 2/3 * c.bx 2 4 * x ^ 3 * y ^ 3,
      -1/2 * c.by_ 2 1 * y ^ 2 + 1/2 * c.by_ 2 3 * y ^ 4 - 1 * c.bx 2 1 * x * y + 2 * c.bx 2 3 * x * y ^ 3 + 1/2 * c.by_ 2 1 * x ^ 2 - 3/2 * c.by_ 2 3 * x ^ 2 * y ^ 2 - 1 * c.bx 2 3 * x ^ 3 * y,
      -1/2 * c.by_ 2 2 * y ^ 2 + 1 * c.by_ 2 4 * y ^ 4 - 1 * c.bx 2 2 * x * y + 4 * c.bx 2 4 * x * y ^ 3 + 1/2 * c.by_ 2 2 * x ^ 2 - 3 * c.by_ 2 4 * x ^ 2 * y ^ 2 - 2 * c.bx 2 4 * x ^ 3 * y,
      -1/2 * c.by_ 2 3 * y ^ 2 - 1 * c.bx 2 3 * x * y + 1/2 * c.by_ 2 3 * x ^ 2,
      -1/2 * c.by_ 2 4 * y ^ 2 - 1 * c.bx 2 4 * x * y + 1/2 * c.by_ 2 4 * x ^ 2] s := by
  simp only [dBy3, horner]; ring

theorem dBs3_x (c : Coeffs) (x y s : ℝ) : dBs3 c x y s = horner
    [-1/6 * c.by_ 2 1 * y ^ 3 - 1/3 * c.by_ 2 2 * y ^ 3 * s - 1/2 * c.by_ 2 3 * y ^ 3 * s ^ 2 - 2/3 * c.by_ 2 4 * y ^ 3 * s ^ 3 + 1/10 * c.by_ 2 3 * y ^ 5 + 2/5 * c.by_ 2 4 * y ^ 5 * s,
      -1/2 * c.bx 2 1 * y ^ 2 - 1 * c.bx 2 2 * y ^ 2 * s - 3/2 * c.bx 2 3 * y ^ 2 * s ^ 2 - 2 * c.bx 2 4 * y ^ 2 * s ^ 3 + 1/2 * c.bx 2 3 * y ^ 4 + 2 * c.bx 2 4 * y ^ 4 * s,
      1/2 * c.by_ 2 1 * y + 1 * c.by_ 2 2 * y * s + 3/2 * c.by_ 2 3 * y * s ^ 2 + 2 * c.by_ 2 4 * y * s ^ 3 - 1/2 * c.by_ 2 3 * y ^ 3 - 2 * c.by_ 2 4 * y ^ 3 * s,
      1/6 * c.bx 2 1 + 1/3 * c.bx 2 2 * s + 1/2 * c.bx 2 3 * s ^ 2 + 2/3 * c.bx 2 4 * s ^ 3 - 1/2 * c.bx 2 3 * y ^ 2 - 2 * c.bx 2 4 * y ^ 2 * s] x := by
  simp only [dBs3, horner]; ring

theorem dBs3_y (c : Coeffs) (x y s : ℝ) : dBs3 c x y s = horner
    [1/6 * c.bx 2 1 * x ^ 3 + 1/3 * c.bx 2 2 * x ^ 3 * s + 1/2 * c.bx 2 3 * x ^ 3 * s ^ 2 + 2/3 * c.bx 2 4 * x ^ 3 * s ^ 3,
      1/2 * c.by_ 2 1 * x ^ 2 + 1 * c.by_ 2 2 * x ^ 2 * s + 3/2 * c.by_ 2 3 * x ^ 2 * s ^ 2 + 2 * c.by_ 2 4 * x ^ 2 * s ^ 3,
      -1/2 * c.bx 2 1 * x - 1 * c.bx 2 2 * x * s - 3/2 * c.bx 2 3 * x * s ^ 2 - 2 * c.bx 2 4 * x * s ^ 3 - 1/2 * c.bx 2 3 * x ^ 3 - 2 * c.bx 2 4 * x ^ 3 * s,
      -1/6 * c.by_ 2 1 - 1/3 * c.by_ 2 2 * s - 1/2 * c.by_ 2 3 * s ^ 2 - 2/3 * c.by_ 2 4 * s ^ 3 - 1/2 * c.by_ 2 3 * x ^ 2 - 2 * c.by_ 2 4 * x ^ 2 * s,
      1/2 * c.bx 2 3 * x + 2 * c.bx 2 4 * x * s,
      1/10 * c.by_ 2 3 + 2/5 * c.by_ 2 4 * s] y := by
  simp only [dBs3, horner]; ring

theorem dBs3_s (c : Coeffs) (x y s : ℝ) : dBs3 c x y s = horner
    [-1/6 * c.by_ 2 1 * y ^ 3 + 1/10 * c.by_ 2 3 * y ^ 5 - 1/2 * c.bx 2 1 * x * y ^ 2 + 1/2 * c.bx 2 3 * x * y ^ 4 + 1/2 * c.by_ 2 1 * x ^ 2 * y - 1/2 * c.by_ 2 3 * x ^ 2 * y ^ 3 + 1/6 * c.bx 2 1 * x ^ 3 - 1/2 * c.bx 2 3 * x ^ 3 * y ^ 2,
      -1/3 * c.by_ 2 2 * y ^ 3 + 2/5 * c.by_ 2 4 * y ^ 5 - 1 * c.bx 2 2 * x * y ^ 2 + 2 * c.bx 2 4 * x * y ^ 4 + 1 * c.by_ 2 2 * x ^ 2 * y - 2 * c.by_ 2 4 * x ^ 2 * y ^ 3 + 1/3 * c.bx 2 2 * x ^ 3 - 2 * c.bx 2 4 * x ^ 3 * y ^ 2,
      -1/2 * c.by_ 2 3 * y ^ 3 - 3/2 * c.bx 2 3 * x * y ^ 2 + 3/2 * c.by_ 2 3 * x ^ 2 * y + 1/2 * c.bx 2 3 * x ^ 3,
      -2/3 * c.by_ 2 4 * y ^ 3 - 2 * c.bx 2 4 * x * y ^ 2 + 2 * c.by_ 2 4 * x ^ 2 * y + 2/3 * c.bx 2 4 * x ^ 3] s := by
  simp only [dBs3, horner]; ring

theorem dmaxwell3 (c : Coeffs) (x y s : ℝ) : Vacuum (dBx3 c) (dBy3 c) (dBs3 c) x y s := by
  have hBxx : HasDerivAt (fun t => dBx3 c t y s) _ x :=
    (horner_deriv _ x).congr_of_eventuallyEq (Filter.Eventually.of_forall fun t => dBx3_x c t y s)
  have hBxy : HasDerivAt (fun t => dBx3 c x t s) _ y :=
    (horner_deriv _ y).congr_of_eventuallyEq (Filter.Eventually.of_forall fun t => dBx3_y c x t s)
  have hBxs : HasDerivAt (fun t => dBx3 c x y t) _ s :=
    (horner_deriv _ s).congr_of_eventuallyEq (Filter.Eventually.of_forall fun t => dBx3_s c x y t)
  have hByx : HasDerivAt (fun t => dBy3 c t y s) _ x :=
    (horner_deriv _ x).congr_of_eventuallyEq (Filter.Eventually.of_forall fun t => dBy3_x c t y s)
  have hByy : HasDerivAt (fun t => dBy3 c x t s) _ y :=
    (horner_deriv _ y).congr_of_eventuallyEq (Filter.Eventually.of_forall fun t => dBy3_y c x t s)
  have hBys : HasDerivAt (fun t => dBy3 c x y t) _ s :=
    (horner_deriv _ s).congr_of_eventuallyEq (Filter.Eventually.of_forall fun t => dBy3_s c x y t)
  have hBsx : HasDerivAt (fun t => dBs3 c t y s) _ x :=
    (horner_deriv _ x).congr_of_eventuallyEq (Filter.Eventually.of_forall fun t => dBs3_x c t y s)
  have hBsy : HasDerivAt (fun t => dBs3 c x t s) _ y :=
    (horner_deriv _ y).congr_of_eventuallyEq (Filter.Eventually.of_forall fun t => dBs3_y c x t s)
  have hBss : HasDerivAt (fun t => dBs3 c x y t) _ s :=
    (horner_deriv _ s).congr_of_eventuallyEq (Filter.Eventually.of_forall fun t => dBs3_s c x y t)
  refine ⟨_, _, _, _, _, _, _, _, _, hBxx, hBxy, hBxs, hByx, hByy, hBys, hBsx, hBsy, hBss, ?_, ?_, ?_, ?_⟩ <;>
    (simp only [dhorner, horner]; ring)

theorem maxwell3 (c : Coeffs) (x y s : ℝ) : Vacuum (Bx3 c) (By3 c) (Bs3 c) x y s := by
  rw [show Bx3 c = fun x y s => Bx2 c x y s + dBx3 c x y s from funext fun x => funext fun y => funext fun s => Bx3_add c x y s,
    show By3 c = fun x y s => By2 c x y s + dBy3 c x y s from funext fun x => funext fun y => funext fun s => By3_add c x y s,
    show Bs3 c = fun x y s => Bs2 c x y s + dBs3 c x y s from funext fun x => funext fun y => funext fun s => Bs3_add c x y s]
  exact (maxwell2 c x y s).add (dmaxwell3 c x y s)

theorem midplane3 (c : Coeffs) (x s : ℝ) :
    Bx3 c x 0 s = x ^ 0 / 1 * poly (c.bx 0) s + x ^ 1 / 1 * poly (c.bx 1) s + x ^ 2 / 2 * poly (c.bx 2) s ∧
    By3 c x 0 s = x ^ 0 / 1 * poly (c.by_ 0) s + x ^ 1 / 1 * poly (c.by_ 1) s + x ^ 2 / 2 * poly (c.by_ 2) s ∧
    Bs3 c 0 0 s = poly c.bs s := by
  obtain ⟨h1, h2, h3⟩ := midplane2 c x s
  rw [Bx3_add, By3_add, Bs3_add, h1, h2, h3]
  refine ⟨?_, ?_, ?_⟩
  · simp only [dBx3, poly]; ring
  · simp only [dBy3, poly]; ring
  · simp only [dBs3, poly]; ring

end Verif.Boris
