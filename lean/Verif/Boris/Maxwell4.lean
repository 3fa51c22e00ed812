import Verif.Boris.Field
import Verif.Boris.Horner
import Verif.Boris.Maxwell3

/-! The field for the multipole order 4 has no divergence and no curl: it is that for the order 3 and
the terms of the last coefficients. -/

namespace Verif.Boris

/-- What the coefficients 3 add to `Bx`. -/
noncomputable def dBx4 (c : Coeffs) (x y s : ℝ) : ℝ :=
  -1/6 * c.by_ 3 0 * y ^ 3 - 1/6 * c.by_ 3 1 * y ^ 3 * s - 1/6 * c.by_ 3 2 * y ^ 3 * s ^ 2 - 1/6 * c.by_ 3 3 * y ^ 3 * s ^ 3 - 1/6 * c.by_ 3 4 * y ^ 3 * s ^ 4 + 1/30 * c.by_ 3 2 * y ^ 5 + 1/10 * c.by_ 3 3 * y ^ 5 * s + 1/5 * c.by_ 3 4 * y ^ 5 * s ^ 2 - 1/70 * c.by_ 3 4 * y ^ 7 - 1/2 * c.bx 3 0 * x * y ^ 2 - 1/2 * c.bx 3 1 * x * y ^ 2 * s - 1/2 * c.bx 3 2 * x * y ^ 2 * s ^ 2 - 1/2 * c.bx 3 3 * x * y ^ 2 * s ^ 3 - 1/2 * c.bx 3 4 * x * y ^ 2 * s ^ 4 + 1/6 * c.bx 3 2 * x * y ^ 4 + 1/2 * c.bx 3 3 * x * y ^ 4 * s + 1 * c.bx 3 4 * x * y ^ 4 * s ^ 2 - 1/10 * c.bx 3 4 * x * y ^ 6 + 1/2 * c.by_ 3 0 * x ^ 2 * y + 1/2 * c.by_ 3 1 * x ^ 2 * y * s + 1/2 * c.by_ 3 2 * x ^ 2 * y * s ^ 2 + 1/2 * c.by_ 3 3 * x ^ 2 * y * s ^ 3 + 1/2 * c.by_ 3 4 * x ^ 2 * y * s ^ 4 - 1/6 * c.by_ 3 2 * x ^ 2 * y ^ 3 - 1/2 * c.by_ 3 3 * x ^ 2 * y ^ 3 * s - 1 * c.by_ 3 4 * x ^ 2 * y ^ 3 * s ^ 2 + 1/10 * c.by_ 3 4 * x ^ 2 * y ^ 5 + 1/6 * c.bx 3 0 * x ^ 3 + 1/6 * c.bx 3 1 * x ^ 3 * s + 1/6 * c.bx 3 2 * x ^ 3 * s ^ 2 + 1/6 * c.bx 3 3 * x ^ 3 * s ^ 3 + 1/6 * c.bx 3 4 * x ^ 3 * s ^ 4 - 1/6 * c.bx 3 2 * x ^ 3 * y ^ 2 - 1/2 * c.bx 3 3 * x ^ 3 * y ^ 2 * s - 1 * c.bx 3 4 * x ^ 3 * y ^ 2 * s ^ 2 + 1/6 * c.bx 3 4 * x ^ 3 * y ^ 4

theorem Bx4_add (c : Coeffs) (x y s : ℝ) : Bx4 c x y s = Bx3 c x y s + dBx4 c x y s := by
  simp only [Bx4, Bx3, dBx4]; ring

/-- What the coefficients 3 add to `By`. -/
noncomputable def dBy4 (c : Coeffs) (x y s : ℝ) : ℝ :=
  1/6 * c.bx 3 0 * y ^ 3 + 1/6 * c.bx 3 1 * y ^ 3 * s + 1/6 * c.bx 3 2 * y ^ 3 * s ^ 2 + 1/6 * c.bx 3 3 * y ^ 3 * s ^ 3 + 1/6 * c.bx 3 4 * y ^ 3 * s ^ 4 - 1/20 * c.bx 3 2 * y ^ 5 - 3/20 * c.bx 3 3 * y ^ 5 * s - 3/10 * c.bx 3 4 * y ^ 5 * s ^ 2 + 1/35 * c.bx 3 4 * y ^ 7 - 1/2 * c.by_ 3 0 * x * y ^ 2 - 1/2 * c.by_ 3 1 * x * y ^ 2 * s - 1/2 * c.by_ 3 2 * x * y ^ 2 * s ^ 2 - 1/2 * c.by_ 3 3 * x * y ^ 2 * s ^ 3 - 1/2 * c.by_ 3 4 * x * y ^ 2 * s ^ 4 + 1/6 * c.by_ 3 2 * x * y ^ 4 + 1/2 * c.by_ 3 3 * x * y ^ 4 * s + 1 * c.by_ 3 4 * x * y ^ 4 * s ^ 2 - 1/10 * c.by_ 3 4 * x * y ^ 6 - 1/2 * c.bx 3 0 * x ^ 2 * y - 1/2 * c.bx 3 1 * x ^ 2 * y * s - 1/2 * c.bx 3 2 * x ^ 2 * y * s ^ 2 - 1/2 * c.bx 3 3 * x ^ 2 * y * s ^ 3 - 1/2 * c.bx 3 4 * x ^ 2 * y * s ^ 4 + 1/3 * c.bx 3 2 * x ^ 2 * y ^ 3 + 1 * c.bx 3 3 * x ^ 2 * y ^ 3 * s + 2 * c.bx 3 4 * x ^ 2 * y ^ 3 * s ^ 2 - 3/10 * c.bx 3 4 * x ^ 2 * y ^ 5 + 1/6 * c.by_ 3 0 * x ^ 3 + 1/6 * c.by_ 3 1 * x ^ 3 * s + 1/6 * c.by_ 3 2 * x ^ 3 * s ^ 2 + 1/6 * c.by_ 3 3 * x ^ 3 * s ^ 3 + 1/6 * c.by_ 3 4 * x ^ 3 * s ^ 4 - 1/6 * c.by_ 3 2 * x ^ 3 * y ^ 2 - 1/2 * c.by_ 3 3 * x ^ 3 * y ^ 2 * s - 1 * c.by_ 3 4 * x ^ 3 * y ^ 2 * s ^ 2 + 1/6 * c.by_ 3 4 * x ^ 3 * y ^ 4 - 1/12 * c.bx 3 2 * x ^ 4 * y - 1/4 * c.bx 3 3 * x ^ 4 * y * s - 1/2 * c.bx 3 4 * x ^ 4 * y * s ^ 2 + 1/6 * c.bx 3 4 * x ^ 4 * y ^ 3

theorem By4_add (c : Coeffs) (x y s : ℝ) : By4 c x y s = By3 c x y s + dBy4 c x y s := by
  simp only [By4, By3, dBy4]; ring

/-- What the coefficients 3 add to `Bs`. -/
noncomputable def dBs4 (c : Coeffs) (x y s : ℝ) : ℝ :=
  1/24 * c.bx 3 1 * y ^ 4 + 1/12 * c.bx 3 2 * y ^ 4 * s + 1/8 * c.bx 3 3 * y ^ 4 * s ^ 2 + 1/6 * c.bx 3 4 * y ^ 4 * s ^ 3 - 1/40 * c.bx 3 3 * y ^ 6 - 1/10 * c.bx 3 4 * y ^ 6 * s - 1/6 * c.by_ 3 1 * x * y ^ 3 - 1/3 * c.by_ 3 2 * x * y ^ 3 * s - 1/2 * c.by_ 3 3 * x * y ^ 3 * s ^ 2 - 2/3 * c.by_ 3 4 * x * y ^ 3 * s ^ 3 + 1/10 * c.by_ 3 3 * x * y ^ 5 + 2/5 * c.by_ 3 4 * x * y ^ 5 * s - 1/4 * c.bx 3 1 * x ^ 2 * y ^ 2 - 1/2 * c.bx 3 2 * x ^ 2 * y ^ 2 * s - 3/4 * c.bx 3 3 * x ^ 2 * y ^ 2 * s ^ 2 - 1 * c.bx 3 4 * x ^ 2 * y ^ 2 * s ^ 3 + 1/4 * c.bx 3 3 * x ^ 2 * y ^ 4 + 1 * c.bx 3 4 * x ^ 2 * y ^ 4 * s + 1/6 * c.by_ 3 1 * x ^ 3 * y + 1/3 * c.by_ 3 2 * x ^ 3 * y * s + 1/2 * c.by_ 3 3 * x ^ 3 * y * s ^ 2 + 2/3 * c.by_ 3 4 * x ^ 3 * y * s ^ 3 - 1/6 * c.by_ 3 3 * x ^ 3 * y ^ 3 - 2/3 * c.by_ 3 4 * x ^ 3 * y ^ 3 * s + 1/24 * c.bx 3 1 * x ^ 4 + 1/12 * c.bx 3 2 * x ^ 4 * s + 1/8 * c.bx 3 3 * x ^ 4 * s ^ 2 + 1/6 * c.bx 3 4 * x ^ 4 * s ^ 3 - 1/8 * c.bx 3 3 * x ^ 4 * y ^ 2 - 1/2 * c.bx 3 4 * x ^ 4 * y ^ 2 * s

theorem Bs4_add (c : Coeffs) (x y s : ℝ) : Bs4 c x y s = Bs3 c x y s + dBs4 c x y s := by
  simp only [Bs4, Bs3, dBs4]; ring

theorem dBx4_x (c : Coeffs) (x y s : ℝ) : dBx4 c x y s = horner
    [-1/6 * c.by_ 3 0 * y ^ 3 - 1/6 * c.by_ 3 1 * y ^ 3 * s - 1/6 * c.by_ 3 2 * y ^ 3 * s ^ 2 - 1/6 * c.by_ 3 3 * y ^ 3 * s ^ 3 - 1/6 * c.by_ 3 4 * y ^ 3 * s ^ 4 + 1/30 * c.by_ 3 2 * y ^ 5 + 1/10 * c.by_ 3 3 * y ^ 5 * s + 1/5 * c.by_ 3 4 * y ^ 5 * s ^ 2 - 1/70 * c.by_ 3 4 * y ^ 7,
      -1/2 * c.bx 3 0 * y ^ 2 - 1/2 * c.bx 3 1 * y ^ 2 * s - 1/2 * c.bx 3 2 * y ^ 2 * s ^ 2 - 1/2 * c.bx 3 3 * y ^ 2 * s ^ 3 - 1/2 * c.bx 3 4 * y ^ 2 * s ^ 4 + 1/6 * c.bx 3 2 * y ^ 4 + 1/2 * c.bx 3 3 * y ^ 4 * s + 1 * c.bx 3 4 * y ^ 4 * s ^ 2 - 1/10 * c.bx 3 4 * y ^ 6,
      1/2 * c.by_ 3 0 * y + 1/2 * c.by_ 3 1 * y * s + 1/2 * c.by_ 3 2 * y * s ^ 2 + 1/2 * c.by_ 3 3 * y * s ^ 3 + 1/2 * c.by_ 3 4 * y * s ^ 4 - 1/6 * c.by_ 3 2 * y ^ 3 - 1/2 * c.by_ 3 3 * y ^ 3 * s - 1 * c.by_ 3 4 * y ^ 3 * s ^ 2 + 1/10 * c.by_ 3 4 * y ^ 5,
      1/6 * c.bx 3 0 + 1/6 * c.bx 3 1 * s + 1/6 * c.bx 3 2 * s ^ 2 + 1/6 * c.bx 3 3 * s ^ 3 + 1/6 * c.bx 3 4 * s ^ 4 - 1/6 * c.bx 3 2 * y ^ 2 - 1/2 * c.bx 3 3 * y ^ 2 * s - 1 * c.bx 3 4 * y ^ 2 * s ^ 2 + 1/6 * c.bx 3 4 * y ^ 4] x := by
  simp only [dBx4, horner]; ring

theorem dBx4_y (c : Coeffs) (x y s : ℝ) : dBx4 c x y s = horner
    [1/6 * c.bx 3 0 * x ^ 3 + 1/6 * c.bx 3 1 * x ^ 3 * s + 1/6 * c.bx 3 2 * x ^ 3 * s ^ 2 + 1/6 * c.bx 3 3 * x ^ 3 * s ^ 3 + 1/6 * c.bx 3 4 * x ^ 3 * s ^ 4,
      1/2 * c.by_ 3 0 * x ^ 2 + 1/2 * c.by_ 3 1 * x ^ 2 * s + 1/2 * c.by_ 3 2 * x ^ 2 * s ^ 2 + 1/2 * c.by_ 3 3 * x ^ 2 * s ^ 3 + 1/2 * c.by_ 3 4 * x ^ 2 * s ^ 4,
      -1/2 * c.bx 3 0 * x - 1/2 * c.bx 3 1 * x * s - 1/2 * c.bx 3 2 * x * s ^ 2 - 1/2 * c.bx 3 3 * x * s ^ 3 - 1/2 * c.bx 3 4 * x * s ^ 4 - 1/6 * c.bx 3 2 * x ^ 3 - 1/2 * c.bx 3 3 * x ^ 3 * s - 1 * c.bx 3 4 * x ^ 3 * s ^ 2,
      -1/6 * c.by_ 3 0 - 1/6 * c.by_ 3 1 * s - 1/6 * c.by_ 3 2 * s ^ 2 - 1/6 * c.by_ 3 3 * s ^ 3 - 1/6 * c.by_ 3 4 * s ^ 4 - 1/6 * c.by_ 3 2 * x ^ 2 - 1/2 * c.by_ 3 3 * x ^ 2 * s - 1 * c.by_ 3 4 * x ^ 2 * s ^ 2,
      1/6 * c.bx 3 2 * x + 1/2 * c.bx 3 3 * x * s + 1 * c.bx 3 4 * x * s ^ 2 + 1/6 * c.bx 3 4 * x ^ 3,
      1/30 * c.by_ 3 2 + 1/10 * c.by_ 3 3 * s + 1/5 * c.by_ 3 4 * s ^ 2 + 1/10 * c.by_ 3 4 * x ^ 2,
      -1/10 * c.bx 3 4 * x,
      -1/70 * c.by_ 3 4] y := by
  simp only [dBx4, horner]; ring

theorem dBx4_s (c : Coeffs) (x y s : ℝ) : dBx4 c x y s = horner
    [-1/6 * c.by_ 3 0 * y ^ 3 + 1/30 * c.by_ 3 2 * y ^ 5 - 1/70 * c.by_ 3 4 * y ^ 7 - 1/2 * c.bx 3 0 * x * y ^ 2 + 1/6 * c.bx 3 2 * x * y ^ 4 - 1/10 * c.bx 3 4 * x * y ^ 6 + 1/2 * c.by_ 3 0 * x ^ 2 * y - 1/6 * c.by_ 3 2 * x ^ 2 * y ^ 3 + 1/10 * c.by_ 3 4 * x ^ 2 * y ^ 5 + 1/6 * c.bx 3 0 * x ^ 3 - 1/6 * c.bx 3 2 * x ^ 3 * y ^ 2 + 1/6 * c.bx 3 4 * x ^ 3 * y ^ 4,
      -1/6 * c.by_ 3 1 * y ^ 3 + 1/10 * c.by_ 3 3 * y ^ 5 - 1/2 * c.bx 3 1 * x * y ^ 2 + 1/2 * c.bx 3 3 * x * y ^ 4 + 1/2 * c.by_ 3 1 * x ^ 2 * y - 1/2 * c.by_ 3 3 * x ^ 2 * y ^ 3 + 1/6 * c.bx 3 1 * x ^ 3 - 1/2 * c.bx 3 3 * x ^ 3 * y ^ 2,
      -1/6 * c.by_ 3 2 * y ^ 3 + 1/5 * c.by_ 3 4 * y ^ 5 - 1/2 * c.bx 3 2 * x * y ^ 2 + 1 * c.bx 3 4 * x * y ^ 4 + 1/2 * c.by_ 3 2 * x ^ 2 * y - 1 * c.by_ 3 4 * x ^ 2 * y ^ 3 + 1/6 * c.bx 3 2 * x ^ 3 - 1 * c.bx 3 4 * x ^ 3 * y ^ 2,
      -1/6 * c.by_ 3 3 * y ^ 3 - 1/2 * c.bx 3 3 * x * y ^ 2 + 1/2 * c.by_ 3 3 * x ^ 2 * y + 1/6 * c.bx 3 3 * x ^ 3,
      -1/6 * c.by_ 3 4 * y ^ 3 - 1/2 * c.bx 3 4 * x * y ^ 2 + 1/2 * c.by_ 3 4 * x ^ 2 * y + 1/6 * c.bx 3 4 * x ^ 3] s := by
  simp only [dBx4, horner]; ring

theorem dBy4_x (c : Coeffs) (x y s : ℝ) : dBy4 c x y s = horner
    [1/6 * c.bx 3 0 * y ^ 3 + 1/6 * c.bx 3 1 * y ^ 3 * s + 1/6 * c.bx 3 2 * y ^ 3 * s ^ 2 + 1/6 * c.bx 3 3 * y ^ 3 * s ^ 3 + 1/6 * c.bx 3 4 * y ^ 3 * s ^ 4 - 1/20 * c.bx 3 2 * y ^ 5 - 3/20 * c.bx 3 3 * y ^ 5 * s - 3/10 * c.bx 3 4 * y ^ 5 * s ^ 2 + 1/35 * c.bx 3 4 * y ^ 7,
      -1/2 * c.by_ 3 0 * y ^ 2 - 1/2 * c.by_ 3 1 * y ^ 2 * s - 1/2 * c.by_ 3 2 * y ^ 2 * s ^ 2 - 1/2 * c.by_ 3 3 * y ^ 2 * s ^ 3 - 1/2 * c.by_ 3 4 * y ^ 2 * s ^ 4 + 1/6 * c.by_ 3 2 * y ^ 4 + 1/2 * c.by_ 3 3 * y ^ 4 * s + 1 * c.by_ 3 4 * y ^ 4 * s ^ 2 - 1/10 * c.by_ 3 4 * y ^ 6,
      -1/2 * c.bx 3 0 * y - 1/2 * c.bx 3 1 * y * s - 1/2 * c.bx 3 2 * y * s ^ 2 - 1/2 * c.bx 3 3 * y * s ^ 3 - 1/2 * c.bx 3 4 * y * s ^ 4 + 1/3 * c.bx 3 2 * y ^ 3 + 1 * c.bx 3 3 * y ^ 3 * s + 2 * c.bx 3 4 * y ^ 3 * s ^ 2 - 3/10 * c.bx 3 4 * y ^ 5,
      1/6 * c.by_ 3 0 + 1/6 * c.by_ 3 1 * s + 1/6 * c.by_ 3 2 * s ^ 2 + 1/6 * c.by_ 3 3 * s ^ 3 + 1/6 * c.by_ 3 4 * s ^ 4 - 1/6 * c.by_ 3 2 * y ^ 2 - 1/2 * c.by_ 3 3 * y ^ 2 * s - 1 * c.by_ 3 4 * y ^ 2 * s ^ 2 + 1/6 * c.by_ 3 4 * y ^ 4,
      -1/12 * c.bx 3 2 * y - 1/4 * c.bx 3 3 * y * s - 1/2 * c.bx 3 4 * y * s ^ 2 + 1/6 * c.bx 3 4 * y ^ 3] x := by
  simp only [dBy4, horner]; ring

theorem dBy4_y (c : Coeffs) (x y s : ℝ) : dBy4 c x y s = horner
    [1/6 * c.by_ 3 0 * x ^ 3 + 1/6 * c.by_ 3 1 * x ^ 3 * s + 1/6 * c.by_ 3 2 * x ^ 3 * s ^ 2 + 1/6 * c.by_ 3 3 * x ^ 3 * s ^ 3 + 1/6 * c.by_ 3 4 * x ^ 3 * s ^ 4,
      -1/2 * c.bx 3 0 * x ^ 2 - 1/2 * c.bx 3 1 * x ^ 2 * s - 1/2 * c.bx 3 2 * x ^ 2 * s ^ 2 - 1/2 * c.bx 3 3 * x ^ 2 * s ^ 3 - 1/2 * c.bx 3 4 * x ^ 2 * s ^ 4 - 1/12 * c.bx 3 2 * x ^ 4 - 1/4 * c.bx 3 3 * x ^ 4 * s - 1/2 * c.bx 3 4 * x ^ 4 * s ^ 2,
      -1/2 * c.by_ 3 0 * x - 1/2 * c.by_ 3 1 * x * s - 1/2 * c.by_ 3 2 * x * s ^ 2 - 1/2 * c.by_ 3 3 * x * s ^ 3 - 1/2 * c.by_ 3 4 * x * s ^ 4 - 1/6 * c.by_ 3 2 * x ^ 3 - 1/2 * c.by_ 3 3 * x ^ 3 * s - 1 * c.by_ 3 4 * x ^ 3 * s ^ 2,
      1/6 * c.bx 3 0 + 1/6 * c.bx 3 1 * s + 1/6 * c.bx 3 2 * s ^ 2 + 1/6 * c.bx 3 3 * s ^ 3 + 1/6 * c.bx 3 4 * s ^ 4 + 1/3 * c.bx 3 2 * x ^ 2 + 1 * c.bx 3 3 * x ^ 2 * s + 2 * c.bx 3 4 * x ^ 2 * s ^ 2 + 1/6 * c.bx 3 4 * x ^ 4,
      1/6 * c.by_ 3 2 * x + 1/2 * c.by_ 3 3 * x * s + 1 * c.by_ 3 4 * x * s ^ 2 + 1/6 * c.by_ 3 4 * x ^ 3,
      -1/20 * c.bx 3 2 - 3/20 * c.bx 3 3 * s - 3/10 * c.bx 3 4 * s ^ 2 - 3/10 * c.bx 3 4 * x ^ 2,
      -1/10 * c.by_ 3 4 * x,
      1/35 * c.bx 3 4] y := by
  simp only [dBy4, horner]; ring

theorem dBy4_s (c : Coeffs) (x y s : ℝ) : dBy4 c x y s = horner
    [1/6 * c.bx 3 0 * y ^ 3 - 1/20 * c.bx 3 2 * y ^ 5 + 1/35 * c.bx 3 4 * y ^ 7 - 1/2 * c.by_ 3 0 * x * y ^ 2 + 1/6 * c.by_ 3 2 * x * y ^ 4 - 1/10 * c.by_ 3 4 * x * y ^ 6 - 1/2 * c.bx 3 0 * x ^ 2 * y + 1/3 * c.bx 3 2 * x ^ 2 * y ^ 3 - 3/10 * c.bx 3 4 * x ^ 2 * y ^ 5 + 1/6 * c.by_ 3 0 * x ^ 3 - 1/6 * c.by_ 3 2 * x ^ 3 * y ^ 2 + 1/6 * c.by_ 3 4 * x ^ 3 * y ^ 4 - 1/12 * c.bx 3 2 * x ^ 4 * y + 1/6 * c.bx 3 4 * x ^ 4 * y ^ 3,
      1/6 * c.bx 3 1 * y ^ 3 - 3/20 * c.bx 3 3 * y ^ 5 - 1/2 * c.by_ 3 1 * x * y ^ 2 + 1/2 * c.by_ 3 3 * x * y ^ 4 - 1/2 * c.bx 3 1 * x ^ 2 * y + 1 * c.bx 3 3 * x ^ 2 * y ^ 3 + 1/6 * c.by_ 3 1 * x ^ 3 - 1/2 * c.by_ 3 3 * x ^ 3 * y ^ 2 - 1/4 * c.bx 3 3 * x ^ 4 * y,
      1/6 * c.bx 3 2 * y ^ 3 - 3/10 * c.bx 3 4 * y ^ 5 - 1/2 * c.by_ 3 2 * x * y ^ 2 + 1 * c.by_ 3 4 * x * y ^ 4 - 1/2 * c.bx 3 2 * x ^ 2 * y + 2 * c.bx 3 4 * x ^ 2 * y ^ 3 + 1/6 * c.by_ 3 2 * x ^ 3 - 1 * c.by_ 3 4 * x ^ 3 * y ^ 2 - 1/2 * c.bx 3 4 * x ^ 4 * y,
      1/6 * c.bx 3 3 * y ^ 3 - 1/2 * c.by_ 3 3 * x * y ^ 2 - 1/2 * c.bx 3 3 * x ^ 2 * y + 1/6 * c.by_ 3 3 * x ^ 3,
      1/6 * c.bx 3 4 * y ^ 3 - 1/2 * c.by_ 3 4 * x * y ^ 2 - 1/2 * c.bx 3 4 * x ^ 2 * y + 1/6 * c.by_ 3 4 * x ^ 3] s := by
  simp only [dBy4, horner]; ring

theorem dBs4_x (c : Coeffs) (x y s : ℝ) : dBs4 c x y s = horner
    [1/24 * c.bx 3 1 * y ^ 4 + 1/12 * c.bx 3 2 * y ^ 4 * s + 1/8 * c.bx 3 3 * y ^ 4 * s ^ 2 + 1/6 * c.bx 3 4 * y ^ 4 * s ^ 3 - 1/40 * c.bx 3 3 * y ^ 6 - 1/10 * c.bx 3 4 * y ^ 6 * s,
      -1/6 * c.by_ 3 1 * y ^ 3 - 1/3 * c.by_ 3 2 * y ^ 3 * s - 1/2 * c.by_ 3 3 * y ^ 3 * s ^ 2 - 2/3 * c.by_ 3 4 * y ^ 3 * s ^ 3 + 1/10 * c.by_ 3 3 * y ^ 5 + 2/5 * c.by_ 3 4 * y ^ 5 * s,
      -1/4 * c.bx 3 1 * y ^ 2 - 1/2 * c.bx 3 2 * y ^ 2 * s - 3/4 * c.bx 3 3 * y ^ 2 * s ^ 2 - 1 * c.bx 3 4 * y ^ 2 * s ^ 3 + 1/4 * c.bx 3 3 * y ^ 4 + 1 * c.bx 3 4 * y ^ 4 * s,
      1/6 * c.by_ 3 1 * y + 1/3 * c.by_ 3 2 * y * s + 1/2 * c.by_ 3 3 * y * s ^ 2 + 2/3 * c.by_ 3 4 * y * s ^ 3 - 1/6 * c.by_ 3 3 * y ^ 3 - 2/3 * c.by_ 3 4 * y ^ 3 * s,
      1/24 * c.bx 3 1 + 1/12 * c.bx 3 2 * s + 1/8 * c.bx 3 3 * s ^ 2 + 1/6 * c.bx 3 4 * s ^ 3 - 1/8 * c.bx 3 3 * y ^ 2 - 1/2 * c.bx 3 4 * y ^ 2 * s] x := by
  simp only [dBs4, horner]; ring

theorem dBs4_y (c : Coeffs) (x y s : ℝ) : dBs4 c x y s = horner
    [1/24 * c.bx 3 1 * x ^ 4 + 1/12 * c.bx 3 2 * x ^ 4 * s + 1/8 * c.bx 3 3 * x ^ 4 * s ^ 2 + 1/6 * c.bx 3 4 * x ^ 4 * s ^ 3,
      1/6 * c.by_ 3 1 * x ^ 3 + 1/3 * c.by_ 3 2 * x ^ 3 * s + 1/2 * c.by_ 3 3 * x ^ 3 * s ^ 2 + 2/3 * c.by_ 3 4 * x ^ 3 * s ^ 3,
      -1/4 * c.bx 3 1 * x ^ 2 - 1/2 * c.bx 3 2 * x ^ 2 * s - 3/4 * c.bx 3 3 * x ^ 2 * s ^ 2 - 1 * c.bx 3 4 * x ^ 2 * s ^ 3 - 1/8 * c.bx 3 3 * x ^ 4 - 1/2 * c.bx 3 4 * x ^ 4 * s,
      -1/6 * c.by_ 3 1 * x - 1/3 * c.by_ 3 2 * x * s - 1/2 * c.by_ 3 3 * x * s ^ 2 - 2/3 * c.by_ 3 4 * x * s ^ 3 - 1/6 * c.by_ 3 3 * x ^ 3 - 2/3 * c.by_ 3 4 * x ^ 3 * s,
      1/24 * c.bx 3 1 + 1/12 * c.bx 3 2 * s + 1/8 * c.bx 3 3 * s ^ 2 + 1/6 * c.bx 3 4 * s ^ 3 + 1/4 * c.bx 3 3 * x ^ 2 + 1 * c.bx 3 4 * x ^ 2 * s,
      1/10 * c.by_ 3 3 * x + 2/5 * c.by_ 3 4 * x * s,
      -1/40 * c.bx 3 3 - 1/10 * c.bx 3 4 * s] y := by
  simp only [dBs4, horner]; ring

theorem dBs4_s (c : Coeffs) (x y s : ℝ) : dBs4 c x y s = horner
    [1/24 * c.bx 3 1 * y ^ 4 - 1/40 * c.bx 3 3 * y ^ 6 - 1/6 * c.by_ 3 1 * x * y ^ 3 + 1/10 * c.by_ 3 3 * x * y ^ 5 - 1/4 * c.bx 3 1 * x ^ 2 * y ^ 2 + 1/4 * c.bx 3 3 * x ^ 2 * y ^ 4 + 1/6 * c.by_ 3 1 * x ^ 3 * y - 1/6 * c.by_ 3 3 * x ^ 3 * y ^ 3 + 1/24 * c.bx 3 1 * x ^ 4 - 1/8 * c.bx 3 3 * x ^ 4 * y ^ 2,
      1/12 * c.bx 3 2 * y ^ 4 - 1/10 * c.bx 3 4 * y ^ 6 - 1/3 * c.by_ 3 2 * x * y ^ 3 + 2/5 * c.by_ 3 4 * x * y ^ 5 - 1/2 * c.bx 3 2 * x ^ 2 * y ^ 2 + 1 * c.bx 3 4 * x ^ 2 * y ^ 4 + 1/3 * c.by_ 3 2 * x ^ 3 * y - 2/3 * c.by_ 3 4 * x ^ 3 * y ^ 3 + 1/12 * c.bx 3 2 * x ^ 4 - 1/2 * c.bx 3 4 * x ^ 4 * y ^ 2,
      1/8 * c.bx 3 3 * y ^ 4 - 1/2 * c.by_ 3 3 * x * y ^ 3 - 3/4 * c.bx 3 3 * x ^ 2 * y ^ 2 + 1/2 * c.by_ 3 3 * x ^ 3 * y + 1/8 * c.bx 3 3 * x ^ 4,
      1/6 * c.bx 3 4 * y ^ 4 - 2/3 * c.by_ 3 4 * x * y ^ 3 - 1 * c.bx 3 4 * x ^ 2 * y ^ 2 + 2/3 * c.by_ 3 4 * x ^ 3 * y + 1/6 * c.bx 3 4 * x ^ 4] s := by
  simp only [dBs4, horner]; ring

theorem dmaxwell4 (c : Coeffs) (x y s : ℝ) : Vacuum (dBx4 c) (dBy4 c) (dBs4 c) x y s := by
  have hBxx : HasDerivAt (fun t => dBx4 c t y s) _ x :=
    (horner_deriv _ x).congr_of_eventuallyEq (Filter.Eventually.of_forall fun t => dBx4_x c t y s)
  have hBxy : HasDerivAt (fun t => dBx4 c x t s) _ y :=
    (horner_deriv _ y).congr_of_eventuallyEq (Filter.Eventually.of_forall fun t => dBx4_y c x t s)
  have hBxs : HasDerivAt (fun t => dBx4 c x y t) _ s :=
    (horner_deriv _ s).congr_of_eventuallyEq (Filter.Eventually.of_forall fun t => dBx4_s c x y t)
  have hByx : HasDerivAt (fun t => dBy4 c t y s) _ x :=
    (horner_deriv _ x).congr_of_eventuallyEq (Filter.Eventually.of_forall fun t => dBy4_x c t y s)
  have hByy : HasDerivAt (fun t => dBy4 c x t s) _ y :=
    (horner_deriv _ y).congr_of_eventuallyEq (Filter.Eventually.of_forall fun t => dBy4_y c x t s)
  have hBys : HasDerivAt (fun t => dBy4 c x y t) _ s :=
    (horner_deriv _ s).congr_of_eventuallyEq (Filter.Eventually.of_forall fun t => dBy4_s c x y t)
  have hBsx : HasDerivAt (fun t => dBs4 c t y s) _ x :=
    (horner_deriv _ x).congr_of_eventuallyEq (Filter.Eventually.of_forall fun t => dBs4_x c t y s)
  have hBsy : HasDerivAt (fun t => dBs4 c x t s) _ y :=
    (horner_deriv _ y).congr_of_eventuallyEq (Filter.Eventually.of_forall fun t => dBs4_y c x t s)
  have hBss : HasDerivAt (fun t => dBs4 c x y t) _ s :=
    (horner_deriv _ s).congr_of_eventuallyEq (Filter.Eventually.of_forall fun t => dBs4_s c x y t)
  refine ⟨_, _, _, _, _, _, _, _, _, hBxx, hBxy, hBxs, hByx, hByy, hBys, hBsx, hBsy, hBss, ?_, ?_, ?_, ?_⟩ <;>
    (simp only [dhorner, horner]; ring)

theorem maxwell4 (c : Coeffs) (x y s : ℝ) : Vacuum (Bx4 c) (By4 c) (Bs4 c) x y s := by
  rw [show Bx4 c = fun x y s => Bx3 c x y s + dBx4 c x y s from funext fun x => funext fun y => funext fun s => Bx4_add c x y s,
    show By4 c = fun x y s => By3 c x y s + dBy4 c x y s from funext fun x => funext fun y => funext fun s => By4_add c x y s,
    show Bs4 c = fun x y s => Bs3 c x y s + dBs4 c x y s from funext fun x => funext fun y => funext fun s => Bs4_add c x y s]
  exact (maxwell3 c x y s).add (dmaxwell4 c x y s)

theorem midplane4 (c : Coeffs) (x s : ℝ) :
    Bx4 c x 0 s = x ^ 0 / 1 * poly (c.bx 0) s + x ^ 1 / 1 * poly (c.bx 1) s + x ^ 2 / 2 * poly (c.bx 2) s + x ^ 3 / 6 * poly (c.bx 3) s ∧
    By4 c x 0 s = x ^ 0 / 1 * poly (c.by_ 0) s + x ^ 1 / 1 * poly (c.by_ 1) s + x ^ 2 / 2 * poly (c.by_ 2) s + x ^ 3 / 6 * poly (c.by_ 3) s ∧
    Bs4 c 0 0 s = poly c.bs s := by
  obtain ⟨h1, h2, h3⟩ := midplane3 c x s
  rw [Bx4_add, By4_add, Bs4_add, h1, h2, h3]
  refine ⟨?_, ?_, ?_⟩
  · simp only [dBx4, poly]; ring
  · simp only [dBy4, poly]; ring
  · simp only [dBs4, poly]; ring

end Verif.Boris
