import Verif.Boris.Field
import Verif.Boris.Horner
import Verif.Boris.Maxwell5

/-! The field for the multipole order 6 has no divergence and no curl: it is that for the order 5 and
the terms of the last coefficients. -/

namespace Verif.Boris

/-- What the coefficients 5 add to `Bx`. -/
noncomputable def dBx6 (c : Coeffs) (x y s : ℝ) : ℝ :=
  1/120 * c.by_ 5 0 * y ^ 5 + 1/120 * c.by_ 5 1 * y ^ 5 * s + 1/120 * c.by_ 5 2 * y ^ 5 * s ^ 2 + 1/120 * c.by_ 5 3 * y ^ 5 * s ^ 3 + 1/120 * c.by_ 5 4 * y ^ 5 * s ^ 4 - 1/840 * c.by_ 5 2 * y ^ 7 - 1/280 * c.by_ 5 3 * y ^ 7 * s - 1/140 * c.by_ 5 4 * y ^ 7 * s ^ 2 + 1/2520 * c.by_ 5 4 * y ^ 9 + 1/24 * c.bx 5 0 * x * y ^ 4 + 1/24 * c.bx 5 1 * x * y ^ 4 * s + 1/24 * c.bx 5 2 * x * y ^ 4 * s ^ 2 + 1/24 * c.bx 5 3 * x * y ^ 4 * s ^ 3 + 1/24 * c.bx 5 4 * x * y ^ 4 * s ^ 4 - 1/120 * c.bx 5 2 * x * y ^ 6 - 1/40 * c.bx 5 3 * x * y ^ 6 * s - 1/20 * c.bx 5 4 * x * y ^ 6 * s ^ 2 + 1/280 * c.bx 5 4 * x * y ^ 8 - 1/12 * c.by_ 5 0 * x ^ 2 * y ^ 3 - 1/12 * c.by_ 5 1 * x ^ 2 * y ^ 3 * s - 1/12 * c.by_ 5 2 * x ^ 2 * y ^ 3 * s ^ 2 - 1/12 * c.by_ 5 3 * x ^ 2 * y ^ 3 * s ^ 3 - 1/12 * c.by_ 5 4 * x ^ 2 * y ^ 3 * s ^ 4 + 1/60 * c.by_ 5 2 * x ^ 2 * y ^ 5 + 1/20 * c.by_ 5 3 * x ^ 2 * y ^ 5 * s + 1/10 * c.by_ 5 4 * x ^ 2 * y ^ 5 * s ^ 2 - 1/140 * c.by_ 5 4 * x ^ 2 * y ^ 7 - 1/12 * c.bx 5 0 * x ^ 3 * y ^ 2 - 1/12 * c.bx 5 1 * x ^ 3 * y ^ 2 * s - 1/12 * c.bx 5 2 * x ^ 3 * y ^ 2 * s ^ 2 - 1/12 * c.bx 5 3 * x ^ 3 * y ^ 2 * s ^ 3 - 1/12 * c.bx 5 4 * x ^ 3 * y ^ 2 * s ^ 4 + 1/36 * c.bx 5 2 * x ^ 3 * y ^ 4 + 1/12 * c.bx 5 3 * x ^ 3 * y ^ 4 * s + 1/6 * c.bx 5 4 * x ^ 3 * y ^ 4 * s ^ 2 - 1/60 * c.bx 5 4 * x ^ 3 * y ^ 6 + 1/24 * c.by_ 5 0 * x ^ 4 * y + 1/24 * c.by_ 5 1 * x ^ 4 * y * s + 1/24 * c.by_ 5 2 * x ^ 4 * y * s ^ 2 + 1/24 * c.by_ 5 3 * x ^ 4 * y * s ^ 3 + 1/24 * c.by_ 5 4 * x ^ 4 * y * s ^ 4 - 1/72 * c.by_ 5 2 * x ^ 4 * y ^ 3 - 1/24 * c.by_ 5 3 * x ^ 4 * y ^ 3 * s - 1/12 * c.by_ 5 4 * x ^ 4 * y ^ 3 * s ^ 2 + 1/120 * c.by_ 5 4 * x ^ 4 * y ^ 5 + 1/120 * c.bx 5 0 * x ^ 5 + 1/120 * c.bx 5 1 * x ^ 5 * s + 1/120 * c.bx 5 2 * x ^ 5 * s ^ 2 + 1/120 * c.bx 5 3 * x ^ 5 * s ^ 3 + 1/120 * c.bx 5 4 * x ^ 5 * s ^ 4 - 1/120 * c.bx 5 2 * x ^ 5 * y ^ 2 - 1/40 * c.bx 5 3 * x ^ 5 * y ^ 2 * s - 1/20 * c.bx 5 4 * x ^ 5 * y ^ 2 * s ^ 2 + 1/120 * c.bx 5 4 * x ^ 5 * y ^ 4

theorem Bx6_add (c : Coeffs) (x y s : ℝ) : Bx6 c x y s = Bx5 c x y s + dBx6 c x y s := by
  simp only [Bx6, Bx5, dBx6]; ring

/-- What the coefficients 5 add to `By`. -/
noncomputable def dBy6 (c : Coeffs) (x y s : ℝ) : ℝ :=
  -1/120 * c.bx 5 0 * y ^ 5 - 1/120 * c.bx 5 1 * y ^ 5 * s - 1/120 * c.bx 5 2 * y ^ 5 * s ^ 2 - 1/120 * c.bx 5 3 * y ^ 5 * s ^ 3 - 1/120 * c.bx 5 4 * y ^ 5 * s ^ 4 + 1/630 * c.bx 5 2 * y ^ 7 + 1/210 * c.bx 5 3 * y ^ 7 * s + 1/105 * c.bx 5 4 * y ^ 7 * s ^ 2 - 1/1512 * c.bx 5 4 * y ^ 9 + 1/24 * c.by_ 5 0 * x * y ^ 4 + 1/24 * c.by_ 5 1 * x * y ^ 4 * s + 1/24 * c.by_ 5 2 * x * y ^ 4 * s ^ 2 + 1/24 * c.by_ 5 3 * x * y ^ 4 * s ^ 3 + 1/24 * c.by_ 5 4 * x * y ^ 4 * s ^ 4 - 1/120 * c.by_ 5 2 * x * y ^ 6 - 1/40 * c.by_ 5 3 * x * y ^ 6 * s - 1/20 * c.by_ 5 4 * x * y ^ 6 * s ^ 2 + 1/280 * c.by_ 5 4 * x * y ^ 8 + 1/12 * c.bx 5 0 * x ^ 2 * y ^ 3 + 1/12 * c.bx 5 1 * x ^ 2 * y ^ 3 * s + 1/12 * c.bx 5 2 * x ^ 2 * y ^ 3 * s ^ 2 + 1/12 * c.bx 5 3 * x ^ 2 * y ^ 3 * s ^ 3 + 1/12 * c.bx 5 4 * x ^ 2 * y ^ 3 * s ^ 4 - 1/40 * c.bx 5 2 * x ^ 2 * y ^ 5 - 3/40 * c.bx 5 3 * x ^ 2 * y ^ 5 * s - 3/20 * c.bx 5 4 * x ^ 2 * y ^ 5 * s ^ 2 + 1/70 * c.bx 5 4 * x ^ 2 * y ^ 7 - 1/12 * c.by_ 5 0 * x ^ 3 * y ^ 2 - 1/12 * c.by_ 5 1 * x ^ 3 * y ^ 2 * s - 1/12 * c.by_ 5 2 * x ^ 3 * y ^ 2 * s ^ 2 - 1/12 * c.by_ 5 3 * x ^ 3 * y ^ 2 * s ^ 3 - 1/12 * c.by_ 5 4 * x ^ 3 * y ^ 2 * s ^ 4 + 1/36 * c.by_ 5 2 * x ^ 3 * y ^ 4 + 1/12 * c.by_ 5 3 * x ^ 3 * y ^ 4 * s + 1/6 * c.by_ 5 4 * x ^ 3 * y ^ 4 * s ^ 2 - 1/60 * c.by_ 5 4 * x ^ 3 * y ^ 6 - 1/24 * c.bx 5 0 * x ^ 4 * y - 1/24 * c.bx 5 1 * x ^ 4 * y * s - 1/24 * c.bx 5 2 * x ^ 4 * y * s ^ 2 - 1/24 * c.bx 5 3 * x ^ 4 * y * s ^ 3 - 1/24 * c.bx 5 4 * x ^ 4 * y * s ^ 4 + 1/36 * c.bx 5 2 * x ^ 4 * y ^ 3 + 1/12 * c.bx 5 3 * x ^ 4 * y ^ 3 * s + 1/6 * c.bx 5 4 * x ^ 4 * y ^ 3 * s ^ 2 - 1/40 * c.bx 5 4 * x ^ 4 * y ^ 5 + 1/120 * c.by_ 5 0 * x ^ 5 + 1/120 * c.by_ 5 1 * x ^ 5 * s + 1/120 * c.by_ 5 2 * x ^ 5 * s ^ 2 + 1/120 * c.by_ 5 3 * x ^ 5 * s ^ 3 + 1/120 * c.by_ 5 4 * x ^ 5 * s ^ 4 - 1/120 * c.by_ 5 2 * x ^ 5 * y ^ 2 - 1/40 * c.by_ 5 3 * x ^ 5 * y ^ 2 * s - 1/20 * c.by_ 5 4 * x ^ 5 * y ^ 2 * s ^ 2 + 1/120 * c.by_ 5 4 * x ^ 5 * y ^ 4 - 1/360 * c.bx 5 2 * x ^ 6 * y - 1/120 * c.bx 5 3 * x ^ 6 * y * s - 1/60 * c.bx 5 4 * x ^ 6 * y * s ^ 2 + 1/180 * c.bx 5 4 * x ^ 6 * y ^ 3

theorem By6_add (c : Coeffs) (x y s : ℝ) : By6 c x y s = By5 c x y s + dBy6 c x y s := by
  simp only [By6, By5, dBy6]; ring

/-- What the coefficients 5 add to `Bs`. -/
noncomputable def dBs6 (c : Coeffs) (x y s : ℝ) : ℝ :=
  -1/720 * c.bx 5 1 * y ^ 6 - 1/360 * c.bx 5 2 * y ^ 6 * s - 1/240 * c.bx 5 3 * y ^ 6 * s ^ 2 - 1/180 * c.bx 5 4 * y ^ 6 * s ^ 3 + 1/1680 * c.bx 5 3 * y ^ 8 + 1/420 * c.bx 5 4 * y ^ 8 * s + 1/120 * c.by_ 5 1 * x * y ^ 5 + 1/60 * c.by_ 5 2 * x * y ^ 5 * s + 1/40 * c.by_ 5 3 * x * y ^ 5 * s ^ 2 + 1/30 * c.by_ 5 4 * x * y ^ 5 * s ^ 3 - 1/280 * c.by_ 5 3 * x * y ^ 7 - 1/70 * c.by_ 5 4 * x * y ^ 7 * s + 1/48 * c.bx 5 1 * x ^ 2 * y ^ 4 + 1/24 * c.bx 5 2 * x ^ 2 * y ^ 4 * s + 1/16 * c.bx 5 3 * x ^ 2 * y ^ 4 * s ^ 2 + 1/12 * c.bx 5 4 * x ^ 2 * y ^ 4 * s ^ 3 - 1/80 * c.bx 5 3 * x ^ 2 * y ^ 6 - 1/20 * c.bx 5 4 * x ^ 2 * y ^ 6 * s - 1/36 * c.by_ 5 1 * x ^ 3 * y ^ 3 - 1/18 * c.by_ 5 2 * x ^ 3 * y ^ 3 * s - 1/12 * c.by_ 5 3 * x ^ 3 * y ^ 3 * s ^ 2 - 1/9 * c.by_ 5 4 * x ^ 3 * y ^ 3 * s ^ 3 + 1/60 * c.by_ 5 3 * x ^ 3 * y ^ 5 + 1/15 * c.by_ 5 4 * x ^ 3 * y ^ 5 * s - 1/48 * c.bx 5 1 * x ^ 4 * y ^ 2 - 1/24 * c.bx 5 2 * x ^ 4 * y ^ 2 * s - 1/16 * c.bx 5 3 * x ^ 4 * y ^ 2 * s ^ 2 - 1/12 * c.bx 5 4 * x ^ 4 * y ^ 2 * s ^ 3 + 1/48 * c.bx 5 3 * x ^ 4 * y ^ 4 + 1/12 * c.bx 5 4 * x ^ 4 * y ^ 4 * s + 1/120 * c.by_ 5 1 * x ^ 5 * y + 1/60 * c.by_ 5 2 * x ^ 5 * y * s + 1/40 * c.by_ 5 3 * x ^ 5 * y * s ^ 2 + 1/30 * c.by_ 5 4 * x ^ 5 * y * s ^ 3 - 1/120 * c.by_ 5 3 * x ^ 5 * y ^ 3 - 1/30 * c.by_ 5 4 * x ^ 5 * y ^ 3 * s + 1/720 * c.bx 5 1 * x ^ 6 + 1/360 * c.bx 5 2 * x ^ 6 * s + 1/240 * c.bx 5 3 * x ^ 6 * s ^ 2 + 1/180 * c.bx 5 4 * x ^ 6 * s ^ 3 - 1/240 * c.bx 5 3 * x ^ 6 * y ^ 2 - 1/60 * c.bx 5 4 * x ^ 6 * y ^ 2 * s

theorem Bs6_add (c : Coeffs) (x y s : ℝ) : Bs6 c x y s = Bs5 c x y s + dBs6 c x y s := by
  simp only [Bs6, Bs5, dBs6]; ring

theorem dBx6_x (c : Coeffs) (x y s : ℝ) : dBx6 c x y s = horner
    [1/120 * c.by_ 5 0 * y ^ 5 + 1/120 * c.by_ 5 1 * y ^ 5 * s + 1/120 * c.by_ 5 2 * y ^ 5 * s ^ 2 + 1/120 * c.by_ 5 3 * y ^ 5 * s ^ 3 + 1/120 * c.by_ 5 4 * y ^ 5 * s ^ 4 - 1/840 * c.by_ 5 2 * y ^ 7 - 1/280 * c.by_ 5 3 * y ^ 7 * s - 1/140 * c.by_ 5 4 * y ^ 7 * s ^ 2 + 1/2520 * c.by_ 5 4 * y ^ 9,
      1/24 * c.bx 5 0 * y ^ 4 + 1/24 * c.bx 5 1 * y ^ 4 * s + 1/24 * c.bx 5 2 * y ^ 4 * s ^ 2 + 1/24 * c.bx 5 3 * y ^ 4 * s ^ 3 + 1/24 * c.bx 5 4 * y ^ 4 * s ^ 4 - 1/120 * c.bx 5 2 * y ^ 6 - 1/40 * c.bx 5 3 * y ^ 6 * s - 1/20 * c.bx 5 4 * y ^ 6 * s ^ 2 + 1/280 * c.bx 5 4 * y ^ 8,
      -1/12 * c.by_ 5 0 * y ^ 3 - 1/12 * c.by_ 5 1 * y ^ 3 * s - 1/12 * c.by_ 5 2 * y ^ 3 * s ^ 2 - 1/12 * c.by_ 5 3 * y ^ 3 * s ^ 3 - 1/12 * c.by_ 5 4 * y ^ 3 * s ^ 4 + 1/60 * c.by_ 5 2 * y ^ 5 + 1/20 * c.by_ 5 3 * y ^ 5 * s + 1/10 * c.by_ 5 4 * y ^ 5 * s ^ 2 - 1/140 * c.by_ 5 4 * y ^ 7,
      -1/12 * c.bx 5 0 * y ^ 2 - 1/12 * c.bx 5 1 * y ^ 2 * s - 1/12 * c.bx 5 2 * y ^ 2 * s ^ 2 - 1/12 * c.bx 5 3 * y ^ 2 * s ^ 3 - 1/12 * c.bx 5 4 * y ^ 2 * s ^ 4 + 1/36 * c.bx 5 2 * y ^ 4 + 1/12 * c.bx 5 3 * y ^ 4 * s + 1/6 * c.bx 5 4 * y ^ 4 * s ^ 2 - 1/60 * c.bx 5 4 * y ^ 6,
      1/24 * c.by_ 5 0 * y + 1/24 * c.by_ 5 1 * y * s + 1/24 * c.by_ 5 2 * y * s ^ 2 + 1/24 * c.by_ 5 3 * y * s ^ 3 + 1/24 * c.by_ 5 4 * y * s ^ 4 - 1/72 * c.by_ 5 2 * y ^ 3 - 1/24 * c.by_ 5 3 * y ^ 3 * s - 1/12 * c.by_ 5 4 * y ^ 3 * s ^ 2 + 1/120 * c.by_ 5 4 * y ^ 5,
      1/120 * c.bx 5 0 + 1/120 * c.bx 5 1 * s + 1/120 * c.bx 5 2 * s ^ 2 + 1/120 * c.bx 5 3 * s ^ 3 + 1/120 * c.bx 5 4 * s ^ 4 - 1/120 * c.bx 5 2 * y ^ 2 - 1/40 * c.bx 5 3 * y ^ 2 * s - 1/20 * c.bx 5 4 * y ^ 2 * s ^ 2 + 1/120 * c.bx 5 4 * y ^ 4] x := by
  simp only [dBx6, horner]; ring

theorem dBx6_y (c : Coeffs) (x y s : ℝ) : dBx6 c x y s = horner
    [1/120 * c.bx 5 0 * x ^ 5 + 1/120 * c.bx 5 1 * x ^ 5 * s + 1/120 * c.bx 5 2 * x ^ 5 * s ^ 2 + 1/120 * c.bx 5 3 * x ^ 5 * s ^ 3 + 1/120 * c.bx 5 4 * x ^ 5 * s ^ 4,
      1/24 * c.by_ 5 0 * x ^ 4 + 1/24 * c.by_ 5 1 * x ^ 4 * s + 1/24 * c.by_ 5 2 * x ^ 4 * s ^ 2 + 1/24 * c.by_ 5 3 * x ^ 4 * s ^ 3 + 1/24 * c.by_ 5 4 * x ^ 4 * s ^ 4,
      -1/12 * c.bx 5 0 * x ^ 3 - 1/12 * c.bx 5 1 * x ^ 3 * s - 1/12 * c.bx 5 2 * x ^ 3 * s ^ 2 - 1/12 * c.bx 5 3 * x ^ 3 * s ^ 3 - 1/12 * c.bx 5 4 * x ^ 3 * s ^ 4 - 1/120 * c.bx 5 2 * x ^ 5 - 1/40 * c.bx 5 3 * x ^ 5 * s - 1/20 * c.bx 5 4 * x ^ 5 * s ^ 2,
      -1/12 * c.by_ 5 0 * x ^ 2 - 1/12 * c.by_ 5 1 * x ^ 2 * s - 1/12 * c.by_ 5 2 * x ^ 2 * s ^ 2 - 1/12 * c.by_ 5 3 * x ^ 2 * s ^ 3 - 1/12 * c.by_ 5 4 * x ^ 2 * s ^ 4 - 1/72 * c.by_ 5 2 * x ^ 4 - 1/24 * c.by_ 5 3 * x ^ 4 * s - 1/12 * c.by_ 5 4 * x ^ 4 * s ^ 2,
      1/24 * c.bx 5 0 * x + 1/24 * c.bx 5 1 * x * s + 1/24 * c.bx 5 2 * x * s ^ 2 + 1/24 * c.bx 5 3 * x * s ^ 3 + 1/24 * c.bx 5 4 * x * s ^ 4 + 1/36 * c.bx 5 2 * x ^ 3 + 1/12 * c.bx 5 3 * x ^ 3 * s + 1/6 * c.bx 5 4 * x ^ 3 * s ^ 2 + 1/120 * c.bx 5 4 * x ^ 5,
      1/120 * c.by_ 5 0 + 1/120 * c.by_ 5 1 * s + 1/120 * c.by_ 5 2 * s ^ 2 + 1/120 * c.by_ 5 3 * s ^ 3 + 1/120 * c.by_ 5 4 * s ^ 4 + 1/60 * c.by_ 5 2 * x ^ 2 + 1/20 * c.by_ 5 3 * x ^ 2 * s + 1/10 * c.by_ 5 4 * x ^ 2 * s ^ 2 + 1/120 * c.by_ 5 4 * x ^ 4,
      -1/120 * c.bx 5 2 * x - 1/40 * c.bx 5 3 * x * s - 1/20 * c.bx 5 4 * x * s ^ 2 - 1/60 * c.bx 5 4 * x ^ 3,
      -1/840 * c.by_ 5 2 - 1/280 * c.by_ 5 3 * s - 1/140 * c.by_ 5 4 * s ^ 2 - 1/140 * c.by_ 5 4 * x ^ 2,
      1/280 * c.bx 5 4 * x,
      1/2520 * c.by_ 5 4] y := by
  simp only [dBx6, horner]; ring

theorem dBx6_s (c : Coeffs) (x y s : ℝ) : dBx6 c x y s = horner
    [1/120 * c.by_ 5 0 * y ^ 5 - 1/840 * c.by_ 5 2 * y ^ 7 + 1/2520 * c.by_ 5 4 * y ^ 9 + 1/24 * c.bx 5 0 * x * y ^ 4 - 1/120 * c.bx 5 2 * x * y ^ 6 + 1/280 * c.bx 5 4 * x * y ^ 8 - 1/12 * c.by_ 5 0 * x ^ 2 * y ^ 3 + 1/60 * c.by_ 5 2 * x ^ 2 * y ^ 5 - 1/140 * c.by_ 5 4 * x ^ 2 * y ^ 7 - 1/12 * c.bx 5 0 * x ^ 3 * y ^ 2 + 1/36 * c.bx 5 2 * x ^ 3 * y ^ 4 - 1/60 * c.bx 5 4 * x ^ 3 * y ^ 6 + 1/24 * c.by_ 5 0 * x ^ 4 * y - 1/72 * c.by_ 5 2 * x ^ 4 * y ^ 3 + 1/120 * c.by_ 5 4 * x ^ 4 * y ^ 5 + 1/120 * c.bx 5 0 * x ^ 5 - 1/120 * c.bx 5 2 * x ^ 5 * y ^ 2 + 1/120 * c.bx 5 4 * x ^ 5 * y ^ 4,
      1/120 * c.by_ 5 1 * y ^ 5 - 1/280 * c.by_ 5 3 * y ^ 7 + 1/24 * c.bx 5 1 * x * y ^ 4 - 1/40 * c.bx 5 3 * x * y ^ 6 - 1/12 * c.by_ 5 1 * x ^ 2 * y ^ 3 + 1/20 * c.by_ 5 3 * x ^ 2 * y ^ 5 - 1/12 * c.bx 5 1 * x ^ 3 * y ^ 2 + 1/12 * c.bx 5 3 * x ^ 3 * y ^ 4 + 1/24 * c.by_ 5 1 * x ^ 4 * y - 1/24 * c.by_ 5 3 * x ^ 4 * y ^ 3 + 1/120 * c.bx 5 1 * x ^ 5 - 1/40 * c.bx 5 3 * x ^ 5 * y ^ 2,
      1/120 * c.by_ 5 2 * y ^ 5 - 1/140 * c.by_ 5 4 * y ^ 7 + 1/24 * c.bx 5 2 * x * y ^ 4 - 1/20 * c.bx 5 4 * x * y ^ 6 - 1/12 * c.by_ 5 2 * x ^ 2 * y ^ 3 + 1/10 * c.by_ 5 4 * x ^ 2 * y ^ 5 - 1/12 * c.bx 5 2 * x ^ 3 * y ^ 2 + 1/6 * c.bx 5 4 * x ^ 3 * y ^ 4 + 1/24 * c.by_ 5 2 * x ^ 4 * y - 1/12 * c.by_ 5 4 * x ^ 4 * y ^ 3 + 1/120 * c.bx 5 2 * x ^ 5 - 1/20 * c.bx 5 4 * x ^ 5 * y ^ 2,
      1/120 * c.by_ 5 3 * y ^ 5 + 1/24 * c.bx 5 3 * x * y ^ 4 - 1/12 * c.by_ 5 3 * x ^ 2 * y ^ 3 - 1/12 * c.bx 5 3 * x ^ 3 * y ^ 2 + 1/24 * c.by_ 5 3 * x ^ 4 * y + 1/120 * c.bx 5 3 * x ^ 5,
      1/120 * c.by_ 5 4 * y ^ 5 + 1/24 * c.bx 5 4 * x * y ^ 4 - 1/12 * c.by_ 5 4 * x ^ 2 * y ^ 3 - 1/12 * c.bx 5 4 * x ^ 3 * y ^ 2 + 1/24 * c.by_ 5 4 * x ^ 4 * y + 1/120 * c.bx 5 4 * x ^ 5] s := by
  simp only [dBx6, horner]; ring

theorem dBy6_x (c : Coeffs) (x y s : ℝ) : dBy6 c x y s = horner
    [-1/120 * c.bx 5 0 * y ^ 5 - 1/120 * c.bx 5 1 * y ^ 5 * s - 1/120 * c.bx 5 2 * y ^ 5 * s ^ 2 - 1/120 * c.bx 5 3 * y ^ 5 * s ^ 3 - 1/120 * c.bx 5 4 * y ^ 5 * s ^ 4 + 1/630 * c.bx 5 2 * y ^ 7 + 1/210 * c.bx 5 3 * y ^ 7 * s + 1/105 * c.bx 5 4 * y ^ 7 * s ^ 2 - 1/1512 * c.bx 5 4 * y ^ 9,
      1/24 * c.by_ 5 0 * y ^ 4 + 1/24 * c.by_ 5 1 * y ^ 4 * s + 1/24 * c.by_ 5 2 * y ^ 4 * s ^ 2 + 1/24 * c.by_ 5 3 * y ^ 4 * s ^ 3 + 1/24 * c.by_ 5 4 * y ^ 4 * s ^ 4 - 1/120 * c.by_ 5 2 * y ^ 6 - 1/40 * c.by_ 5 3 * y ^ 6 * s - 1/20 * c.by_ 5 4 * y ^ 6 * s ^ 2 + 1/280 * c.by_ 5 4 * y ^ 8,
      1/12 * c.bx 5 0 * y ^ 3 + 1/12 * c.bx 5 1 * y ^ 3 * s + 1/12 * c.bx 5 2 * y ^ 3 * s ^ 2 + 1/12 * c.bx 5 3 * y ^ 3 * s ^ 3 + 1/12 * c.bx 5 4 * y ^ 3 * s ^ 4 - 1/40 * c.bx 5 2 * y ^ 5 - 3/40 * c.bx 5 3 * y ^ 5 * s - 3/20 * c.bx 5 4 * y ^ 5 * s ^ 2 + 1/70 * c.bx 5 4 * y ^ 7,
      -1/12 * c.by_ 5 0 * y ^ 2 - 1/12 * c.by_ 5 1 * y ^ 2 * s - 1/12 * c.by_ 5 2 * y ^ 2 * s ^ 2 - 1/12 * c.by_ 5 3 * y ^ 2 * s ^ 3 - 1/12 * c.by_ 5 4 * y ^ 2 * s ^ 4 + 1/36 * c.by_ 5 2 * y ^ 4 + 1/12 * c.by_ 5 3 * y ^ 4 * s + 1/6 * c.by_ 5 4 * y ^ 4 * s ^ 2 - 1/60 * c.by_ 5 4 * y ^ 6,
      -1/24 * c.bx 5 0 * y - 1/24 * c.bx 5 1 * y * s - 1/24 * c.bx 5 2 * y * s ^ 2 - 1/24 * c.bx 5 3 * y * s ^ 3 - 1/24 * c.bx 5 4 * y * s ^ 4 + 1/36 * c.bx 5 2 * y ^ 3 + 1/12 * c.bx 5 3 * y ^ 3 * s + 1/6 * c.bx 5 4 * y ^ 3 * s ^ 2 - 1/40 * c.bx 5 4 * y ^ 5,
      1/120 * c.by_ 5 0 + 1/120 * c.by_ 5 1 * s + 1/120 * c.by_ 5 2 * s ^ 2 + 1/120 * c.by_ 5 3 * s ^ 3 + 1/120 * c.by_ 5 4 * s ^ 4 - 1/120 * c.by_ 5 2 * y ^ 2 - 1/40 * c.by_ 5 3 * y ^ 2 * s - 1/20 * c.by_ 5 4 * y ^ 2 * s ^ 2 + 1/120 * c.by_ 5 4 * y ^ 4,
      -1/360 * c.bx 5 2 * y - 1/120 * c.bx 5 3 * y * s - 1/60 * c.bx 5 4 * y * s ^ 2 + 1/180 * c.bx 5 4 * y ^ 3] x := by
  simp only [dBy6, horner]; ring

theorem dBy6_y (c : Coeffs) (x y s : ℝ) : dBy6 c x y s = horner
    [1/120 * c.by_ 5 0 * x ^ 5 + 1/120 * c.by_ 5 1 * x ^ 5 * s + 1/120 * c.by_ 5 2 * x ^ 5 * s ^ 2 + 1/120 * c.by_ 5 3 * x ^ 5 * s ^ 3 + 1/120 * c.by_ 5 4 * x ^ 5 * s ^ 4,
      -1/24 * c.bx 5 0 * x ^ 4 - 1/24 * c.bx 5 1 * x ^ 4 * s - 1/24 * c.bx 5 2 * x ^ 4 * s ^ 2 - 1/24 * c.bx 5 3 * x ^ 4 * s ^ 3 - 1/24 * c.bx 5 4 * x ^ 4 * s ^ 4 - 1/360 * c.bx 5 2 * x ^ 6 - 1/120 * c.bx 5 3 * x ^ 6 * s - 1/60 * c.bx 5 4 * x ^ 6 * s ^ 2,
      -1/12 * c.by_ 5 0 * x ^ 3 - 1/12 * c.by_ 5 1 * x ^ 3 * s - 1/12 * c.by_ 5 2 * x ^ 3 * s ^ 2 - 1/12 * c.by_ 5 3 * x ^ 3 * s ^ 3 - 1/12 * c.by_ 5 4 * x ^ 3 * s ^ 4 - 1/120 * c.by_ 5 2 * x ^ 5 - 1/40 * c.by_ 5 3 * x ^ 5 * s - 1/20 * c.by_ 5 4 * x ^ 5 * s ^ 2,
      1/12 * c.bx 5 0 * x ^ 2 + 1/12 * c.bx 5 1 * x ^ 2 * s + 1/12 * c.bx 5 2 * x ^ 2 * s ^ 2 + 1/12 * c.bx 5 3 * x ^ 2 * s ^ 3 + 1/12 * c.bx 5 4 * x ^ 2 * s ^ 4 + 1/36 * c.bx 5 2 * x ^ 4 + 1/12 * c.bx 5 3 * x ^ 4 * s + 1/6 * c.bx 5 4 * x ^ 4 * s ^ 2 + 1/180 * c.bx 5 4 * x ^ 6,
      1/24 * c.by_ 5 0 * x + 1/24 * c.by_ 5 1 * x * s + 1/24 * c.by_ 5 2 * x * s ^ 2 + 1/24 * c.by_ 5 3 * x * s ^ 3 + 1/24 * c.by_ 5 4 * x * s ^ 4 + 1/36 * c.by_ 5 2 * x ^ 3 + 1/12 * c.by_ 5 3 * x ^ 3 * s + 1/6 * c.by_ 5 4 * x ^ 3 * s ^ 2 + 1/120 * c.by_ 5 4 * x ^ 5,
      -1/120 * c.bx 5 0 - 1/120 * c.bx 5 1 * s - 1/120 * c.bx 5 2 * s ^ 2 - 1/120 * c.bx 5 3 * s ^ 3 - 1/120 * c.bx 5 4 * s ^ 4 - 1/40 * c.bx 5 2 * x ^ 2 - 3/40 * c.bx 5 3 * x ^ 2 * s - 3/20 * c.bx 5 4 * x ^ 2 * s ^ 2 - 1/40 * c.bx 5 4 * x ^ 4,
      -1/120 * c.by_ 5 2 * x - 1/40 * c.by_ 5 3 * x * s - 1/20 * c.by_ 5 4 * x * s ^ 2 - 1/60 * c.by_ 5 4 * x ^ 3,
      1/630 * c.bx 5 2 + 1/210 * c.bx 5 3 * s + 1/105 * c.bx 5 4 * s ^ 2 + 1/70 * c.bx 5 4 * x ^ 2,
      1/280 * c.by_ 5 4 * x,
      -1/1512 * c.bx 5 4] y := by
  simp only [dBy6, horner]; ring

theorem dBy6_s (c : Coeffs) (x y s : ℝ) : dBy6 c x y s = horner
    [-1/120 * c.bx 5 0 * y ^ 5 + 1/630 * c.bx 5 2 * y ^ 7 - 1/1512 * c.bx 5 4 * y ^ 9 + 1/24 * c.by_ 5 0 * x * y ^ 4 - 1/120 * c.by_ 5 2 * x * y ^ 6 + 1/280 * c.by_ 5 4 * x * y ^ 8 + 1/12 * c.bx 5 0 * x ^ 2 * y ^ 3 - 1/40 * c.bx 5 2 * x ^ 2 * y ^ 5 + 1/70 * c.bx 5 4 * x ^ 2 * y ^ 7 - 1/12 * c.by_ 5 0 * x ^ 3 * y ^ 2 + 1/36 * c.by_ 5 2 * x ^ 3 * y ^ 4 - 1/60 * c.by_ 5 4 * x ^ 3 * y ^ 6 - 1/24 * c.bx 5 0 * x ^ 4 * y + 1/36 * c.bx 5 2 * x ^ 4 * y ^ 3 - 1/40 * c.bx 5 4 * x ^ 4 * y ^ 5 + 1/120 * c.by_ 5 0 * x ^ 5 - 1/120 * c.by_ 5 2 * x ^ 5 * y ^ 2 + 1/120 * c.by_ 5 4 * x ^ 5 * y ^ 4 - 1/360 * c.bx 5 2 * x ^ 6 * y + 1/180 * c.bx 5 4 * x ^ 6 * y ^ 3,
      -1/120 * c.bx 5 1 * y ^ 5 + 1/210 * c.bx 5 3 * y ^ 7 + 1/24 * c.by_ 5 1 * x * y ^ 4 - 1/40 * c.by_ 5 3 * x * y ^ 6 + 1/12 * c.bx 5 1 * x ^ 2 * y ^ 3 - 3/40 * c.bx 5 3 * x ^ 2 * y ^ 5 - 1/12 * c.by_ 5 1 * x ^ 3 * y ^ 2 + 1/12 * c.by_ 5 3 * x ^ 3 * y ^ 4 - 1/24 * c.bx 5 1 * x ^ 4 * y + 1/12 * c.bx 5 3 * x ^ 4 * y ^ 3 + 1/120 * c.by_ 5 1 * x ^ 5 - 1/40 * c.by_ 5 3 * x ^ 5 * y ^ 2 - 1/120 * c.bx 5 3 * x ^ 6 * y,
      -1/120 * c.bx 5 2 * y ^ 5 + 1/105 * c.bx 5 4 * y ^ 7 + 1/24 * c.by_ 5 2 * x * y ^ 4 - 1/20 * c.by_ 5 4 * x * y ^ 6 + 1/12 * c.bx 5 2 * x ^ 2 * y ^ 3 - 3/20 * c.bx 5 4 * x ^ 2 * y ^ 5 - 1/12 * c.by_ 5 2 * x ^ 3 * y ^ 2 + 1/6 * c.by_ 5 4 * x ^ 3 * y ^ 4 - 1/24 * c.bx 5 2 * x ^ 4 * y + 1/6 * c.bx 5 4 * x ^ 4 * y ^ 3 + 1/120 * c.by_ 5 2 * x ^ 5 - 1/20 * c.by_ 5 4 * x ^ 5 * y ^ 2 - 1/60 * c.bx 5 4 * x ^ 6 * y,
      -1/120 * c.bx 5 3 * y ^ 5 + 1/24 * c.by_ 5 3 * x * y ^ 4 + 1/12 * c.bx 5 3 * x ^ 2 * y ^ 3 - 1/12 * c.by_ 5 3 * x ^ 3 * y ^ 2 - 1/24 * c.bx 5 3 * x ^ 4 * y + 1/120 * c.by_ 5 3 * x ^ 5,
      -1/120 * c.bx 5 4 * y ^ 5 + 1/24 * c.by_ 5 4 * x * y ^ 4 + 1/12 * c.bx 5 4 * x ^ 2 * y ^ 3 - 1/12 * c.by_ 5 4 * x ^ 3 * y ^ 2 - 1/24 * c.bx 5 4 * x ^ 4 * y + 1/120 * c.by_ 5 4 * x ^ 5] s := by
  simp only [dBy6, horner]; ring

theorem dBs6_x (c : Coeffs) (x y s : ℝ) : dBs6 c x y s = horner
    [-1/720 * c.bx 5 1 * y ^ 6 - 1/360 * c.bx 5 2 * y ^ 6 * s - 1/240 * c.bx 5 3 * y ^ 6 * s ^ 2 - 1/180 * c.bx 5 4 * y ^ 6 * s ^ 3 + 1/1680 * c.bx 5 3 * y ^ 8 + 1/420 * c.bx 5 4 * y ^ 8 * s,
      1/120 * c.by_ 5 1 * y ^ 5 + 1/60 * c.by_ 5 2 * y ^ 5 * s + 1/40 * c.by_ 5 3 * y ^ 5 * s ^ 2 + 1/30 * c.by_ 5 4 * y ^ 5 * s ^ 3 - 1/280 * c.by_ 5 3 * y ^ 7 - 1/70 * c.by_ 5 4 * y ^ 7 * s,
      1/48 * c.bx 5 1 * y ^ 4 + 1/24 * c.bx 5 2 * y ^ 4 * s + 1/16 * c.bx 5 3 * y ^ 4 * s ^ 2 + 1/12 * c.bx 5 4 * y ^ 4 * s ^ 3 - 1/80 * c.bx 5 3 * y ^ 6 - 1/20 * c.bx 5 4 * y ^ 6 * s,
      -1/36 * c.by_ 5 1 * y ^ 3 - 1/18 * c.by_ 5 2 * y ^ 3 * s - 1/12 * c.by_ 5 3 * y ^ 3 * s ^ 2 - 1/9 * c.by_ 5 4 * y ^ 3 * s ^ 3 + 1/60 * c.by_ 5 3 * y ^ 5 + 1/15 * c.by_ 5 4 * y ^ 5 * s,
      -1/48 * c.bx 5 1 * y ^ 2 - 1/24 * c.bx 5 2 * y ^ 2 * s - 1/16 * c.bx 5 3 * y ^ 2 * s ^ 2 - 1/12 * c.bx 5 4 * y ^ 2 * s ^ 3 + 1/48 * c.bx 5 3 * y ^ 4 + 1/12 * c.bx 5 4 * y ^ 4 * s,
      1/120 * c.by_ 5 1 * y + 1/60 * c.by_ 5 2 * y * s + 1/40 * c.by_ 5 3 * y * s ^ 2 + 1/30 * c.by_ 5 4 * y * s ^ 3 - 1/120 * c.by_ 5 3 * y ^ 3 - 1/30 * c.by_ 5 4 * y ^ 3 * s,
      1/720 * c.bx 5 1 + 1/360 * c.bx 5 2 * s + 1/240 * c.bx 5 3 * s ^ 2 + 1/180 * c.bx 5 4 * s ^ 3 - 1/240 * c.bx 5 3 * y ^ 2 - 1/60 * c.bx 5 4 * y ^ 2 * s] x := by
  simp only [dBs6, horner]; ring

theorem dBs6_y (c : Coeffs) (x y s : ℝ) : dBs6 c x y s = horner
    [1/720 * c.bx 5 1 * x ^ 6 + 1/360 * c.bx 5 2 * x ^ 6 * s + 1/240 * c.bx 5 3 * x ^ 6 * s ^ 2 + 1/180 * c.bx 5 4 * x ^ 6 * s ^ 3,
      1/120 * c.by_ 5 1 * x ^ 5 + 1/60 * c.by_ 5 2 * x ^ 5 * s + 1/40 * c.by_ 5 3 * x ^ 5 * s ^ 2 + 1/30 * c.by_ 5 4 * x ^ 5 * s ^ 3,
      -1/48 * c.bx 5 1 * x ^ 4 - 1/24 * c.bx 5 2 * x ^ 4 * s - 1/16 * c.bx 5 3 * x ^ 4 * s ^ 2 - 1/12 * c.bx 5 4 * x ^ 4 * s ^ 3 - 1/240 * c.bx 5 3 * x ^ 6 - 1/60 * c.bx 5 4 * x ^ 6 * s,
      -1/36 * c.by_ 5 1 * x ^ 3 - 1/18 * c.by_ 5 2 * x ^ 3 * s - 1/12 * c.by_ 5 3 * x ^ 3 * s ^ 2 - 1/9 * c.by_ 5 4 * x ^ 3 * s ^ 3 - 1/120 * c.by_ 5 3 * x ^ 5 - 1/30 * c.by_ 5 4 * x ^ 5 * s,
      1/48 * c.bx 5 1 * x ^ 2 + 1/24 * c.bx 5 2 * x ^ 2 * s + 1/16 * c.bx 5 3 * x ^ 2 * s ^ 2 + 1/12 * c.bx 5 4 * x ^ 2 * s ^ 3 + 1/48 * c.bx 5 3 * x ^ 4 + 1/12 * c.bx 5 4 * x ^ 4 * s,
      1/120 * c.by_ 5 1 * x + 1/60 * c.by_ 5 2 * x * s + 1/40 * c.by_ 5 3 * x * s ^ 2 + 1/30 * c.by_ 5 4 * x * s ^ 3 + 1/60 * c.by_ 5 3 * x ^ 3 + 1/15 * c.by_ 5 4 * x ^ 3 * s,
      -1/720 * c.bx 5 1 - 1/360 * c.bx 5 2 * s - 1/240 * c.bx 5 3 * s ^ 2 - 1/180 * c.bx 5 4 * s ^ 3 - 1/80 * c.bx 5 3 * x ^ 2 - 1/20 * c.bx 5 4 * x ^ 2 * s,
      -1/280 * c.by_ 5 3 * x - 1/70 * c.by_ 5 4 * x * s,
      1/1680 * c.bx 5 3 + 1/420 * c.bx 5 4 * s] y := by
  simp only [dBs6, horner]; ring

theorem dBs6_s (c : Coeffs) (x y s : ℝ) : dBs6 c x y s = horner
    [-1/720 * c.bx 5 1 * y ^ 6 + 1/1680 * c.bx 5 3 * y ^ 8 + 1/120 * c.by_ 5 1 * x * y ^ 5 - 1/280 * c.by_ 5 3 * x * y ^ 7 + 1/48 * c.bx 5 1 * x ^ 2 * y ^ 4 - 1/80 * c.bx 5 3 * x ^ 2 * y ^ 6 - 1/36 * c.by_ 5 1 * x ^ 3 * y ^ 3 + 1/60 * c.by_ 5 3 * x ^ 3 * y ^ 5 - 1/48 * c.bx 5 1 * x ^ 4 * y ^ 2 + 1/48 * c.bx 5 3 * x ^ 4 * y ^ 4 + 1/120 * c.by_ 5 1 * x ^ 5 * y - 1/120 * c.by_ 5 3 * x ^ 5 * y ^ 3 + 1/720 * c.bx 5 1 * x ^ 6 - 1/240 * c.bx 5 3 * x ^ 6 * y ^ 2,
      -1/360 * c.bx 5 2 * y ^ 6 + 1/420 * c.bx 5 4 * y ^ 8 + 1/60 * c.by_ 5 2 * x * y ^ 5 - 1/70 * c.by_ 5 4 * x * y ^ 7 + 1/24 * c.bx 5 2 * x ^ 2 * y ^ 4 - 1/20 * c.bx 5 4 * x ^ 2 * y ^ 6 - 1/18 * c.by_ 5 2 * x ^ 3 * y ^ 3 + 1/15 * c.by_ 5 4 * x ^ 3 * y ^ 5 - 1/24 * c.bx 5 2 * x ^ 4 * y ^ 2 + 1/12 * c.bx 5 4 * x ^ 4 * y ^ 4 + 1/60 * c.by_ 5 2 * x ^ 5 * y - 1/30 * c.by_ 5 4 * x ^ 5 * y ^ 3 + 1/360 * c.bx 5 2 * x ^ 6 - 1/60 * c.bx 5 4 * x ^ 6 * y ^ 2,
      -1/240 * c.bx 5 3 * y ^ 6 + 1/40 * c.by_ 5 3 * x * y ^ 5 + 1/16 * c.bx 5 3 * x ^ 2 * y ^ 4 - 1/12 * c.by_ 5 3 * x ^ 3 * y ^ 3 - 1/16 * c.bx 5 3 * x ^ 4 * y ^ 2 + 1/40 * c.by_ 5 3 * x ^ 5 * y + 1/240 * c.bx 5 3 * x ^ 6,
      -1/180 * c.bx 5 4 * y ^ 6 + 1/30 * c.by_ 5 4 * x * y ^ 5 + 1/12 * c.bx 5 4 * x ^ 2 * y ^ 4 - 1/9 * c.by_ 5 4 * x ^ 3 * y ^ 3 - 1/12 * c.bx 5 4 * x ^ 4 * y ^ 2 + 1/30 * c.by_ 5 4 * x ^ 5 * y + 1/180 * c.bx 5 4 * x ^ 6] s := by
  simp only [dBs6, horner]; ring

theorem dmaxwell6 (c : Coeffs) (x y s : ℝ) : Vacuum (dBx6 c) (dBy6 c) (dBs6 c) x y s := by
  have hBxx : HasDerivAt (fun t => dBx6 c t y s) _ x :=
    (horner_deriv _ x).congr_of_eventuallyEq (Filter.Eventually.of_forall fun t => dBx6_x c t y s)
  have hBxy : HasDerivAt (fun t => dBx6 c x t s) _ y :=
    (horner_deriv _ y).congr_of_eventuallyEq (Filter.Eventually.of_forall fun t => dBx6_y c x t s)
  have hBxs : HasDerivAt (fun t => dBx6 c x y t) _ s :=
    (horner_deriv _ s).congr_of_eventuallyEq (Filter.Eventually.of_forall fun t => dBx6_s c x y t)
  have hByx : HasDerivAt (fun t => dBy6 c t y s) _ x :=
    (horner_deriv _ x).congr_of_eventuallyEq (Filter.Eventually.of_forall fun t => dBy6_x c t y s)
  have hByy : HasDerivAt (fun t => dBy6 c x t s) _ y :=
    (horner_deriv _ y).congr_of_eventuallyEq (Filter.Eventually.of_forall fun t => dBy6_y c x t s)
  have hBys : HasDerivAt (fun t => dBy6 c x y t) _ s :=
    (horner_deriv _ s).congr_of_eventuallyEq (Filter.Eventually.of_forall fun t => dBy6_s c x y t)
  have hBsx : HasDerivAt (fun t => dBs6 c t y s) _ x :=
    (horner_deriv _ x).congr_of_eventuallyEq (Filter.Eventually.of_forall fun t => dBs6_x c t y s)
  have hBsy : HasDerivAt (fun t => dBs6 c x t s) _ y :=
    (horner_deriv _ y).congr_of_eventuallyEq (Filter.Eventually.of_forall fun t => dBs6_y c x t s)
  have hBss : HasDerivAt (fun t => dBs6 c x y t) _ s :=
    (horner_deriv _ s).congr_of_eventuallyEq (Filter.Eventually.of_forall fun t => dBs6_s c x y t)
  refine ⟨_, _, _, _, _, _, _, _, _, hBxx, hBxy, hBxs, hByx, hByy, hBys, hBsx, hBsy, hBss, ?_, ?_, ?_, ?_⟩ <;>
    (simp only [dhorner, horner]; ring)

theorem maxwell6 (c : Coeffs) (x y s : ℝ) : Vacuum (Bx6 c) (By6 c) (Bs6 c) x y s := by
  rw [show Bx6 c = fun x y s => Bx5 c x y s + dBx6 c x y s from funext fun x => funext fun y => funext fun s => Bx6_add c x y s,
    show By6 c = fun x y s => By5 c x y s + dBy6 c x y s from funext fun x => funext fun y => funext fun s => By6_add c x y s,
    show Bs6 c = fun x y s => Bs5 c x y s + dBs6 c x y s from funext fun x => funext fun y => funext fun s => Bs6_add c x y s]
  exact (maxwell5 c x y s).add (dmaxwell6 c x y s)

theorem midplane6 (c : Coeffs) (x s : ℝ) :
    Bx6 c x 0 s = x ^ 0 / 1 * poly (c.bx 0) s + x ^ 1 / 1 * poly (c.bx 1) s + x ^ 2 / 2 * poly (c.bx 2) s + x ^ 3 / 6 * poly (c.bx 3) s + x ^ 4 / 24 * poly (c.bx 4) s + x ^ 5 / 120 * poly (c.bx 5) s ∧
    By6 c x 0 s = x ^ 0 / 1 * poly (c.by_ 0) s + x ^ 1 / 1 * poly (c.by_ 1) s + x ^ 2 / 2 * poly (c.by_ 2) s + x ^ 3 / 6 * poly (c.by_ 3) s + x ^ 4 / 24 * poly (c.by_ 4) s + x ^ 5 / 120 * poly (c.by_ 5) s ∧
    Bs6 c 0 0 s = poly c.bs s := by
  obtain ⟨h1, h2, h3⟩ := midplane5 c x s
  rw [Bx6_add, By6_add, Bs6_add, h1, h2, h3]
  refine ⟨?_, ?_, ?_⟩
  · simp only [dBx6, poly]; ring
  · simp only [dBy6, poly]; ring
  · simp only [dBs6, poly]; ring

end Verif.Boris
