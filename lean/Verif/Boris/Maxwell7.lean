import Verif.Boris.Field
import Verif.Boris.Horner
import Verif.Boris.Maxwell6

/-! The field for the multipole order 7 has no divergence and no curl: it is that for the order 6 and
the terms of the last coefficients. -/

namespace Verif.Boris

/-- What the coefficients 6 add to `Bx`. -/
noncomputable def dBx7 (c : Coeffs) (x y s : ℝ) : ℝ :=
  -1/720 * c.bx 6 0 * y ^ 6 - 1/720 * c.bx 6 1 * y ^ 6 * s - 1/720 * c.bx 6 2 * y ^ 6 * s ^ 2 - 1/720 * c.bx 6 3 * y ^ 6 * s ^ 3 - 1/720 * c.bx 6 4 * y ^ 6 * s ^ 4 + 1/5040 * c.bx 6 2 * y ^ 8 + 1/1680 * c.bx 6 3 * y ^ 8 * s + 1/840 * c.bx 6 4 * y ^ 8 * s ^ 2 - 1/15120 * c.bx 6 4 * y ^ 10 + 1/120 * c.by_ 6 0 * x * y ^ 5 + 1/120 * c.by_ 6 1 * x * y ^ 5 * s + 1/120 * c.by_ 6 2 * x * y ^ 5 * s ^ 2 + 1/120 * c.by_ 6 3 * x * y ^ 5 * s ^ 3 + 1/120 * c.by_ 6 4 * x * y ^ 5 * s ^ 4 - 1/840 * c.by_ 6 2 * x * y ^ 7 - 1/280 * c.by_ 6 3 * x * y ^ 7 * s - 1/140 * c.by_ 6 4 * x * y ^ 7 * s ^ 2 + 1/2520 * c.by_ 6 4 * x * y ^ 9 + 1/48 * c.bx 6 0 * x ^ 2 * y ^ 4 + 1/48 * c.bx 6 1 * x ^ 2 * y ^ 4 * s + 1/48 * c.bx 6 2 * x ^ 2 * y ^ 4 * s ^ 2 + 1/48 * c.bx 6 3 * x ^ 2 * y ^ 4 * s ^ 3 + 1/48 * c.bx 6 4 * x ^ 2 * y ^ 4 * s ^ 4 - 1/240 * c.bx 6 2 * x ^ 2 * y ^ 6 - 1/80 * c.bx 6 3 * x ^ 2 * y ^ 6 * s - 1/40 * c.bx 6 4 * x ^ 2 * y ^ 6 * s ^ 2 + 1/560 * c.bx 6 4 * x ^ 2 * y ^ 8 - 1/36 * c.by_ 6 0 * x ^ 3 * y ^ 3 - 1/36 * c.by_ 6 1 * x ^ 3 * y ^ 3 * s - 1/36 * c.by_ 6 2 * x ^ 3 * y ^ 3 * s ^ 2 - 1/36 * c.by_ 6 3 * x ^ 3 * y ^ 3 * s ^ 3 - 1/36 * c.by_ 6 4 * x ^ 3 * y ^ 3 * s ^ 4 + 1/180 * c.by_ 6 2 * x ^ 3 * y ^ 5 + 1/60 * c.by_ 6 3 * x ^ 3 * y ^ 5 * s + 1/30 * c.by_ 6 4 * x ^ 3 * y ^ 5 * s ^ 2 - 1/420 * c.by_ 6 4 * x ^ 3 * y ^ 7 - 1/48 * c.bx 6 0 * x ^ 4 * y ^ 2 - 1/48 * c.bx 6 1 * x ^ 4 * y ^ 2 * s - 1/48 * c.bx 6 2 * x ^ 4 * y ^ 2 * s ^ 2 - 1/48 * c.bx 6 3 * x ^ 4 * y ^ 2 * s ^ 3 - 1/48 * c.bx 6 4 * x ^ 4 * y ^ 2 * s ^ 4 + 1/144 * c.bx 6 2 * x ^ 4 * y ^ 4 + 1/48 * c.bx 6 3 * x ^ 4 * y ^ 4 * s + 1/24 * c.bx 6 4 * x ^ 4 * y ^ 4 * s ^ 2 - 1/240 * c.bx 6 4 * x ^ 4 * y ^ 6 + 1/120 * c.by_ 6 0 * x ^ 5 * y + 1/120 * c.by_ 6 1 * x ^ 5 * y * s + 1/120 * c.by_ 6 2 * x ^ 5 * y * s ^ 2 + 1/120 * c.by_ 6 3 * x ^ 5 * y * s ^ 3 + 1/120 * c.by_ 6 4 * x ^ 5 * y * s ^ 4 - 1/360 * c.by_ 6 2 * x ^ 5 * y ^ 3 - 1/120 * c.by_ 6 3 * x ^ 5 * y ^ 3 * s - 1/60 * c.by_ 6 4 * x ^ 5 * y ^ 3 * s ^ 2 + 1/600 * c.by_ 6 4 * x ^ 5 * y ^ 5 + 1/720 * c.bx 6 0 * x ^ 6 + 1/720 * c.bx 6 1 * x ^ 6 * s + 1/720 * c.bx 6 2 * x ^ 6 * s ^ 2 + 1/720 * c.bx 6 3 * x ^ 6 * s ^ 3 + 1/720 * c.bx 6 4 * x ^ 6 * s ^ 4 - 1/720 * c.bx 6 2 * x ^ 6 * y ^ 2 - 1/240 * c.bx 6 3 * x ^ 6 * y ^ 2 * s - 1/120 * c.bx 6 4 * x ^ 6 * y ^ 2 * s ^ 2 + 1/720 * c.bx 6 4 * x ^ 6 * y ^ 4

theorem Bx7_add (c : Coeffs) (x y s : ℝ) : Bx7 c x y s = Bx6 c x y s + dBx7 c x y s := by
  simp only [Bx7, Bx6, dBx7]; ring

/-- What the coefficients 6 add to `By`. -/
noncomputable def dBy7 (c : Coeffs) (x y s : ℝ) : ℝ :=
  -1/720 * c.by_ 6 0 * y ^ 6 - 1/720 * c.by_ 6 1 * y ^ 6 * s - 1/720 * c.by_ 6 2 * y ^ 6 * s ^ 2 - 1/720 * c.by_ 6 3 * y ^ 6 * s ^ 3 - 1/720 * c.by_ 6 4 * y ^ 6 * s ^ 4 + 1/5040 * c.by_ 6 2 * y ^ 8 + 1/1680 * c.by_ 6 3 * y ^ 8 * s + 1/840 * c.by_ 6 4 * y ^ 8 * s ^ 2 - 1/15120 * c.by_ 6 4 * y ^ 10 - 1/120 * c.bx 6 0 * x * y ^ 5 - 1/120 * c.bx 6 1 * x * y ^ 5 * s - 1/120 * c.bx 6 2 * x * y ^ 5 * s ^ 2 - 1/120 * c.bx 6 3 * x * y ^ 5 * s ^ 3 - 1/120 * c.bx 6 4 * x * y ^ 5 * s ^ 4 + 1/630 * c.bx 6 2 * x * y ^ 7 + 1/210 * c.bx 6 3 * x * y ^ 7 * s + 1/105 * c.bx 6 4 * x * y ^ 7 * s ^ 2 - 1/1512 * c.bx 6 4 * x * y ^ 9 + 1/48 * c.by_ 6 0 * x ^ 2 * y ^ 4 + 1/48 * c.by_ 6 1 * x ^ 2 * y ^ 4 * s + 1/48 * c.by_ 6 2 * x ^ 2 * y ^ 4 * s ^ 2 + 1/48 * c.by_ 6 3 * x ^ 2 * y ^ 4 * s ^ 3 + 1/48 * c.by_ 6 4 * x ^ 2 * y ^ 4 * s ^ 4 - 1/240 * c.by_ 6 2 * x ^ 2 * y ^ 6 - 1/80 * c.by_ 6 3 * x ^ 2 * y ^ 6 * s - 1/40 * c.by_ 6 4 * x ^ 2 * y ^ 6 * s ^ 2 + 1/560 * c.by_ 6 4 * x ^ 2 * y ^ 8 + 1/36 * c.bx 6 0 * x ^ 3 * y ^ 3 + 1/36 * c.bx 6 1 * x ^ 3 * y ^ 3 * s + 1/36 * c.bx 6 2 * x ^ 3 * y ^ 3 * s ^ 2 + 1/36 * c.bx 6 3 * x ^ 3 * y ^ 3 * s ^ 3 + 1/36 * c.bx 6 4 * x ^ 3 * y ^ 3 * s ^ 4 - 1/120 * c.bx 6 2 * x ^ 3 * y ^ 5 - 1/40 * c.bx 6 3 * x ^ 3 * y ^ 5 * s - 1/20 * c.bx 6 4 * x ^ 3 * y ^ 5 * s ^ 2 + 1/210 * c.bx 6 4 * x ^ 3 * y ^ 7 - 1/48 * c.by_ 6 0 * x ^ 4 * y ^ 2 - 1/48 * c.by_ 6 1 * x ^ 4 * y ^ 2 * s - 1/48 * c.by_ 6 2 * x ^ 4 * y ^ 2 * s ^ 2 - 1/48 * c.by_ 6 3 * x ^ 4 * y ^ 2 * s ^ 3 - 1/48 * c.by_ 6 4 * x ^ 4 * y ^ 2 * s ^ 4 + 1/144 * c.by_ 6 2 * x ^ 4 * y ^ 4 + 1/48 * c.by_ 6 3 * x ^ 4 * y ^ 4 * s + 1/24 * c.by_ 6 4 * x ^ 4 * y ^ 4 * s ^ 2 - 1/240 * c.by_ 6 4 * x ^ 4 * y ^ 6 - 1/120 * c.bx 6 0 * x ^ 5 * y - 1/120 * c.bx 6 1 * x ^ 5 * y * s - 1/120 * c.bx 6 2 * x ^ 5 * y * s ^ 2 - 1/120 * c.bx 6 3 * x ^ 5 * y * s ^ 3 - 1/120 * c.bx 6 4 * x ^ 5 * y * s ^ 4 + 1/180 * c.bx 6 2 * x ^ 5 * y ^ 3 + 1/60 * c.bx 6 3 * x ^ 5 * y ^ 3 * s + 1/30 * c.bx 6 4 * x ^ 5 * y ^ 3 * s ^ 2 - 1/200 * c.bx 6 4 * x ^ 5 * y ^ 5 + 1/720 * c.by_ 6 0 * x ^ 6 + 1/720 * c.by_ 6 1 * x ^ 6 * s + 1/720 * c.by_ 6 2 * x ^ 6 * s ^ 2 + 1/720 * c.by_ 6 3 * x ^ 6 * s ^ 3 + 1/720 * c.by_ 6 4 * x ^ 6 * s ^ 4 - 1/720 * c.by_ 6 2 * x ^ 6 * y ^ 2 - 1/240 * c.by_ 6 3 * x ^ 6 * y ^ 2 * s - 1/120 * c.by_ 6 4 * x ^ 6 * y ^ 2 * s ^ 2 + 1/720 * c.by_ 6 4 * x ^ 6 * y ^ 4 - 1/2520 * c.bx 6 2 * x ^ 7 * y - 1/840 * c.bx 6 3 * x ^ 7 * y * s - 1/420 * c.bx 6 4 * x ^ 7 * y * s ^ 2 + 1/1260 * c.bx 6 4 * x ^ 7 * y ^ 3

theorem By7_add (c : Coeffs) (x y s : ℝ) : By7 c x y s = By6 c x y s + dBy7 c x y s := by
  simp only [By7, By6, dBy7]; ring

/-- What the coefficients 6 add to `Bs`. -/
noncomputable def dBs7 (c : Coeffs) (x y s : ℝ) : ℝ :=
  -1/5040 * c.by_ 6 1 * y ^ 7 - 1/2520 * c.by_ 6 2 * y ^ 7 * s - 1/1680 * c.by_ 6 3 * y ^ 7 * s ^ 2 - 1/1260 * c.by_ 6 4 * y ^ 7 * s ^ 3 + 1/15120 * c.by_ 6 3 * y ^ 9 + 1/3780 * c.by_ 6 4 * y ^ 9 * s - 1/720 * c.bx 6 1 * x * y ^ 6 - 1/360 * c.bx 6 2 * x * y ^ 6 * s - 1/240 * c.bx 6 3 * x * y ^ 6 * s ^ 2 - 1/180 * c.bx 6 4 * x * y ^ 6 * s ^ 3 + 1/1680 * c.bx 6 3 * x * y ^ 8 + 1/420 * c.bx 6 4 * x * y ^ 8 * s + 1/240 * c.by_ 6 1 * x ^ 2 * y ^ 5 + 1/120 * c.by_ 6 2 * x ^ 2 * y ^ 5 * s + 1/80 * c.by_ 6 3 * x ^ 2 * y ^ 5 * s ^ 2 + 1/60 * c.by_ 6 4 * x ^ 2 * y ^ 5 * s ^ 3 - 1/560 * c.by_ 6 3 * x ^ 2 * y ^ 7 - 1/140 * c.by_ 6 4 * x ^ 2 * y ^ 7 * s + 1/144 * c.bx 6 1 * x ^ 3 * y ^ 4 + 1/72 * c.bx 6 2 * x ^ 3 * y ^ 4 * s + 1/48 * c.bx 6 3 * x ^ 3 * y ^ 4 * s ^ 2 + 1/36 * c.bx 6 4 * x ^ 3 * y ^ 4 * s ^ 3 - 1/240 * c.bx 6 3 * x ^ 3 * y ^ 6 - 1/60 * c.bx 6 4 * x ^ 3 * y ^ 6 * s - 1/144 * c.by_ 6 1 * x ^ 4 * y ^ 3 - 1/72 * c.by_ 6 2 * x ^ 4 * y ^ 3 * s - 1/48 * c.by_ 6 3 * x ^ 4 * y ^ 3 * s ^ 2 - 1/36 * c.by_ 6 4 * x ^ 4 * y ^ 3 * s ^ 3 + 1/240 * c.by_ 6 3 * x ^ 4 * y ^ 5 + 1/60 * c.by_ 6 4 * x ^ 4 * y ^ 5 * s - 1/240 * c.bx 6 1 * x ^ 5 * y ^ 2 - 1/120 * c.bx 6 2 * x ^ 5 * y ^ 2 * s - 1/80 * c.bx 6 3 * x ^ 5 * y ^ 2 * s ^ 2 - 1/60 * c.bx 6 4 * x ^ 5 * y ^ 2 * s ^ 3 + 1/240 * c.bx 6 3 * x ^ 5 * y ^ 4 + 1/60 * c.bx 6 4 * x ^ 5 * y ^ 4 * s + 1/720 * c.by_ 6 1 * x ^ 6 * y + 1/360 * c.by_ 6 2 * x ^ 6 * y * s + 1/240 * c.by_ 6 3 * x ^ 6 * y * s ^ 2 + 1/180 * c.by_ 6 4 * x ^ 6 * y * s ^ 3 - 1/720 * c.by_ 6 3 * x ^ 6 * y ^ 3 - 1/180 * c.by_ 6 4 * x ^ 6 * y ^ 3 * s + 1/5040 * c.bx 6 1 * x ^ 7 + 1/2520 * c.bx 6 2 * x ^ 7 * s + 1/1680 * c.bx 6 3 * x ^ 7 * s ^ 2 + 1/1260 * c.bx 6 4 * x ^ 7 * s ^ 3 - 1/1680 * c.bx 6 3 * x ^ 7 * y ^ 2 - 1/420 * c.bx 6 4 * x ^ 7 * y ^ 2 * s

theorem Bs7_add (c : Coeffs) (x y s : ℝ) : Bs7 c x y s = Bs6 c x y s + dBs7 c x y s := by
  simp only [Bs7, Bs6, dBs7]; ring

theorem dBx7_x (c : Coeffs) (x y s : ℝ) : dBx7 c x y s = horner
    [-1/720 * c.bx 6 0 * y ^ 6 - 1/720 * c.bx 6 1 * y ^ 6 * s - 1/720 * c.bx 6 2 * y ^ 6 * s ^ 2 - 1/720 * c.bx 6 3 * y ^ 6 * s ^ 3 - 1/720 * c.bx 6 4 * y ^ 6 * s ^ 4 + 1/5040 * c.bx 6 2 * y ^ 8 + 1/1680 * c.bx 6 3 * y ^ 8 * s + 1/840 * c.bx 6 4 * y ^ 8 * s ^ 2 - 1/15120 * c.bx 6 4 * y ^ 10,
      1/120 * c.by_ 6 0 * y ^ 5 + 1/120 * c.by_ 6 1 * y ^ 5 * s + 1/120 * c.by_ 6 2 * y ^ 5 * s ^ 2 + 1/120 * c.by_ 6 3 * y ^ 5 * s ^ 3 + 1/120 * c.by_ 6 4 * y ^ 5 * s ^ 4 - 1/840 * c.by_ 6 2 * y ^ 7 - 1/280 * c.by_ 6 3 * y ^ 7 * s - 1/140 * c.by_ 6 4 * y ^ 7 * s ^ 2 + 1/2520 * c.by_ 6 4 * y ^ 9,
      1/48 * c.bx 6 0 * y ^ 4 + 1/48 * c.bx 6 1 * y ^ 4 * s + 1/48 * c.bx 6 2 * y ^ 4 * s ^ 2 + 1/48 * c.bx 6 3 * y ^ 4 * s ^ 3 + 1/48 * c.bx 6 4 * y ^ 4 * s ^ 4 - 1/240 * c.bx 6 2 * y ^ 6 - 1/80 * c.bx 6 3 * y ^ 6 * s - 1/40 * c.bx 6 4 * y ^ 6 * s ^ 2 + 1/560 * c.bx 6 4 * y ^ 8,
      -1/36 * c.by_ 6 0 * y ^ 3 - 1/36 * c.by_ 6 1 * y ^ 3 * s - 1/36 * c.by_ 6 2 * y ^ 3 * s ^ 2 - 1/36 * c.by_ 6 3 * y ^ 3 * s ^ 3 - 1/36 * c.by_ 6 4 * y ^ 3 * s ^ 4 + 1/180 * c.by_ 6 2 * y ^ 5 + 1/60 * c.by_ 6 3 * y ^ 5 * s + 1/30 * c.by_ 6 4 * y ^ 5 * s ^ 2 - 1/420 * c.by_ 6 4 * y ^ 7,
      -1/48 * c.bx 6 0 * y ^ 2 - 1/48 * c.bx 6 1 * y ^ 2 * s - 1/48 * c.bx 6 2 * y ^ 2 * s ^ 2 - 1/48 * c.bx 6 3 * y ^ 2 * s ^ 3 - 1/48 * c.bx 6 4 * y ^ 2 * s ^ 4 + 1/144 * c.bx 6 2 * y ^ 4 + 1/48 * c.bx 6 3 * y ^ 4 * s + 1/24 * c.bx 6 4 * y ^ 4 * s ^ 2 - 1/240 * c.bx 6 4 * y ^ 6,
      1/120 * c.by_ 6 0 * y + 1/120 * c.by_ 6 1 * y * s + 1/120 * c.by_ 6 2 * y * s ^ 2 + 1/120 * c.by_ 6 3 * y * s ^ 3 + 1/120 * c.by_ 6 4 * y * s ^ 4 - 1/360 * c.by_ 6 2 * y ^ 3 - 1/120 * c.by_ 6 3 * y ^ 3 * s - 1/60 * c.by_ 6 4 * y ^ 3 * s ^ 2 + 1/600 * c.by_ 6 4 * y ^ 5,
      1/720 * c.bx 6 0 + 1/720 * c.bx 6 1 * s + 1/720 * c.bx 6 2 * s ^ 2 + 1/720 * c.bx 6 3 * s ^ 3 + 1/720 * c.bx 6 4 * s ^ 4 - 1/720 * c.bx 6 2 * y ^ 2 - 1/240 * c.bx 6 3 * y ^ 2 * s - 1/120 * c.bx 6 4 * y ^ 2 * s ^ 2 + 1/720 * c.bx 6 4 * y ^ 4] x := by
  simp only [dBx7, horner]; ring

theorem dBx7_y (c : Coeffs) (x y s : ℝ) : dBx7 c x y s = horner
    [1/720 * c.bx 6 0 * x ^ 6 + 1/720 * c.bx 6 1 * x ^ 6 * s + 1/720 * c.bx 6 2 * x ^ 6 * s ^ 2 + 1/720 * c.bx 6 3 * x ^ 6 * s ^ 3 + 1/720 * c.bx 6 4 * x ^ 6 * s ^ 4,
      1/120 * c.by_ 6 0 * x ^ 5 + 1/120 * c.by_ 6 1 * x ^ 5 * s + 1/120 * c.by_ 6 2 * x ^ 5 * s ^ 2 + 1/120 * c.by_ 6 3 * x ^ 5 * s ^ 3 + 1/120 * c.by_ 6 4 * x ^ 5 * s ^ 4,
      -1/48 * c.bx 6 0 * x ^ 4 - 1/48 * c.bx 6 1 * x ^ 4 * s - 1/48 * c.bx 6 2 * x ^ 4 * s ^ 2 - 1/48 * c.bx 6 3 * x ^ 4 * s ^ 3 - 1/48 * c.bx 6 4 * x ^ 4 * s ^ 4 - 1/720 * c.bx 6 2 * x ^ 6 - 1/240 * c.bx 6 3 * x ^ 6 * s - 1/120 * c.bx 6 4 * x ^ 6 * s ^ 2,
      -1/36 * c.by_ 6 0 * x ^ 3 - 1/36 * c.by_ 6 1 * x ^ 3 * s - 1/36 * c.by_ 6 2 * x ^ 3 * s ^ 2 - 1/36 * c.by_ 6 3 * x ^ 3 * s ^ 3 - 1/36 * c.by_ 6 4 * x ^ 3 * s ^ 4 - 1/360 * c.by_ 6 2 * x ^ 5 - 1/120 * c.by_ 6 3 * x ^ 5 * s - 1/60 * c.by_ 6 4 * x ^ 5 * s ^ 2,
      1/48 * c.bx 6 0 * x ^ 2 + 1/48 * c.bx 6 1 * x ^ 2 * s + 1/48 * c.bx 6 2 * x ^ 2 * s ^ 2 + 1/48 * c.bx 6 3 * x ^ 2 * s ^ 3 + 1/48 * c.bx 6 4 * x ^ 2 * s ^ 4 + 1/144 * c.bx 6 2 * x ^ 4 + 1/48 * c.bx 6 3 * x ^ 4 * s + 1/24 * c.bx 6 4 * x ^ 4 * s ^ 2 + 1/720 * c.bx 6 4 * x ^ 6,
      1/120 * c.by_ 6 0 * x + 1/120 * c.by_ 6 1 * x * s + 1/120 * c.by_ 6 2 * x * s ^ 2 + 1/120 * c.by_ 6 3 * x * s ^ 3 + 1/120 * c.by_ 6 4 * x * s ^ 4 + 1/180 * c.by_ 6 2 * x ^ 3 + 1/60 * c.by_ 6 3 * x ^ 3 * s + 1/30 * c.by_ 6 4 * x ^ 3 * s ^ 2 + 1/600 * c.by_ 6 4 * x ^ 5,
      -1/720 * c.bx 6 0 - 1/720 * c.bx 6 1 * s - 1/720 * c.bx 6 2 * s ^ 2 - 1/720 * c.bx 6 3 * s ^ 3 - 1/720 * c.bx 6 4 * s ^ 4 - 1/240 * c.bx 6 2 * x ^ 2 - 1/80 * c.bx 6 3 * x ^ 2 * s - 1/40 * c.bx 6 4 * x ^ 2 * s ^ 2 - 1/240 * c.bx 6 4 * x ^ 4,
      -1/840 * c.by_ 6 2 * x - 1/280 * c.by_ 6 3 * x * s - 1/140 * c.by_ 6 4 * x * s ^ 2 - 1/420 * c.by_ 6 4 * x ^ 3,
      1/5040 * c.bx 6 2 + 1/1680 * c.bx 6 3 * s + 1/840 * c.bx 6 4 * s ^ 2 + 1/560 * c.bx 6 4 * x ^ 2,
      1/2520 * c.by_ 6 4 * x,
      -1/15120 * c.bx 6 4] y := by
  simp only [dBx7, horner]; ring

theorem dBx7_s (c : Coeffs) (x y s : ℝ) : dBx7 c x y s = horner
    [-1/720 * c.bx 6 0 * y ^ 6 + 1/5040 * c.bx 6 2 * y ^ 8 - 1/15120 * c.bx 6 4 * y ^ 10 + 1/120 * c.by_ 6 0 * x * y ^ 5 - 1/840 * c.by_ 6 2 * x * y ^ 7 + 1/2520 * c.by_ 6 4 * x * y ^ 9 + 1/48 * c.bx 6 0 * x ^ 2 * y ^ 4 - 1/240 * c.bx 6 2 * x ^ 2 * y ^ 6 + 1/560 * c.bx 6 4 * x ^ 2 * y ^ 8 - 1/36 * c.by_ 6 0 * x ^ 3 * y ^ 3 + 1/180 * c.by_ 6 2 * x ^ 3 * y ^ 5 - 1/420 * c.by_ 6 4 * x ^ 3 * y ^ 7 - 1/48 * c.bx 6 0 * x ^ 4 * y ^ 2 + 1/144 * c.bx 6 2 * x ^ 4 * y ^ 4 - 1/240 * c.bx 6 4 * x ^ 4 * y ^ 6 + 1/120 * c.by_ 6 0 * x ^ 5 * y - 1/360 * c.by_ 6 2 * x ^ 5 * y ^ 3 + 1/600 * c.by_ 6 4 * x ^ 5 * y ^ 5 + 1/720 * c.bx 6 0 * x ^ 6 - 1/720 * c.bx 6 2 * x ^ 6 * y ^ 2 + 1/720 * c.bx 6 4 * x ^ 6 * y ^ 4,
      -1/720 * c.bx 6 1 * y ^ 6 + 1/1680 * c.bx 6 3 * y ^ 8 + 1/120 * c.by_ 6 1 * x * y ^ 5 - 1/280 * c.by_ 6 3 * x * y ^ 7 + 1/48 * c.bx 6 1 * x ^ 2 * y ^ 4 - 1/80 * c.bx 6 3 * x ^ 2 * y ^ 6 - 1/36 * c.by_ 6 1 * x ^ 3 * y ^ 3 + 1/60 * c.by_ 6 3 * x ^ 3 * y ^ 5 - 1/48 * c.bx 6 1 * x ^ 4 * y ^ 2 + 1/48 * c.bx 6 3 * x ^ 4 * y ^ 4 + 1/120 * c.by_ 6 1 * x ^ 5 * y - 1/120 * c.by_ 6 3 * x ^ 5 * y ^ 3 + 1/720 * c.bx 6 1 * x ^ 6 - 1/240 * c.bx 6 3 * x ^ 6 * y ^ 2,
      -1/720 * c.bx 6 2 * y ^ 6 + 1/840 * c.bx 6 4 * y ^ 8 + 1/120 * c.by_ 6 2 * x * y ^ 5 - 1/140 * c.by_ 6 4 * x * y ^ 7 + 1/48 * c.bx 6 2 * x ^ 2 * y ^ 4 - 1/40 * c.bx 6 4 * x ^ 2 * y ^ 6 - 1/36 * c.by_ 6 2 * x ^ 3 * y ^ 3 + 1/30 * c.by_ 6 4 * x ^ 3 * y ^ 5 - 1/48 * c.bx 6 2 * x ^ 4 * y ^ 2 + 1/24 * c.bx 6 4 * x ^ 4 * y ^ 4 + 1/120 * c.by_ 6 2 * x ^ 5 * y - 1/60 * c.by_ 6 4 * x ^ 5 * y ^ 3 + 1/720 * c.bx 6 2 * x ^ 6 - 1/120 * c.bx 6 4 * x ^ 6 * y ^ 2,
      -1/720 * c.bx 6 3 * y ^ 6 + 1/120 * c.by_ 6 3 * x * y ^ 5 + 1/48 * c.bx 6 3 * x ^ 2 * y ^ 4 - 1/36 * c.by_ 6 3 * x ^ 3 * y ^ 3 - 1/48 * c.bx 6 3 * x ^ 4 * y ^ 2 + 1/120 * c.by_ 6 3 * x ^ 5 * y + 1/720 * c.bx 6 3 * x ^ 6,
      -1/720 * c.bx 6 4 * y ^ 6 + 1/120 * c.by_ 6 4 * x * y ^ 5 + 1/48 * c.bx 6 4 * x ^ 2 * y ^ 4 - 1/36 * c.by_ 6 4 * x ^ 3 * y ^ 3 - 1/48 * c.bx 6 4 * x ^ 4 * y ^ 2 + 1/120 * c.by_ 6 4 * x ^ 5 * y + 1/720 * c.bx 6 4 * x ^ 6] s := by
  simp only [dBx7, horner]; ring

theorem dBy7_x (c : Coeffs) (x y s : ℝ) : dBy7 c x y s = horner
    [-1/720 * c.by_ 6 0 * y ^ 6 - 1/720 * c.by_ 6 1 * y ^ 6 * s - 1/720 * c.by_ 6 2 * y ^ 6 * s ^ 2 - 1/720 * c.by_ 6 3 * y ^ 6 * s ^ 3 - 1/720 * c.by_ 6 4 * y ^ 6 * s ^ 4 + 1/5040 * c.by_ 6 2 * y ^ 8 + 1/1680 * c.by_ 6 3 * y ^ 8 * s + 1/840 * c.by_ 6 4 * y ^ 8 * s ^ 2 - 1/15120 * c.by_ 6 4 * y ^ 10,
      -1/120 * c.bx 6 0 * y ^ 5 - 1/120 * c.bx 6 1 * y ^ 5 * s - 1/120 * c.bx 6 2 * y ^ 5 * s ^ 2 - 1/120 * c.bx 6 3 * y ^ 5 * s ^ 3 - 1/120 * c.bx 6 4 * y ^ 5 * s ^ 4 + 1/630 * c.bx 6 2 * y ^ 7 + 1/210 * c.bx 6 3 * y ^ 7 * s + 1/105 * c.bx 6 4 * y ^ 7 * s ^ 2 - 1/1512 * c.bx 6 4 * y ^ 9,
      1/48 * c.by_ 6 0 * y ^ 4 + 1/48 * c.by_ 6 1 * y ^ 4 * s + 1/48 * c.by_ 6 2 * y ^ 4 * s ^ 2 + 1/48 * c.by_ 6 3 * y ^ 4 * s ^ 3 + 1/48 * c.by_ 6 4 * y ^ 4 * s ^ 4 - 1/240 * c.by_ 6 2 * y ^ 6 - 1/80 * c.by_ 6 3 * y ^ 6 * s - 1/40 * c.by_ 6 4 * y ^ 6 * s ^ 2 + 1/560 * c.by_ 6 4 * y ^ 8,
      1/36 * c.bx 6 0 * y ^ 3 + 1/36 * c.bx 6 1 * y ^ 3 * s + 1/36 * c.bx 6 2 * y ^ 3 * s ^ 2 + 1/36 * c.bx 6 3 * y ^ 3 * s ^ 3 + 1/36 * c.bx 6 4 * y ^ 3 * s ^ 4 - 1/120 * c.bx 6 2 * y ^ 5 - 1/40 * c.bx 6 3 * y ^ 5 * s - 1/20 * c.bx 6 4 * y ^ 5 * s ^ 2 + 1/210 * c.bx 6 4 * y ^ 7,
      -1/48 * c.by_ 6 0 * y ^ 2 - 1/48 * c.by_ 6 1 * y ^ 2 * s - 1/48 * c.by_ 6 2 * y ^ 2 * s ^ 2 - 1/48 * c.by_ 6 3 * y ^ 2 * s ^ 3 - 1/48 * c.by_ 6 4 * y ^ 2 * s ^ 4 + 1/144 * c.by_ 6 2 * y ^ 4 + 1/48 * c.by_ 6 3 * y ^ 4 * s + 1/24 * c.by_ 6 4 * y ^ 4 * s ^ 2 - 1/240 * c.by_ 6 4 * y ^ 6,
      -1/120 * c.bx 6 0 * y - 1/120 * c.bx 6 1 * y * s - 1/120 * c.bx 6 2 * y * s ^ 2 - 1/120 * c.bx 6 3 * y * s ^ 3 - 1/120 * c.bx 6 4 * y * s ^ 4 + 1/180 * c.bx 6 2 * y ^ 3 + 1/60 * c.bx 6 3 * y ^ 3 * s + 1/30 * c.bx 6 4 * y ^ 3 * s ^ 2 - 1/200 * c.bx 6 4 * y ^ 5,
      1/720 * c.by_ 6 0 + 1/720 * c.by_ 6 1 * s + 1/720 * c.by_ 6 2 * s ^ 2 + 1/720 * c.by_ 6 3 * s ^ 3 + 1/720 * c.by_ 6 4 * s ^ 4 - 1/720 * c.by_ 6 2 * y ^ 2 - 1/240 * c.by_ 6 3 * y ^ 2 * s - 1/120 * c.by_ 6 4 * y ^ 2 * s ^ 2 + 1/720 * c.by_ 6 4 * y ^ 4,
      -1/2520 * c.bx 6 2 * y - 1/840 * c.bx 6 3 * y * s - 1/420 * c.bx 6 4 * y * s ^ 2 + 1/1260 * c.bx 6 4 * y ^ 3] x := by
  simp only [dBy7, horner]; ring

theorem dBy7_y (c : Coeffs) (x y s : ℝ) : dBy7 c x y s = horner
    [1/720 * c.by_ 6 0 * x ^ 6 + 1/720 * c.by_ 6 1 * x ^ 6 * s + 1/720 * c.by_ 6 2 * x ^ 6 * s ^ 2 + 1/720 * c.by_ 6 3 * x ^ 6 * s ^ 3 + 1/720 * c.by_ 6 4 * x ^ 6 * s ^ 4,
      -1/120 * c.bx 6 0 * x ^ 5 - 1/120 * c.bx 6 1 * x ^ 5 * s - 1/120 * c.bx 6 2 * x ^ 5 * s ^ 2 - 1/120 * c.bx 6 3 * x ^ 5 * s ^ 3 - 1/120 * c.bx 6 4 * x ^ 5 * s ^ 4 - 1/2520 * c.bx 6 2 * x ^ 7 - 1/840 * c.bx 6 3 * x ^ 7 * s - 1/420 * c.bx 6 4 * x ^ 7 * s ^ 2,
      -1/48 * c.by_ 6 0 * x ^ 4 - 1/48 * c.by_ 6 1 * x ^ 4 * s - 1/48 * c.by_ 6 2 * x ^ 4 * s ^ 2 - 1/48 * c.by_ 6 3 * x ^ 4 * s ^ 3 - 1/48 * c.by_ 6 4 * x ^ 4 * s ^ 4 - 1/720 * c.by_ 6 2 * x ^ 6 - 1/240 * c.by_ 6 3 * x ^ 6 * s - 1/120 * c.by_ 6 4 * x ^ 6 * s ^ 2,
      1/36 * c.bx 6 0 * x ^ 3 + 1/36 * c.bx 6 1 * x ^ 3 * s + 1/36 * c.bx 6 2 * x ^ 3 * s ^ 2 + 1/36 * c.bx 6 3 * x ^ 3 * s ^ 3 + 1/36 * c.bx 6 4 * x ^ 3 * s ^ 4 + 1/180 * c.bx 6 2 * x ^ 5 + 1/60 * c.bx 6 3 * x ^ 5 * s + 1/30 * c.bx 6 4 * x ^ 5 * s ^ 2 + 1/1260 * c.bx 6 4 * x ^ 7,
      1/48 * c.by_ 6 0 * x ^ 2 + 1/48 * c.by_ 6 1 * x ^ 2 * s + 1/48 * c.by_ 6 2 * x ^ 2 * s ^ 2 + 1/48 * c.by_ 6 3 * x ^ 2 * s ^ 3 + 1/48 * c.by_ 6 4 * x ^ 2 * s ^ 4 + 1/144 * c.by_ 6 2 * x ^ 4 + 1/48 * c.by_ 6 3 * x ^ 4 * s + 1/24 * c.by_ 6 4 * x ^ 4 * s ^ 2 + 1/720 * c.by_ 6 4 * x ^ 6,
      -1/120 * c.bx 6 0 * x - 1/120 * c.bx 6 1 * x * s - 1/120 * c.bx 6 2 * x * s ^ 2 - 1/120 * c.bx 6 3 * x * s ^ 3 - 1/120 * c.bx 6 4 * x * s ^ 4 - 1/120 * c.bx 6 2 * x ^ 3 - 1/40 * c.bx 6 3 * x ^ 3 * s - 1/20 * c.bx 6 4 * x ^ 3 * s ^ 2 - 1/200 * c.bx 6 4 * x ^ 5,
      -1/720 * c.by_ 6 0 - 1/720 * c.by_ 6 1 * s - 1/720 * c.by_ 6 2 * s ^ 2 - 1/720 * c.by_ 6 3 * s ^ 3 - 1/720 * c.by_ 6 4 * s ^ 4 - 1/240 * c.by_ 6 2 * x ^ 2 - 1/80 * c.by_ 6 3 * x ^ 2 * s - 1/40 * c.by_ 6 4 * x ^ 2 * s ^ 2 - 1/240 * c.by_ 6 4 * x ^ 4,
      1/630 * c.bx 6 2 * x + 1/210 * c.bx 6 3 * x * s + 1/105 * c.bx 6 4 * x * s ^ 2 + 1/210 * c.bx 6 4 * x ^ 3,
      1/5040 * c.by_ 6 2 + 1/1680 * c.by_ 6 3 * s + 1/840 * c.by_ 6 4 * s ^ 2 + 1/560 * c.by_ 6 4 * x ^ 2,
      -1/1512 * c.bx 6 4 * x,
      -1/15120 * c.by_ 6 4] y := by
  simp only [dBy7, horner]; ring

theorem dBy7_s (c : Coeffs) (x y s : ℝ) : dBy7 c x y s = horner
    [-1/720 * c.by_ 6 0 * y ^ 6 + 1/5040 * c.by_ 6 2 * y ^ 8 - 1/15120 * c.by_ 6 4 * y ^ 10 - 1/120 * c.bx 6 0 * x * y ^ 5 + 1/630 * c.bx 6 2 * x * y ^ 7 - 1/1512 * c.bx 6 4 * x * y ^ 9 + 1/48 * c.by_ 6 0 * x ^ 2 * y ^ 4 - 1/240 * c.by_ 6 2 * x ^ 2 * y ^ 6 + 1/560 * c.by_ 6 4 * x ^ 2 * y ^ 8 + 1/36 * c.bx 6 0 * x ^ 3 * y ^ 3 - 1/120 * c.bx 6 2 * x ^ 3 * y ^ 5 + 1/210 * c.bx 6 4 * x ^ 3 * y ^ 7 - 1/48 * c.by_ 6 0 * x ^ 4 * y ^ 2 + 1/144 * c.by_ 6 2 * x ^ 4 * y ^ 4 - 1/240 * c.by_ 6 4 * x ^ 4 * y ^ 6 - 1/120 * c.bx 6 0 * x ^ 5 * y + 1/180 * c.bx 6 2 * x ^ 5 * y ^ 3 - 1/200 * c.bx 6 4 * x ^ 5 * y ^ 5 + 1/720 * c.by_ 6 0 * x ^ 6 - 1/720 * c.by_ 6 2 * x ^ 6 * y ^ 2 + 1/720 * c.by_ 6 4 * x ^ 6 * y ^ 4 - 1/2520 * c.bx 6 2 * x ^ 7 * y + 1/1260 * c.bx 6 4 * x ^ 7 * y ^ 3,
      -1/720 * c.by_ 6 1 * y ^ 6 + 1/1680 * c.by_ 6 3 * y ^ 8 - 1/120 * c.bx 6 1 * x * y ^ 5 + 1/210 * c.bx 6 3 * x * y ^ 7 + 1/48 * c.by_ 6 1 * x ^ 2 * y ^ 4 - 1/80 * c.by_ 6 3 * x ^ 2 * y ^ 6 + 1/36 * c.bx 6 1 * x ^ 3 * y ^ 3 - 1/40 * c.bx 6 3 * x ^ 3 * y ^ 5 - 1/48 * c.by_ 6 1 * x ^ 4 * y ^ 2 + 1/48 * c.by_ 6 3 * x ^ 4 * y ^ 4 - 1/120 * c.bx 6 1 * x ^ 5 * y + 1/60 * c.bx 6 3 * x ^ 5 * y ^ 3 + 1/720 * c.by_ 6 1 * x ^ 6 - 1/240 * c.by_ 6 3 * x ^ 6 * y ^ 2 - 1/840 * c.bx 6 3 * x ^ 7 * y,
      -1/720 * c.by_ 6 2 * y ^ 6 + 1/840 * c.by_ 6 4 * y ^ 8 - 1/120 * c.bx 6 2 * x * y ^ 5 + 1/105 * c.bx 6 4 * x * y ^ 7 + 1/48 * c.by_ 6 2 * x ^ 2 * y ^ 4 - 1/40 * c.by_ 6 4 * x ^ 2 * y ^ 6 + 1/36 * c.bx 6 2 * x ^ 3 * y ^ 3 - 1/20 * c.bx 6 4 * x ^ 3 * y ^ 5 - 1/48 * c.by_ 6 2 * x ^ 4 * y ^ 2 + 1/24 * c.by_ 6 4 * x ^ 4 * y ^ 4 - 1/120 * c.bx 6 2 * x ^ 5 * y + 1/30 * c.bx 6 4 * x ^ 5 * y ^ 3 + 1/720 * c.by_ 6 2 * x ^ 6 - 1/120 * c.by_ 6 4 * x ^ 6 * y ^ 2 - 1/420 * c.bx 6 4 * x ^ 7 * y,
      -1/720 * c.by_ 6 3 * y ^ 6 - 1/120 * c.bx 6 3 * x * y ^ 5 + 1/48 * c.by_ 6 3 * x ^ 2 * y ^ 4 + 1/36 * c.bx 6 3 * x ^ 3 * y ^ 3 - 1/48 * c.by_ 6 3 * x ^ 4 * y ^ 2 - 1/120 * c.bx 6 3 * x ^ 5 * y + 1/720 * c.by_ 6 3 * x ^ 6,
      -1/720 * c.by_ 6 4 * y ^ 6 - 1/120 * c.bx 6 4 * x * y ^ 5 + 1/48 * c.by_ 6 4 * x ^ 2 * y ^ 4 + 1/36 * c.bx 6 4 * x ^ 3 * y ^ 3 - 1/48 * c.by_ 6 4 * x ^ 4 * y ^ 2 - 1/120 * c.bx 6 4 * x ^ 5 * y + 1/720 * c.by_ 6 4 * x ^ 6] s := by
  simp only [dBy7, horner]; ring

theorem dBs7_x (c : Coeffs) (x y s : ℝ) : dBs7 c x y s = horner
    [-1/5040 * c.by_ 6 1 * y ^ 7 - 1/2520 * c.by_ 6 2 * y ^ 7 * s - 1/1680 * c.by_ 6 3 * y ^ 7 * s ^ 2 - 1/1260 * c.by_ 6 4 * y ^ 7 * s ^ 3 + 1/15120 * c.by_ 6 3 * y ^ 9 + 1/3780 * c.by_ 6 4 * y ^ 9 * s,
      -1/720 * c.bx 6 1 * y ^ 6 - 1/360 * c.bx 6 2 * y ^ 6 * s - 1/240 * c.bx 6 3 * y ^ 6 * s ^ 2 - 1/180 * c.bx 6 4 * y ^ 6 * s ^ 3 + 1/1680 * c.bx 6 3 * y ^ 8 + 1/420 * c.bx 6 4 * y ^ 8 * s,
      1/240 * c.by_ 6 1 * y ^ 5 + 1/120 * c.by_ 6 2 * y ^ 5 * s + 1/80 * c.by_ 6 3 * y ^ 5 * s ^ 2 + 1/60 * c.by_ 6 4 * y ^ 5 * s ^ 3 - 1/560 * c.by_ 6 3 * y ^ 7 - 1/140 * c.by_ 6 4 * y ^ 7 * s,
      1/144 * c.bx 6 1 * y ^ 4 + 1/72 * c.bx 6 2 * y ^ 4 * s + 1/48 * c.bx 6 3 * y ^ 4 * s ^ 2 + 1/36 * c.bx 6 4 * y ^ 4 * s ^ 3 - 1/240 * c.bx 6 3 * y ^ 6 - 1/60 * c.bx 6 4 * y ^ 6 * s,
      -1/144 * c.by_ 6 1 * y ^ 3 - 1/72 * c.by_ 6 2 * y ^ 3 * s - 1/48 * c.by_ 6 3 * y ^ 3 * s ^ 2 - 1/36 * c.by_ 6 4 * y ^ 3 * s ^ 3 + 1/240 * c.by_ 6 3 * y ^ 5 + 1/60 * c.by_ 6 4 * y ^ 5 * s,
      -1/240 * c.bx 6 1 * y ^ 2 - 1/120 * c.bx 6 2 * y ^ 2 * s - 1/80 * c.bx 6 3 * y ^ 2 * s ^ 2 - 1/60 * c.bx 6 4 * y ^ 2 * s ^ 3 + 1/240 * c.bx 6 3 * y ^ 4 + 1/60 * c.bx 6 4 * y ^ 4 * s,
      1/720 * c.by_ 6 1 * y + 1/360 * c.by_ 6 2 * y * s + 1/240 * c.by_ 6 3 * y * s ^ 2 + 1/180 * c.by_ 6 4 * y * s ^ 3 - 1/720 * c.by_ 6 3 * y ^ 3 - 1/180 * c.by_ 6 4 * y ^ 3 * s,
      1/5040 * c.bx 6 1 + 1/2520 * c.bx 6 2 * s + 1/1680 * c.bx 6 3 * s ^ 2 + 1/1260 * c.bx 6 4 * s ^ 3 - 1/1680 * c.bx 6 3 * y ^ 2 - 1/420 * c.bx 6 4 * y ^ 2 * s] x := by
  simp only [dBs7, horner]; ring

theorem dBs7_y (c : Coeffs) (x y s : ℝ) : dBs7 c x y s = horner
    [1/5040 * c.bx 6 1 * x ^ 7 + 1/2520 * c.bx 6 2 * x ^ 7 * s + 1/1680 * c.bx 6 3 * x ^ 7 * s ^ 2 + 1/1260 * c.bx 6 4 * x ^ 7 * s ^ 3,
      1/720 * c.by_ 6 1 * x ^ 6 + 1/360 * c.by_ 6 2 * x ^ 6 * s + 1/240 * c.by_ 6 3 * x ^ 6 * s ^ 2 + 1/180 * c.by_ 6 4 * x ^ 6 * s ^ 3,
      -1/240 * c.bx 6 1 * x ^ 5 - 1/120 * c.bx 6 2 * x ^ 5 * s - 1/80 * c.bx 6 3 * x ^ 5 * s ^ 2 - 1/60 * c.bx 6 4 * x ^ 5 * s ^ 3 - 1/1680 * c.bx 6 3 * x ^ 7 - 1/420 * c.bx 6 4 * x ^ 7 * s,
      -1/144 * c.by_ 6 1 * x ^ 4 - 1/72 * c.by_ 6 2 * x ^ 4 * s - 1/48 * c.by_ 6 3 * x ^ 4 * s ^ 2 - 1/36 * c.by_ 6 4 * x ^ 4 * s ^ 3 - 1/720 * c.by_ 6 3 * x ^ 6 - 1/180 * c.by_ 6 4 * x ^ 6 * s,
      1/144 * c.bx 6 1 * x ^ 3 + 1/72 * c.bx 6 2 * x ^ 3 * s + 1/48 * c.bx 6 3 * x ^ 3 * s ^ 2 + 1/36 * c.bx 6 4 * x ^ 3 * s ^ 3 + 1/240 * c.bx 6 3 * x ^ 5 + 1/60 * c.bx 6 4 * x ^ 5 * s,
      1/240 * c.by_ 6 1 * x ^ 2 + 1/120 * c.by_ 6 2 * x ^ 2 * s + 1/80 * c.by_ 6 3 * x ^ 2 * s ^ 2 + 1/60 * c.by_ 6 4 * x ^ 2 * s ^ 3 + 1/240 * c.by_ 6 3 * x ^ 4 + 1/60 * c.by_ 6 4 * x ^ 4 * s,
      -1/720 * c.bx 6 1 * x - 1/360 * c.bx 6 2 * x * s - 1/240 * c.bx 6 3 * x * s ^ 2 - 1/180 * c.bx 6 4 * x * s ^ 3 - 1/240 * c.bx 6 3 * x ^ 3 - 1/60 * c.bx 6 4 * x ^ 3 * s,
      -1/5040 * c.by_ 6 1 - 1/2520 * c.by_ 6 2 * s - 1/1680 * c.by_ 6 3 * s ^ 2 - 1/1260 * c.by_ 6 4 * s ^ 3 - 1/560 * c.by_ 6 3 * x ^ 2 - 1/140 * c.by_ 6 4 * x ^ 2 * s,
      1/1680 * c.bx 6 3 * x + 1/420 * c.bx 6 4 * x * s,
      1/15120 * c.by_ 6 3 + 1/3780 * c.by_ 6 4 * s] y := by
  simp only [dBs7, horner]; ring

theorem dBs7_s (c : Coeffs) (x y s : ℝ) : dBs7 c x y s = horner
    [-1/5040 * c.by_ 6 1 * y ^ 7 + 1/15120 * c.by_ 6 3 * y ^ 9 - 1/720 * c.bx 6 1 * x * y ^ 6 + 1/1680 * c.bx 6 3 * x * y ^ 8 + 1/240 * c.by_ 6 1 * x ^ 2 * y ^ 5 - 1/560 * c.by_ 6 3 * x ^ 2 * y ^ 7 + 1/144 * c.bx 6 1 * x ^ 3 * y ^ 4 - 1/240 * c.bx 6 3 * x ^ 3 * y ^ 6 - 1/144 * c.by_ 6 1 * x ^ 4 * y ^ 3 + 1/240 * c.by_ 6 3 * x ^ 4 * y ^ 5 - 1/240 * c.bx 6 1 * x ^ 5 * y ^ 2 + 1/240 * c.bx 6 3 * x ^ 5 * y ^ 4 + 1/720 * c.by_ 6 1 * x ^ 6 * y - 1/720 * c.by_ 6 3 * x ^ 6 * y ^ 3 + 1/5040 * c.bx 6 1 * x ^ 7 - 1/1680 * c.bx 6 3 * x ^ 7 * y ^ 2,
      -1/2520 * c.by_ 6 2 * y ^ 7 + 1/3780 * c.by_ 6 4 * y ^ 9 - 1/360 * c.bx 6 2 * x * y ^ 6 + 1/420 * c.bx 6 4 * x * y ^ 8 + 1/120 * c.by_ 6 2 * x ^ 2 * y ^ 5 - 1/140 * c.by_ 6 4 * x ^ 2 * y ^ 7 + 1/72 * c.bx 6 2 * x ^ 3 * y ^ 4 - 1/60 * c.bx 6 4 * x ^ 3 * y ^ 6 - 1/72 * c.by_ 6 2 * x ^ 4 * y ^ 3 + 1/60 * c.by_ 6 4 * x ^ 4 * y ^ 5 - 1/120 * c.bx 6 2 * x ^ 5 * y ^ 2 + 1/60 * c.bx 6 4 * x ^ 5 * y ^ 4 + 1/360 * c.by_ 6 2 * x ^ 6 * y - 1/180 * c.by_ 6 4 * x ^ 6 * y ^ 3 + 1/2520 * c.bx 6 2 * x ^ 7 - 1/420 * c.bx 6 4 * x ^ 7 * y ^ 2,
      -1/1680 * c.by_ 6 3 * y ^ 7 - 1/240 * c.bx 6 3 * x * y ^ 6 + 1/80 * c.by_ 6 3 * x ^ 2 * y ^ 5 + 1/48 * c.bx 6 3 * x ^ 3 * y ^ 4 - 1/48 * c.by_ 6 3 * x ^ 4 * y ^ 3 - 1/80 * c.bx 6 3 * x ^ 5 * y ^ 2 + 1/240 * c.by_ 6 3 * x ^ 6 * y + 1/1680 * c.bx 6 3 * x ^ 7,
      -1/1260 * c.by_ 6 4 * y ^ 7 - 1/180 * c.bx 6 4 * x * y ^ 6 + 1/60 * c.by_ 6 4 * x ^ 2 * y ^ 5 + 1/36 * c.bx 6 4 * x ^ 3 * y ^ 4 - 1/36 * c.by_ 6 4 * x ^ 4 * y ^ 3 - 1/60 * c.bx 6 4 * x ^ 5 * y ^ 2 + 1/180 * c.by_ 6 4 * x ^ 6 * y + 1/1260 * c.bx 6 4 * x ^ 7] s := by
  simp only [dBs7, horner]; ring

theorem dmaxwell7 (c : Coeffs) (x y s : ℝ) : Vacuum (dBx7 c) (dBy7 c) (dBs7 c) x y s := by
  have hBxx : HasDerivAt (fun t => dBx7 c t y s) _ x :=
    (horner_deriv _ x).congr_of_eventuallyEq (Filter.Eventually.of_forall fun t => dBx7_x c t y s)
  have hBxy : HasDerivAt (fun t => dBx7 c x t s) _ y :=
    (horner_deriv _ y).congr_of_eventuallyEq (Filter.Eventually.of_forall fun t => dBx7_y c x t s)
  have hBxs : HasDerivAt (fun t => dBx7 c x y t) _ s :=
    (horner_deriv _ s).congr_of_eventuallyEq (Filter.Eventually.of_forall fun t => dBx7_s c x y t)
  have hByx : HasDerivAt (fun t => dBy7 c t y s) _ x :=
    (horner_deriv _ x).congr_of_eventuallyEq (Filter.Eventually.of_forall fun t => dBy7_x c t y s)
  have hByy : HasDerivAt (fun t => dBy7 c x t s) _ y :=
    (horner_deriv _ y).congr_of_eventuallyEq (Filter.Eventually.of_forall fun t => dBy7_y c x t s)
  have hBys : HasDerivAt (fun t => dBy7 c x y t) _ s :=
    (horner_deriv _ s).congr_of_eventuallyEq (Filter.Eventually.of_forall fun t => dBy7_s c x y t)
  have hBsx : HasDerivAt (fun t => dBs7 c t y s) _ x :=
    (horner_deriv _ x).congr_of_eventuallyEq (Filter.Eventually.of_forall fun t => dBs7_x c t y s)
  have hBsy : HasDerivAt (fun t => dBs7 c x t s) _ y :=
    (horner_deriv _ y).congr_of_eventuallyEq (Filter.Eventually.of_forall fun t => dBs7_y c x t s)
  have hBss : HasDerivAt (fun t => dBs7 c x y t) _ s :=
    (horner_deriv _ s).congr_of_eventuallyEq (Filter.Eventually.of_forall fun t => dBs7_s c x y t)
  refine ⟨_, _, _, _, _, _, _, _, _, hBxx, hBxy, hBxs, hByx, hByy, hBys, hBsx, hBsy, hBss, ?_, ?_, ?_, ?_⟩ <;>
    (simp only [dhorner, horner]; ring)

theorem maxwell7 (c : Coeffs) (x y s : ℝ) : Vacuum (Bx7 c) (By7 c) (Bs7 c) x y s := by
  rw [show Bx7 c = fun x y s => Bx6 c x y s + dBx7 c x y s from funext fun x => funext fun y => funext fun s => Bx7_add c x y s,
    show By7 c = fun x y s => By6 c x y s + dBy7 c x y s from funext fun x => funext fun y => funext fun s => By7_add c x y s,
    show Bs7 c = fun x y s => Bs6 c x y s + dBs7 c x y s from funext fun x => funext fun y => funext fun s => Bs7_add c x y s]
  exact (maxwell6 c x y s).add (dmaxwell7 c x y s)

theorem midplane7 (c : Coeffs) (x s : ℝ) :
    Bx7 c x 0 s = x ^ 0 / 1 * poly (c.bx 0) s + x ^ 1 / 1 * poly (c.bx 1) s + x ^ 2 / 2 * poly (c.bx 2) s + x ^ 3 / 6 * poly (c.bx 3) s + x ^ 4 / 24 * poly (c.bx 4) s + x ^ 5 / 120 * poly (c.bx 5) s + x ^ 6 / 720 * poly (c.bx 6) s ∧
    By7 c x 0 s = x ^ 0 / 1 * poly (c.by_ 0) s + x ^ 1 / 1 * poly (c.by_ 1) s + x ^ 2 / 2 * poly (c.by_ 2) s + x ^ 3 / 6 * poly (c.by_ 3) s + x ^ 4 / 24 * poly (c.by_ 4) s + x ^ 5 / 120 * poly (c.by_ 5) s + x ^ 6 / 720 * poly (c.by_ 6) s ∧
    Bs7 c 0 0 s = poly c.bs s := by
  obtain ⟨h1, h2, h3⟩ := midplane6 c x s
  rw [Bx7_add, By7_add, Bs7_add, h1, h2, h3]
  refine ⟨?_, ?_, ?_⟩
  · simp only [dBx7, poly]; ring
  · simp only [dBy7, poly]; ring
  · simp only [dBs7, poly]; ring

end Verif.Boris
