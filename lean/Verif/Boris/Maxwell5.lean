import Verif.Boris.Field
import Verif.Boris.Horner
import Verif.Boris.Maxwell4

/-! The field for the multipole order 5 has no divergence and no curl: it is that for the order 4 and
the terms of the last coefficients. -/

namespace Verif.Boris

/-- What the coefficients 4 add to `Bx`. -/
noncomputable def dBx5 (c : Coeffs) (x y s : ℝ) : ℝ :=
  1/24 * c.bx 4 0 * y ^ 4 + 1/24 * c.bx 4 1 * y ^ 4 * s + 1/24 * c.bx 4 2 * y ^ 4 * s ^ 2 + 1/24 * c.bx 4 3 * y ^ 4 * s ^ 3 + 1/24 * c.bx 4 4 * y ^ 4 * s ^ 4 - 1/120 * c.bx 4 2 * y ^ 6 - 1/40 * c.bx 4 3 * y ^ 6 * s - 1/20 * c.bx 4 4 * y ^ 6 * s ^ 2 + 1/280 * c.bx 4 4 * y ^ 8 - 1/6 * c.by_ 4 0 * x * y ^ 3 - 1/6 * c.by_ 4 1 * x * y ^ 3 * s - 1/6 * c.by_ 4 2 * x * y ^ 3 * s ^ 2 - 1/6 * c.by_ 4 3 * x * y ^ 3 * s ^ 3 - 1/6 * c.by_ 4 4 * x * y ^ 3 * s ^ 4 + 1/30 * c.by_ 4 2 * x * y ^ 5 + 1/10 * c.by_ 4 3 * x * y ^ 5 * s + 1/5 * c.by_ 4 4 * x * y ^ 5 * s ^ 2 - 1/70 * c.by_ 4 4 * x * y ^ 7 - 1/4 * c.bx 4 0 * x ^ 2 * y ^ 2 - 1/4 * c.bx 4 1 * x ^ 2 * y ^ 2 * s - 1/4 * c.bx 4 2 * x ^ 2 * y ^ 2 * s ^ 2 - 1/4 * c.bx 4 3 * x ^ 2 * y ^ 2 * s ^ 3 - 1/4 * c.bx 4 4 * x ^ 2 * y ^ 2 * s ^ 4 + 1/12 * c.bx 4 2 * x ^ 2 * y ^ 4 + 1/4 * c.bx 4 3 * x ^ 2 * y ^ 4 * s + 1/2 * c.bx 4 4 * x ^ 2 * y ^ 4 * s ^ 2 - 1/20 * c.bx 4 4 * x ^ 2 * y ^ 6 + 1/6 * c.by_ 4 0 * x ^ 3 * y + 1/6 * c.by_ 4 1 * x ^ 3 * y * s + 1/6 * c.by_ 4 2 * x ^ 3 * y * s ^ 2 + 1/6 * c.by_ 4 3 * x ^ 3 * y * s ^ 3 + 1/6 * c.by_ 4 4 * x ^ 3 * y * s ^ 4 - 1/18 * c.by_ 4 2 * x ^ 3 * y ^ 3 - 1/6 * c.by_ 4 3 * x ^ 3 * y ^ 3 * s - 1/3 * c.by_ 4 4 * x ^ 3 * y ^ 3 * s ^ 2 + 1/30 * c.by_ 4 4 * x ^ 3 * y ^ 5 + 1/24 * c.bx 4 0 * x ^ 4 + 1/24 * c.bx 4 1 * x ^ 4 * s + 1/24 * c.bx 4 2 * x ^ 4 * s ^ 2 + 1/24 * c.bx 4 3 * x ^ 4 * s ^ 3 + 1/24 * c.bx 4 4 * x ^ 4 * s ^ 4 - 1/24 * c.bx 4 2 * x ^ 4 * y ^ 2 - 1/8 * c.bx 4 3 * x ^ 4 * y ^ 2 * s - 1/4 * c.bx 4 4 * x ^ 4 * y ^ 2 * s ^ 2 + 1/24 * c.bx 4 4 * x ^ 4 * y ^ 4

theorem Bx5_add (c : Coeffs) (x y s : ℝ) : Bx5 c x y s = Bx4 c x y s + dBx5 c x y s := by
  simp only [Bx5, Bx4, dBx5]; ring

/-- What the coefficients 4 add to `By`. -/
noncomputable def dBy5 (c : Coeffs) (x y s : ℝ) : ℝ :=
  1/24 * c.by_ 4 0 * y ^ 4 + 1/24 * c.by_ 4 1 * y ^ 4 * s + 1/24 * c.by_ 4 2 * y ^ 4 * s ^ 2 + 1/24 * c.by_ 4 3 * y ^ 4 * s ^ 3 + 1/24 * c.by_ 4 4 * y ^ 4 * s ^ 4 - 1/120 * c.by_ 4 2 * y ^ 6 - 1/40 * c.by_ 4 3 * y ^ 6 * s - 1/20 * c.by_ 4 4 * y ^ 6 * s ^ 2 + 1/280 * c.by_ 4 4 * y ^ 8 + 1/6 * c.bx 4 0 * x * y ^ 3 + 1/6 * c.bx 4 1 * x * y ^ 3 * s + 1/6 * c.bx 4 2 * x * y ^ 3 * s ^ 2 + 1/6 * c.bx 4 3 * x * y ^ 3 * s ^ 3 + 1/6 * c.bx 4 4 * x * y ^ 3 * s ^ 4 - 1/20 * c.bx 4 2 * x * y ^ 5 - 3/20 * c.bx 4 3 * x * y ^ 5 * s - 3/10 * c.bx 4 4 * x * y ^ 5 * s ^ 2 + 1/35 * c.bx 4 4 * x * y ^ 7 - 1/4 * c.by_ 4 0 * x ^ 2 * y ^ 2 - 1/4 * c.by_ 4 1 * x ^ 2 * y ^ 2 * s - 1/4 * c.by_ 4 2 * x ^ 2 * y ^ 2 * s ^ 2 - 1/4 * c.by_ 4 3 * x ^ 2 * y ^ 2 * s ^ 3 - 1/4 * c.by_ 4 4 * x ^ 2 * y ^ 2 * s ^ 4 + 1/12 * c.by_ 4 2 * x ^ 2 * y ^ 4 + 1/4 * c.by_ 4 3 * x ^ 2 * y ^ 4 * s + 1/2 * c.by_ 4 4 * x ^ 2 * y ^ 4 * s ^ 2 - 1/20 * c.by_ 4 4 * x ^ 2 * y ^ 6 - 1/6 * c.bx 4 0 * x ^ 3 * y - 1/6 * c.bx 4 1 * x ^ 3 * y * s - 1/6 * c.bx 4 2 * x ^ 3 * y * s ^ 2 - 1/6 * c.bx 4 3 * x ^ 3 * y * s ^ 3 - 1/6 * c.bx 4 4 * x ^ 3 * y * s ^ 4 + 1/9 * c.bx 4 2 * x ^ 3 * y ^ 3 + 1/3 * c.bx 4 3 * x ^ 3 * y ^ 3 * s + 2/3 * c.bx 4 4 * x ^ 3 * y ^ 3 * s ^ 2 - 1/10 * c.bx 4 4 * x ^ 3 * y ^ 5 + 1/24 * c.by_ 4 0 * x ^ 4 + 1/24 * c.by_ 4 1 * x ^ 4 * s + 1/24 * c.by_ 4 2 * x ^ 4 * s ^ 2 + 1/24 * c.by_ 4 3 * x ^ 4 * s ^ 3 + 1/24 * c.by_ 4 4 * x ^ 4 * s ^ 4 - 1/24 * c.by_ 4 2 * x ^ 4 * y ^ 2 - 1/8 * c.by_ 4 3 * x ^ 4 * y ^ 2 * s - 1/4 * c.by_ 4 4 * x ^ 4 * y ^ 2 * s ^ 2 + 1/24 * c.by_ 4 4 * x ^ 4 * y ^ 4 - 1/60 * c.bx 4 2 * x ^ 5 * y - 1/20 * c.bx 4 3 * x ^ 5 * y * s - 1/10 * c.bx 4 4 * x ^ 5 * y * s ^ 2 + 1/30 * c.bx 4 4 * x ^ 5 * y ^ 3

theorem By5_add (c : Coeffs) (x y s : ℝ) : By5 c x y s = By4 c x y s + dBy5 c x y s := by
  simp only [By5, By4, dBy5]; ring

/-- What the coefficients 4 add to `Bs`. -/
noncomputable def dBs5 (c : Coeffs) (x y s : ℝ) : ℝ :=
  1/120 * c.by_ 4 1 * y ^ 5 + 1/60 * c.by_ 4 2 * y ^ 5 * s + 1/40 * c.by_ 4 3 * y ^ 5 * s ^ 2 + 1/30 * c.by_ 4 4 * y ^ 5 * s ^ 3 - 1/280 * c.by_ 4 3 * y ^ 7 - 1/70 * c.by_ 4 4 * y ^ 7 * s + 1/24 * c.bx 4 1 * x * y ^ 4 + 1/12 * c.bx 4 2 * x * y ^ 4 * s + 1/8 * c.bx 4 3 * x * y ^ 4 * s ^ 2 + 1/6 * c.bx 4 4 * x * y ^ 4 * s ^ 3 - 1/40 * c.bx 4 3 * x * y ^ 6 - 1/10 * c.bx 4 4 * x * y ^ 6 * s - 1/12 * c.by_ 4 1 * x ^ 2 * y ^ 3 - 1/6 * c.by_ 4 2 * x ^ 2 * y ^ 3 * s - 1/4 * c.by_ 4 3 * x ^ 2 * y ^ 3 * s ^ 2 - 1/3 * c.by_ 4 4 * x ^ 2 * y ^ 3 * s ^ 3 + 1/20 * c.by_ 4 3 * x ^ 2 * y ^ 5 + 1/5 * c.by_ 4 4 * x ^ 2 * y ^ 5 * s - 1/12 * c.bx 4 1 * x ^ 3 * y ^ 2 - 1/6 * c.bx 4 2 * x ^ 3 * y ^ 2 * s - 1/4 * c.bx 4 3 * x ^ 3 * y ^ 2 * s ^ 2 - 1/3 * c.bx 4 4 * x ^ 3 * y ^ 2 * s ^ 3 + 1/12 * c.bx 4 3 * x ^ 3 * y ^ 4 + 1/3 * c.bx 4 4 * x ^ 3 * y ^ 4 * s + 1/24 * c.by_ 4 1 * x ^ 4 * y + 1/12 * c.by_ 4 2 * x ^ 4 * y * s + 1/8 * c.by_ 4 3 * x ^ 4 * y * s ^ 2 + 1/6 * c.by_ 4 4 * x ^ 4 * y * s ^ 3 - 1/24 * c.by_ 4 3 * x ^ 4 * y ^ 3 - 1/6 * c.by_ 4 4 * x ^ 4 * y ^ 3 * s + 1/120 * c.bx 4 1 * x ^ 5 + 1/60 * c.bx 4 2 * x ^ 5 * s + 1/40 * c.bx 4 3 * x ^ 5 * s ^ 2 + 1/30 * c.bx 4 4 * x ^ 5 * s ^ 3 - 1/40 * c.bx 4 3 * x ^ 5 * y ^ 2 - 1/10 * c.bx 4 4 * x ^ 5 * y ^ 2 * s

theorem Bs5_add (c : Coeffs) (x y s : ℝ) : Bs5 c x y s = Bs4 c x y s + dBs5 c x y s := by
  simp only [Bs5, Bs4, dBs5]; ring

theorem dBx5_x (c : Coeffs) (x y s : ℝ) : dBx5 c x y s = horner
    [1/24 * c.bx 4 0 * y ^ 4 + 1/24 * c.bx 4 1 * y ^ 4 * s + 1/24 * c.bx 4 2 * y ^ 4 * s ^ 2 + 1/24 * c.bx 4 3 * y ^ 4 * s ^ 3 + 1/24 * c.bx 4 4 * y ^ 4 * s ^ 4 - 1/120 * c.bx 4 2 * y ^ 6 - 1/40 * c.bx 4 3 * y ^ 6 * s - 1/20 * c.bx 4 4 * y ^ 6 * s ^ 2 + 1/280 * c.bx 4 4 * y ^ 8,
      -1/6 * c.by_ 4 0 * y ^ 3 - 1/6 * c.by_ 4 1 * y ^ 3 * s - 1/6 * c.by_ 4 2 * y ^ 3 * s ^ 2 - 1/6 * c.by_ 4 3 * y ^ 3 * s ^ 3 - 1/6 * c.by_ 4 4 * y ^ 3 * s ^ 4 + 1/30 * c.by_ 4 2 * y ^ 5 + 1/10 * c.by_ 4 3 * y ^ 5 * s + 1/5 * c.by_ 4 4 * y ^ 5 * s ^ 2 - 1/70 * c.by_ 4 4 * y ^ 7,
      -1/4 * c.bx 4 0 * y ^ 2 - 1/4 * c.bx 4 1 * y ^ 2 * s - 1/4 * c.bx 4 2 * y ^ 2 * s ^ 2 - 1/4 * c.bx 4 3 * y ^ 2 * s ^ 3 - 1/4 * c.bx 4 4 * y ^ 2 * s ^ 4 + 1/12 * c.bx 4 2 * y ^ 4 + 1/4 * c.bx 4 3 * y ^ 4 * s + 1/2 * c.bx 4 4 * y ^ 4 * s ^ 2 - 1/20 * c.bx 4 4 * y ^ 6,
      1/6 * c.by_ 4 0 * y + 1/6 * c.by_ 4 1 * y * s + 1/6 * c.by_ 4 2 * y * s ^ 2 + 1/6 * c.by_ 4 3 * y * s ^ 3 + 1/6 * c.by_ 4 4 * y * s ^ 4 - 1/18 * c.by_ 4 2 * y ^ 3 - 1/6 * c.by_ 4 3 * y ^ 3 * s - 1/3 * c.by_ 4 4 * y ^ 3 * s ^ 2 + 1/30 * c.by_ 4 4 * y ^ 5,
      1/24 * c.bx 4 0 + 1/24 * c.bx 4 1 * s + 1/24 * c.bx 4 2 * s ^ 2 + 1/24 * c.bx 4 3 * s ^ 3 + 1/24 * c.bx 4 4 * s ^ 4 - 1/24 * c.bx 4 2 * y ^ 2 - 1/8 * c.bx 4 3 * y ^ 2 * s - 1/4 * c.bx 4 4 * y ^ 2 * s ^ 2 + 1/24 * c.bx 4 4 * y ^ 4] x := by
  simp only [dBx5, horner]; ring

theorem dBx5_y (c : Coeffs) (x y s : ℝ) : dBx5 c x y s = horner
    [1/24 * c.bx 4 0 * x ^ 4 + 1/24 * c.bx 4 1 * x ^ 4 * s + 1/24 * c.bx 4 2 * x ^ 4 * s ^ 2 + 1/24 * c.bx 4 3 * x ^ 4 * s ^ 3 + 1/24 * c.bx 4 4 * x ^ 4 * s ^ 4,
      1/6 * c.by_ 4 0 * x ^ 3 + 1/6 * c.by_ 4 1 * x ^ 3 * s + 1/6 * c.by_ 4 2 * x ^ 3 * s ^ 2 + 1/6 * c.by_ 4 3 * x ^ 3 * s ^ 3 + 1/6 * c.by_ 4 4 * x ^ 3 * s ^ 4,
      -1/4 * c.bx 4 0 * x ^ 2 - 1/4 * c.bx 4 1 * x ^ 2 * s - 1/4 * c.bx 4 2 * x ^ 2 * s ^ 2 - 1/4 * c.bx 4 3 * x ^ 2 * s ^ 3 - 1/4 * c.bx 4 4 * x ^ 2 * s ^ 4 - 1/24 * c.bx 4 2 * x ^ 4 - 1/8 * c.bx 4 3 * x ^ 4 * s - 1/4 * c.bx 4 4 * x ^ 4 * s ^ 2,
      -1/6 * c.by_ 4 0 * x - 1/6 * c.by_ 4 1 * x * s - 1/6 * c.by_ 4 2 * x * s ^ 2 - 1/6 * c.by_ 4 3 * x * s ^ 3 - 1/6 * c.by_ 4 4 * x * s ^ 4 - 1/18 * c.by_ 4 2 * x ^ 3 - 1/6 * c.by_ 4 3 * x ^ 3 * s - 1/3 * c.by_ 4 4 * x ^ 3 * s ^ 2,
      1/24 * c.bx 4 0 + 1/24 * c.bx 4 1 * s + 1/24 * c.bx 4 2 * s ^ 2 + 1/24 * c.bx 4 3 * s ^ 3 + 1/24 * c.bx 4 4 * s ^ 4 + 1/12 * c.bx 4 2 * x ^ 2 + 1/4 * c.bx 4 3 * x ^ 2 * s + 1/2 * c.bx 4 4 * x ^ 2 * s ^ 2 + 1/24 * c.bx 4 4 * x ^ 4,
      1/30 * c.by_ 4 2 * x + 1/10 * c.by_ 4 3 * x * s + 1/5 * c.by_ 4 4 * x * s ^ 2 + 1/30 * c.by_ 4 4 * x ^ 3,
      -1/120 * c.bx 4 2 - 1/40 * c.bx 4 3 * s - 1/20 * c.bx 4 4 * s ^ 2 - 1/20 * c.bx 4 4 * x ^ 2,
      -1/70 * c.by_ 4 4 * x,
      1/280 * c.bx 4 4] y := by
  simp only [dBx5, horner]; ring

theorem dBx5_s (c : Coeffs) (x y s : ℝ) : dBx5 c x y s = horner
    [1/24 * c.bx 4 0 * y ^ 4 - 1/120 * c.bx 4 2 * y ^ 6 + 1/280 * c.bx 4 4 * y ^ 8 - 1/6 * c.by_ 4 0 * x * y ^ 3 + 1/30 * c.by_ 4 2 * x * y ^ 5 - 1/70 * c.by_ 4 4 * x * y ^ 7 - 1/4 * c.bx 4 0 * x ^ 2 * y ^ 2 + 1/12 * c.bx 4 2 * x ^ 2 * y ^ 4 - 1/20 * c.bx 4 4 * x ^ 2 * y ^ 6 + 1/6 * c.by_ 4 0 * x ^ 3 * y - 1/18 * c.by_ 4 2 * x ^ 3 * y ^ 3 + 1/30 * c.by_ 4 4 * x ^ 3 * y ^ 5 + 1/24 * c.bx 4 0 * x ^ 4 - 1/24 * c.bx 4 2 * x ^ 4 * y ^ 2 + 1/24 * c.bx 4 4 * x ^ 4 * y ^ 4,
      1/24 * c.bx 4 1 * y ^ 4 - 1/40 * c.bx 4 3 * y ^ 6 - 1/6 * c.by_ 4 1 * x * y ^ 3 + 1/10 * c.by_ 4 3 * x * y ^ 5 - 1/4 * c.bx 4 1 * x ^ 2 * y ^ 2 + 1/4 * c.bx 4 3 * x ^ 2 * y ^ 4 + 1/6 * c.by_ 4 1 * x ^ 3 * y - 1/6 * c.by_ 4 3 * x ^ 3 * y ^ 3 + 1/24 * c.bx 4 1 * x ^ 4 - 1/8 * c.bx 4 3 * x ^ 4 * y ^ 2,
      1/24 * c.bx 4 2 * y ^ 4 - 1/20 * c.bx 4 4 * y ^ 6 - 1/6 * c.by_ 4 2 * x * y ^ 3 + 1/5 * c.by_ 4 4 * x * y ^ 5 - 1/4 * c.bx 4 2 * x ^ 2 * y ^ 2 + 1/2 * c.bx 4 4 * x ^ 2 * y ^ 4 + 1/6 * c.by_ 4 2 * x ^ 3 * y - 1/3 * c.by_ 4 4 * x ^ 3 * y ^ 3 + 1/24 * c.bx 4 2 * x ^ 4 - 1/4 * c.bx 4 4 * x ^ 4 * y ^ 2,
      1/24 * c.bx 4 3 * y ^ 4 - 1/6 * c.by_ 4 3 * x * y ^ 3 - 1/4 * c.bx 4 3 * x ^ 2 * y ^ 2 + 1/6 * c.by_ 4 3 * x ^ 3 * y + 1/24 * c.bx 4 3 * x ^ 4,
      1/24 * c.bx 4 4 * y ^ 4 - 1/6 * c.by_ 4 4 * x * y ^ 3 - 1/4 * c.bx 4 4 * x ^ 2 * y ^ 2 + 1/6 * c.by_ 4 4 * x ^ 3 * y + 1/24 * c.bx 4 4 * x ^ 4] s := by
  simp only [dBx5, horner]; ring

theorem dBy5_x (c : Coeffs) (x y s : ℝ) : dBy5 c x y s = horner
    [1/24 * c.by_ 4 0 * y ^ 4 + 1/24 * c.by_ 4 1 * y ^ 4 * s + 1/24 * c.by_ 4 2 * y ^ 4 * s ^ 2 + 1/24 * c.by_ 4 3 * y ^ 4 * s ^ 3 + 1/24 * c.by_ 4 4 * y ^ 4 * s ^ 4 - 1/120 * c.by_ 4 2 * y ^ 6 - 1/40 * c.by_ 4 3 * y ^ 6 * s - 1/20 * c.by_ 4 4 * y ^ 6 * s ^ 2 + 1/280 * c.by_ 4 4 * y ^ 8,
      1/6 * c.bx 4 0 * y ^ 3 + 1/6 * c.bx 4 1 * y ^ 3 * s + 1/6 * c.bx 4 2 * y ^ 3 * s ^ 2 + 1/6 * c.bx 4 3 * y ^ 3 * s ^ 3 + 1/6 * c.bx 4 4 * y ^ 3 * s ^ 4 - 1/20 * c.bx 4 2 * y ^ 5 - 3/20 * c.bx 4 3 * y ^ 5 * s - 3/10 * c.bx 4 4 * y ^ 5 * s ^ 2 + 1/35 * c.bx 4 4 * y ^ 7,
      -1/4 * c.by_ 4 0 * y ^ 2 - 1/4 * c.by_ 4 1 * y ^ 2 * s - 1/4 * c.by_ 4 2 * y ^ 2 * s ^ 2 - 1/4 * c.by_ 4 3 * y ^ 2 * s ^ 3 - 1/4 * c.by_ 4 4 * y ^ 2 * s ^ 4 + 1/12 * c.by_ 4 2 * y ^ 4 + 1/4 * c.by_ 4 3 * y ^ 4 * s + 1/2 * c.by_ 4 4 * y ^ 4 * s ^ 2 - 1/20 * c.by_ 4 4 * y ^ 6,
      -1/6 * c.bx 4 0 * y - 1/6 * c.bx 4 1 * y * s - 1/6 * c.bx 4 2 * y * s ^ 2 - 1/6 * c.bx 4 3 * y * s ^ 3 - 1/6 * c.bx 4 4 * y * s ^ 4 + 1/9 * c.bx 4 2 * y ^ 3 + 1/3 * c.bx 4 3 * y ^ 3 * s + 2/3 * c.bx 4 4 * y ^ 3 * s ^ 2 - 1/10 * c.bx 4 4 * y ^ 5,
      1/24 * c.by_ 4 0 + 1/24 * c.by_ 4 1 * s + 1/24 * c.by_ 4 2 * s ^ 2 + 1/24 * c.by_ 4 3 * s ^ 3 + 1/24 * c.by_ 4 4 * s ^ 4 - 1/24 * c.by_ 4 2 * y ^ 2 - 1/8 * c.by_ 4 3 * y ^ 2 * s - 1/4 * c.by_ 4 4 * y ^ 2 * s ^ 2 + 1/24 * c.by_ 4 4 * y ^ 4,
      -1/60 * c.bx 4 2 * y - 1/20 * c.bx 4 3 * y * s - 1/10 * c.bx 4 4 * y * s ^ 2 + 1/30 * c.bx 4 4 * y ^ 3] x := by
  simp only [dBy5, horner]; ring

theorem dBy5_y (c : Coeffs) (x y s : ℝ) : dBy5 c x y s = horner
    [1/24 * c.by_ 4 0 * x ^ 4 + 1/24 * c.by_ 4 1 * x ^ 4 * s + 1/24 * c.by_ 4 2 * x ^ 4 * s ^ 2 + 1/24 * c.by_ 4 3 * x ^ 4 * s ^ 3 + 1/24 * c.by_ 4 4 * x ^ 4 * s ^ 4,
      -1/6 * c.bx 4 0 * x ^ 3 - 1/6 * c.bx 4 1 * x ^ 3 * s - 1/6 * c.bx 4 2 * x ^ 3 * s ^ 2 - 1/6 * c.bx 4 3 * x ^ 3 * s ^ 3 - 1/6 * c.bx 4 4 * x ^ 3 * s ^ 4 - 1/60 * c.bx 4 2 * x ^ 5 - 1/20 * c.bx 4 3 * x ^ 5 * s - 1/10 * c.bx 4 4 * x ^ 5 * s ^ 2,
      -1/4 * c.by_ 4 0 * x ^ 2 - 1/4 * c.by_ 4 1 * x ^ 2 * s - 1/4 * c.by_ 4 2 * x ^ 2 * s ^ 2 - 1/4 * c.by_ 4 3 * x ^ 2 * s ^ 3 - 1/4 * c.by_ 4 4 * x ^ 2 * s ^ 4 - 1/24 * c.by_ 4 2 * x ^ 4 - 1/8 * c.by_ 4 3 * x ^ 4 * s - 1/4 * c.by_ 4 4 * x ^ 4 * s ^ 2,
      1/6 * c.bx 4 0 * x + 1/6 * c.bx 4 1 * x * s + 1/6 * c.bx 4 2 * x * s ^ 2 + 1/6 * c.bx 4 3 * x * s ^ 3 + 1/6 * c.bx 4 4 * x * s ^ 4 + 1/9 * c.bx 4 2 * x ^ 3 + 1/3 * c.bx 4 3 * x ^ 3 * s + 2/3 * c.bx 4 4 * x ^ 3 * s ^ 2 + 1/30 * c.bx 4 4 * x ^ 5,
      1/24 * c.by_ 4 0 + 1/24 * c.by_ 4 1 * s + 1/24 * c.by_ 4 2 * s ^ 2 + 1/24 * c.by_ 4 3 * s ^ 3 + 1/24 * c.by_ 4 4 * s ^ 4 + 1/12 * c.by_ 4 2 * x ^ 2 + 1/4 * c.by_ 4 3 * x ^ 2 * s + 1/2 * c.by_ 4 4 * x ^ 2 * s ^ 2 + 1/24 * c.by_ 4 4 * x ^ 4,
      -1/20 * c.bx 4 2 * x - 3/20 * c.bx 4 3 * x * s - 3/10 * c.bx 4 4 * x * s ^ 2 - 1/10 * c.bx 4 4 * x ^ 3,
      -1/120 * c.by_ 4 2 - 1/40 * c.by_ 4 3 * s - 1/20 * c.by_ 4 4 * s ^ 2 - 1/20 * c.by_ 4 4 * x ^ 2,
      1/35 * c.bx 4 4 * x,
      1/280 * c.by_ 4 4] y := by
  simp only [dBy5, horner]; ring

theorem dBy5_s (c : Coeffs) (x y s : ℝ) : dBy5 c x y s = horner
    [1/24 * c.by_ 4 0 * y ^ 4 - 1/120 * c.by_ 4 2 * y ^ 6 + 1/280 * c.by_ 4 4 * y ^ 8 + 1/6 * c.bx 4 0 * x * y ^ 3 - 1/20 * c.bx 4 2 * x * y ^ 5 + 1/35 * c.bx 4 4 * x * y ^ 7 - 1/4 * c.by_ 4 0 * x ^ 2 * y ^ 2 + 1/12 * c.by_ 4 2 * x ^ 2 * y ^ 4 - 1/20 * c.by_ 4 4 * x ^ 2 * y ^ 6 - 1/6 * c.bx 4 0 * x ^ 3 * y + 1/9 * c.bx 4 2 * x ^ 3 * y ^ 3 - 1/10 * c.bx 4 4 * x ^ 3 * y ^ 5 + 1/24 * c.by_ 4 0 * x ^ 4 - 1/24 * c.by_ 4 2 * x ^ 4 * y ^ 2 + 1/24 * c.by_ 4 4 * x ^ 4 * y ^ 4 - 1/60 * c.bx 4 2 * x ^ 5 * y + 1/30 * c.bx 4 4 * x ^ 5 * y ^ 3,
      1/24 * c.by_ 4 1 * y ^ 4 - 1/40 * c.by_ 4 3 * y ^ 6 + 1/6 * c.bx 4 1 * x * y ^ 3 - 3/20 * c.bx 4 3 * x * y ^ 5 - 1/4 * c.by_ 4 1 * x ^ 2 * y ^ 2 + 1/4 * c.by_ 4 3 * x ^ 2 * y ^ 4 - 1/6 * c.bx 4 1 * x ^ 3 * y + 1/3 * c.bx 4 3 * x ^ 3 * y ^ 3 + 1/24 * c.by_ 4 1 * x ^ 4 - 1/8 * c.by_ 4 3 * x ^ 4 * y ^ 2 - 1/20 * c.bx 4 3 * x ^ 5 * y,
      1/24 * c.by_ 4 2 * y ^ 4 - 1/20 * c.by_ 4 4 * y ^ 6 + 1/6 * c.bx 4 2 * x * y ^ 3 - 3/10 * c.bx 4 4 * x * y ^ 5 - 1/4 * c.by_ 4 2 * x ^ 2 * y ^ 2 + 1/2 * c.by_ 4 4 * x ^ 2 * y ^ 4 - 1/6 * c.bx 4 2 * x ^ 3 * y + 2/3 * c.bx 4 4 * x ^ 3 * y ^ 3 + 1/24 * c.by_ 4 2 * x ^ 4 - 1/4 * c.by_ 4 4 * x ^ 4 * y ^ 2 - 1/10 * c.bx 4 4 * x ^ 5 * y,
      1/24 * c.by_ 4 3 * y ^ 4 + 1/6 * c.bx 4 3 * x * y ^ 3 - 1/4 * c.by_ 4 3 * x ^ 2 * y ^ 2 - 1/6 * c.bx 4 3 * x ^ 3 * y + 1/24 * c.by_ 4 3 * x ^ 4,
      1/24 * c.by_ 4 4 * y ^ 4 + 1/6 * c.bx 4 4 * x * y ^ 3 - 1/4 * c.by_ 4 4 * x ^ 2 * y ^ 2 - 1/6 * c.bx 4 4 * x ^ 3 * y + 1/24 * c.by_ 4 4 * x ^ 4] s := by
  simp only [dBy5, horner]; ring

theorem dBs5_x (c : Coeffs) (x y s : ℝ) : dBs5 c x y s = horner
    [1/120 * c.by_ 4 1 * y ^ 5 + 1/60 * c.by_ 4 2 * y ^ 5 * s + 1/40 * c.by_ 4 3 * y ^ 5 * s ^ 2 + 1/30 * c.by_ 4 4 * y ^ 5 * s ^ 3 - 1/280 * c.by_ 4 3 * y ^ 7 - 1/70 * c.by_ 4 4 * y ^ 7 * s,
      1/24 * c.bx 4 1 * y ^ 4 + 1/12 * c.bx 4 2 * y ^ 4 * s + 1/8 * c.bx 4 3 * y ^ 4 * s ^ 2 + 1/6 * c.bx 4 4 * y ^ 4 * s ^ 3 - 1/40 * c.bx 4 3 * y ^ 6 - 1/10 * c.bx 4 4 * y ^ 6 * s,
      -1/12 * c.by_ 4 1 * y ^ 3 - 1/6 * c.by_ 4 2 * y ^ 3 * s - 1/4 * c.by_ 4 3 * y ^ 3 * s ^ 2 - 1/3 * c.by_ 4 4 * y ^ 3 * s ^ 3 + 1/20 * c.by_ 4 3 * y ^ 5 + 1/5 * c.by_ 4 4 * y ^ 5 * s,
      -1/12 * c.bx 4 1 * y ^ 2 - 1/6 * c.bx 4 2 * y ^ 2 * s - 1/4 * c.bx 4 3 * y ^ 2 * s ^ 2 - 1/3 * c.bx 4 4 * y ^ 2 * s ^ 3 + 1/12 * c.bx 4 3 * y ^ 4 + 1/3 * c.bx 4 4 * y ^ 4 * s,
      1/24 * c.by_ 4 1 * y + 1/12 * c.by_ 4 2 * y * s + 1/8 * c.by_ 4 3 * y * s ^ 2 + 1/6 * c.by_ 4 4 * y * s ^ 3 - 1/24 * c.by_ 4 3 * y ^ 3 - 1/6 * c.by_ 4 4 * y ^ 3 * s,
      1/120 * c.bx 4 1 + 1/60 * c.bx 4 2 * s + 1/40 * c.bx 4 3 * s ^ 2 + 1/30 * c.bx 4 4 * s ^ 3 - 1/40 * c.bx 4 3 * y ^ 2 - 1/10 * c.bx 4 4 * y ^ 2 * s] x := by
  simp only [dBs5, horner]; ring

theorem dBs5_y (c : Coeffs) (x y s : ℝ) : dBs5 c x y s = horner
    [1/120 * c.bx 4 1 * x ^ 5 + 1/60 * c.bx 4 2 * x ^ 5 * s + 1/40 * c.bx 4 3 * x ^ 5 * s ^ 2 + 1/30 * c.bx 4 4 * x ^ 5 * s ^ 3,
      1/24 * c.by_ 4 1 * x ^ 4 + 1/12 * c.by_ 4 2 * x ^ 4 * s + 1/8 * c.by_ 4 3 * x ^ 4 * s ^ 2 + 1/6 * c.by_ 4 4 * x ^ 4 * s ^ 3,
      -1/12 * c.bx 4 1 * x ^ 3 - 1/6 * c.bx 4 2 * x ^ 3 * s - 1/4 * c.bx 4 3 * x ^ 3 * s ^ 2 - 1/3 * c.bx 4 4 * x ^ 3 * s ^ 3 - 1/40 * c.bx 4 3 * x ^ 5 - 1/10 * c.bx 4 4 * x ^ 5 * s,
      -1/12 * c.by_ 4 1 * x ^ 2 - 1/6 * c.by_ 4 2 * x ^ 2 * s - 1/4 * c.by_ 4 3 * x ^ 2 * s ^ 2 - 1/3 * c.by_ 4 4 * x ^ 2 * s ^ 3 - 1/24 * c.by_ 4 3 * x ^ 4 - 1/6 * c.by_ 4 4 * x ^ 4 * s,
      1/24 * c.bx 4 1 * x + 1/12 * c.bx 4 2 * x * s + 1/8 * c.bx 4 3 * x * s ^ 2 + 1/6 * c.bx 4 4 * x * s ^ 3 + 1/12 * c.bx 4 3 * x ^ 3 + 1/3 * c.bx 4 4 * x ^ 3 * s,
      1/120 * c.by_ 4 1 + 1/60 * c.by_ 4 2 * s + 1/40 * c.by_ 4 3 * s ^ 2 + 1/30 * c.by_ 4 4 * s ^ 3 + 1/20 * c.by_ 4 3 * x ^ 2 + 1/5 * c.by_ 4 4 * x ^ 2 * s,
      -1/40 * c.bx 4 3 * x - 1/10 * c.bx 4 4 * x * s,
      -1/280 * c.by_ 4 3 - 1/70 * c.by_ 4 4 * s] y := by
  simp only [dBs5, horner]; ring

theorem dBs5_s (c : Coeffs) (x y s : ℝ) : dBs5 c x y s = horner
    [1/120 * c.by_ 4 1 * y ^ 5 - 1/280 * c.by_ 4 3 * y ^ 7 + 1/24 * c.bx 4 1 * x * y ^ 4 - 1/40 * c.bx 4 3 * x * y ^ 6 - 1/12 * c.by_ 4 1 * x ^ 2 * y ^ 3 + 1/20 * c.by_ 4 3 * x ^ 2 * y ^ 5 - 1/12 * c.bx 4 1 * x ^ 3 * y ^ 2 + 1/12 * c.bx 4 3 * x ^ 3 * y ^ 4 + 1/24 * c.by_ 4 1 * x ^ 4 * y - 1/24 * c.by_ 4 3 * x ^ 4 * y ^ 3 + 1/120 * c.bx 4 1 * x ^ 5 - 1/40 * c.bx 4 3 * x ^ 5 * y ^ 2,
      1/60 * c.by_ 4 2 * y ^ 5 - 1/70 * c.by_ 4 4 * y ^ 7 + 1/12 * c.bx 4 2 * x * y ^ 4 - 1/10 * c.bx 4 4 * x * y ^ 6 - 1/6 * c.by_ 4 2 * x ^ 2 * y ^ 3 + 1/5 * c.by_ 4 4 * x ^ 2 * y ^ 5 - 1/6 * c.bx 4 2 * x ^ 3 * y ^ 2 + 1/3 * c.bx 4 4 * x ^ 3 * y ^ 4 + 1/12 * c.by_ 4 2 * x ^ 4 * y - 1/6 * c.by_ 4 4 * x ^ 4 * y ^ 3 + 1/60 * c.bx 4 2 * x ^ 5 - 1/10 * c.bx 4 4 * x ^ 5 * y ^ 2,
      1/40 * c.by_ 4 3 * y ^ 5 + 1/8 * c.bx 4 3 * x * y ^ 4 - 1/4 * c.by_ 4 3 * x ^ 2 * y ^ 3 - 1/4 * c.bx 4 3 * x ^ 3 * y ^ 2 + 1/8 * c.by_ 4 3 * x ^ 4 * y + 1/40 * c.bx 4 3 * x ^ 5,
      1/30 * c.by_ 4 4 * y ^ 5 + 1/6 * c.bx 4 4 * x * y ^ 4 - 1/3 * c.by_ 4 4 * x ^ 2 * y ^ 3 - 1/3 * c.bx 4 4 * x ^ 3 * y ^ 2 + 1/6 * c.by_ 4 4 * x ^ 4 * y + 1/30 * c.bx 4 4 * x ^ 5] s := by
  simp only [dBs5, horner]; ring

theorem dmaxwell5 (c : Coeffs) (x y s : ℝ) : Vacuum (dBx5 c) (dBy5 c) (dBs5 c) x y s := by
  have hBxx : HasDerivAt (fun t => dBx5 c t y s) _ x :=
    (horner_deriv _ x).congr_of_eventuallyEq (Filter.Eventually.of_forall fun t => dBx5_x c t y s)
  have hBxy : HasDerivAt (fun t => dBx5 c x t s) _ y :=
    (horner_deriv _ y).congr_of_eventuallyEq (Filter.Eventually.of_forall fun t => dBx5_y c x t s)
  have hBxs : HasDerivAt (fun t => dBx5 c x y t) _ s :=
    (horner_deriv _ s).congr_of_eventuallyEq (Filter.Eventually.of_forall fun t => dBx5_s c x y t)
  have hByx : HasDerivAt (fun t => dBy5 c t y s) _ x :=
    (horner_deriv _ x).congr_of_eventuallyEq (Filter.Eventually.of_forall fun t => dBy5_x c t y s)
  have hByy : HasDerivAt (fun t => dBy5 c x t s) _ y :=
    (horner_deriv _ y).congr_of_eventuallyEq (Filter.Eventually.of_forall fun t => dBy5_y c x t s)
  have hBys : HasDerivAt (fun t => dBy5 c x y t) _ s :=
    (horner_deriv _ s).congr_of_eventuallyEq (Filter.Eventually.of_forall fun t => dBy5_s c x y t)
  have hBsx : HasDerivAt (fun t => dBs5 c t y s) _ x :=
    (horner_deriv _ x).congr_of_eventuallyEq (Filter.Eventually.of_forall fun t => dBs5_x c t y s)
  have hBsy : HasDerivAt (fun t => dBs5 c x t s) _ y :=
    (horner_deriv _ y).congr_of_eventuallyEq (Filter.Eventually.of_forall fun t => dBs5_y c x t s)
  have hBss : HasDerivAt (fun t => dBs5 c x y t) _ s :=
    (horner_deriv _ s).congr_of_eventuallyEq (Filter.Eventually.of_forall fun t => dBs5_s c x y t)
  refine ⟨_, _, _, _, _, _, _, _, _, hBxx, hBxy, hBxs, hByx, hByy, hBys, hBsx, hBsy, hBss, ?_, ?_, ?_, ?_⟩ <;>
    (simp only [dhorner, horner]; ring)

theorem maxwell5 (c : Coeffs) (x y s : ℝ) : Vacuum (Bx5 c) (By5 c) (Bs5 c) x y s := by
  rw [show Bx5 c = fun x y s => Bx4 c x y s + dBx5 c x y s from funext fun x => funext fun y => funext fun s => Bx5_add c x y s,
    show By5 c = fun x y s => By4 c x y s + dBy5 c x y s from funext fun x => funext fun y => funext fun s => By5_add c x y s,
    show Bs5 c = fun x y s => Bs4 c x y s + dBs5 c x y s from funext fun x => funext fun y => funext fun s => Bs5_add c x y s]
  exact (maxwell4 c x y s).add (dmaxwell5 c x y s)

theorem midplane5 (c : Coeffs) (x s : ℝ) :
    Bx5 c x 0 s = x ^ 0 / 1 * poly (c.bx 0) s + x ^ 1 / 1 * poly (c.bx 1) s + x ^ 2 / 2 * poly (c.bx 2) s + x ^ 3 / 6 * poly (c.bx 3) s + x ^ 4 / 24 * poly (c.bx 4) s ∧
    By5 c x 0 s = x ^ 0 / 1 * poly (c.by_ 0) s + x ^ 1 / 1 * poly (c.by_ 1) s + x ^ 2 / 2 * poly (c.by_ 2) s + x ^ 3 / 6 * poly (c.by_ 3) s + x ^ 4 / 24 * poly (c.by_ 4) s ∧
    Bs5 c 0 0 s = poly c.bs s := by
  obtain ⟨h1, h2, h3⟩ := midplane4 c x s
  rw [Bx5_add, By5_add, Bs5_add, h1, h2, h3]
  refine ⟨?_, ?_, ?_⟩
  · simp only [dBx5, poly]; ring
  · simp only [dBy5, poly]; ring
  · simp only [dBs5, poly]; ring

end Verif.Boris
