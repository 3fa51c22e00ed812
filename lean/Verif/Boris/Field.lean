import Mathlib.Data.Real.Basic

/-!
# The magnetic field of `SplineBoris`

Translation of `evaluate_B`, xtrack/beam_elements/splineboris_src/spline_B_field_eval.h:106-1305, with its
common sub-expressions, which are called `u` here.  What is evaluated are polynomials, in exact arithmetic.
The polynomials along s are those of `hermite_to_polynomial`, lines 80-104, modelled in `Spline.lean`.
-/

namespace Verif.Boris

noncomputable section

/-- The coefficients of the polynomials along s: of Bs on the axis, and of the derivatives of By and Bx along x. -/
structure Coeffs where
  bs : ℕ → ℝ
  by_ : ℕ → ℕ → ℝ
  bx : ℕ → ℕ → ℝ

/-- `Bx` for the multipole order 1: spline_B_field_eval.h:116-158. -/
def Bx1 (c : Coeffs) (x y s : ℝ) : ℝ :=
  let u0 := s * s
  let u1 := s * s * s
  let u2 := s * s * s * s
  let u3 := y * y * y * y
  let u4 := y * y
  let u5 := 3 * s
  let u6 := 6 * u0
  let u7 := (c.bx 0 2) + (c.bx 0 3) * u5 + (c.bx 0 4) * u6
  ((c.bx 0 0) + (c.bx 0 1) * s + (c.bx 0 2) * u0 + (c.bx 0 3) * u1 + (c.bx 0 4) * u2 + (c.bx 0 4) * u3 - u4 * u7)

/-- `By` for the multipole order 1: spline_B_field_eval.h:116-158. -/
def By1 (c : Coeffs) (x y s : ℝ) : ℝ :=
  let u0 := s * s
  let u1 := s * s * s
  let u2 := s * s * s * s
  let u3 := y * y * y * y
  let u4 := y * y
  let u5 := 3 * s
  let u6 := 6 * u0
  let u7 := (c.bx 0 2) + (c.bx 0 3) * u5 + (c.bx 0 4) * u6
  let u8 := y * y * y
  let u9 := 4 * (c.bs 4)
  let u10 := 2 * s
  let u11 := 3 * u0
  ((c.by_ 0 0) + (c.by_ 0 1) * s + (c.by_ 0 2) * u0 + (c.by_ 0 3) * u1 + (c.by_ 0 4) * u2 + (c.by_ 0 4) * u3 - u4 * ((c.by_ 0 2) + (c.by_ 0 3) * u5 + (c.by_ 0 4) * u6) + ((1/6)) * u8 * (6 * (c.bs 3) + 24 * (c.bx 0 4) * x + 6 * s * u9) - y * ((c.bs 1) + (c.bs 2) * u10 + (c.bs 3) * u11 + 2 * x * u7 + u1 * u9))

/-- `Bs` for the multipole order 1: spline_B_field_eval.h:116-158. -/
def Bs1 (c : Coeffs) (x y s : ℝ) : ℝ :=
  let u0 := s * s
  let u1 := s * s * s
  let u2 := s * s * s * s
  let u3 := y * y * y * y
  let u4 := y * y
  let u5 := 3 * s
  let u6 := 6 * u0
  let u8 := y * y * y
  let u10 := 2 * s
  let u11 := 3 * u0
  let u12 := 4 * s
  let u13 := 4 * u1
  ((c.bs 0) + (c.bs 1) * s + (c.bs 2) * u0 + (c.bs 3) * u1 + (c.bs 4) * u2 + (c.bs 4) * u3 + x * ((c.bx 0 1) + (c.bx 0 2) * u10 + (c.bx 0 3) * u11 + (c.bx 0 4) * u13) - (1/2) * u4 * (2 * (c.bs 2) + 2 * (c.bs 3) * u5 + 2 * (c.bs 4) * u6 + 6 * x * ((c.bx 0 3) + (c.bx 0 4) * u12)) - u8 * ((c.by_ 0 3) + (c.by_ 0 4) * u12) + y * ((c.by_ 0 1) + (c.by_ 0 2) * u10 + (c.by_ 0 3) * u11 + (c.by_ 0 4) * u13))

/-- `Bx` for the multipole order 2: spline_B_field_eval.h:162-232. -/
def Bx2 (c : Coeffs) (x y s : ℝ) : ℝ :=
  let u0 := s * s
  let u1 := s * s * s
  let u2 := s * s * s * s
  let u3 := y * y * y * y * y
  let u4 := 48 * (c.bx 0 4)
  let u5 := y * y * y * y
  let u6 := ((1/48)) * u5
  let u7 := y * y * y
  let u8 := 3 * s
  let u9 := 6 * u0
  let u10 := (c.by_ 1 2) + (c.by_ 1 3) * u8 + (c.by_ 1 4) * u9
  let u11 := (c.bx 1 1) * s
  let u12 := (c.bx 1 2) * u0
  let u13 := (c.bx 1 3) * u1
  let u14 := (c.bx 1 4) * u2
  let u15 := (c.by_ 1 0) + (c.by_ 1 1) * s + (c.by_ 1 2) * u0 + (c.by_ 1 3) * u1 + (c.by_ 1 4) * u2
  let u16 := (c.bx 0 2) + (c.bx 0 3) * u8 + (c.bx 0 4) * u9
  let u17 := (c.bx 1 2) + (c.bx 1 3) * u8 + (c.bx 1 4) * u9
  let u18 := 4 * x
  let u19 := y * y
  let u20 := ((1/4)) * u19
  ((c.bx 0 0) + (c.bx 0 1) * s + (c.bx 0 2) * u0 + (c.bx 0 3) * u1 + (c.bx 0 4) * u2 + ((1/5)) * (c.by_ 1 4) * u3 + x * ((c.bx 1 0) + u11 + u12 + u13 + u14) - (1/3) * u10 * u7 + u15 * y - u20 * (4 * u16 + u17 * u18) + u6 * (48 * (c.bx 1 4) * x + u4))

/-- `By` for the multipole order 2: spline_B_field_eval.h:162-232. -/
def By2 (c : Coeffs) (x y s : ℝ) : ℝ :=
  let u0 := s * s
  let u1 := s * s * s
  let u2 := s * s * s * s
  let u3 := y * y * y * y * y
  let u4 := 48 * (c.bx 0 4)
  let u5 := y * y * y * y
  let u7 := y * y * y
  let u8 := 3 * s
  let u9 := 6 * u0
  let u10 := (c.by_ 1 2) + (c.by_ 1 3) * u8 + (c.by_ 1 4) * u9
  let u11 := (c.bx 1 1) * s
  let u12 := (c.bx 1 2) * u0
  let u13 := (c.bx 1 3) * u1
  let u14 := (c.bx 1 4) * u2
  let u15 := (c.by_ 1 0) + (c.by_ 1 1) * s + (c.by_ 1 2) * u0 + (c.by_ 1 3) * u1 + (c.by_ 1 4) * u2
  let u16 := (c.bx 0 2) + (c.bx 0 3) * u8 + (c.bx 0 4) * u9
  let u17 := (c.bx 1 2) + (c.bx 1 3) * u8 + (c.bx 1 4) * u9
  let u18 := 4 * x
  let u19 := y * y
  let u21 := x * x
  let u22 := 4 * s
  let u23 := 8 * u1
  (-(3/5) * (c.bx 1 4) * u3 + (c.by_ 0 0) + (c.by_ 0 1) * s + (c.by_ 0 2) * u0 + (c.by_ 0 3) * u1 + (c.by_ 0 4) * u2 + x * u15 - (1/2) * u19 * (2 * (c.by_ 0 2) + 2 * (c.by_ 0 3) * u8 + 2 * (c.by_ 0 4) * u9 + 2 * x * u10) + ((1/24)) * u5 * (24 * (c.by_ 0 4) + 24 * (c.by_ 1 4) * x) + ((1/12)) * u7 * (12 * (c.bs 3) + 12 * (c.bs 4) * u22 + 24 * (c.bx 1 4) * u21 + x * u4 + 8 * u17) - (1/2) * y * (2 * (c.bs 1) + (c.bs 2) * u22 + (c.bs 3) * u9 + (c.bs 4) * u23 + 2 * (c.bx 1 0) + 2 * u11 + 2 * u12 + 2 * u13 + 2 * u14 + u16 * u18 + 2 * u17 * u21))

/-- `Bs` for the multipole order 2: spline_B_field_eval.h:162-232. -/
def Bs2 (c : Coeffs) (x y s : ℝ) : ℝ :=
  let u0 := s * s
  let u1 := s * s * s
  let u2 := s * s * s * s
  let u5 := y * y * y * y
  let u6 := ((1/48)) * u5
  let u7 := y * y * y
  let u8 := 3 * s
  let u9 := 6 * u0
  let u19 := y * y
  let u20 := ((1/4)) * u19
  let u21 := x * x
  let u22 := 4 * s
  let u23 := 8 * u1
  let u24 := (c.bx 1 3) + (c.bx 1 4) * u22
  let u25 := 2 * s
  let u26 := 3 * u0
  let u27 := 4 * u1
  ((c.bs 0) + (c.bs 1) * s + (c.bs 2) * u0 + (c.bs 3) * u1 + (c.bs 4) * u2 + x * ((c.bx 0 1) + (c.bx 0 2) * u25 + (c.bx 0 3) * u26 + (c.bx 0 4) * u27) - u20 * (4 * (c.bs 2) + 4 * (c.bs 3) * u8 + 4 * (c.bs 4) * u9 + 2 * (c.bx 1 1) + (c.bx 1 2) * u22 + (c.bx 1 3) * u9 + (c.bx 1 4) * u23 + 12 * x * ((c.bx 0 3) + (c.bx 0 4) * u22) + 6 * u21 * u24) + ((1/2)) * u21 * ((c.bx 1 1) + (c.bx 1 2) * u25 + (c.bx 1 3) * u26 + (c.bx 1 4) * u27) + u6 * (48 * (c.bs 4) + 24 * u24) - (1/6) * u7 * (6 * (c.by_ 0 3) + 6 * (c.by_ 0 4) * u22 + 6 * x * ((c.by_ 1 3) + (c.by_ 1 4) * u22)) + y * ((c.by_ 0 1) + (c.by_ 0 2) * u25 + (c.by_ 0 3) * u26 + (c.by_ 0 4) * u27 + x * ((c.by_ 1 1) + (c.by_ 1 2) * u25 + (c.by_ 1 3) * u26 + (c.by_ 1 4) * u27)))

/-- `Bx` for the multipole order 3: spline_B_field_eval.h:236-352. -/
def Bx3 (c : Coeffs) (x y s : ℝ) : ℝ :=
  let u0 := s * s
  let u1 := s * s * s
  let u2 := s * s * s * s
  let u3 := ((1/10)) * y * y * y * y * y * y
  let u4 := y * y * y * y * y
  let u5 := 48 * (c.by_ 1 4)
  let u6 := (c.bx 1 1) * s
  let u7 := (c.bx 1 2) * u0
  let u8 := (c.bx 1 3) * u1
  let u9 := (c.bx 1 4) * u2
  let u10 := (c.bx 2 1) * s
  let u11 := (c.bx 2 2) * u0
  let u12 := (c.bx 2 3) * u1
  let u13 := (c.bx 2 4) * u2
  let u14 := (c.bx 2 0) + u10 + u11 + u12 + u13
  let u15 := x * x
  let u16 := ((1/2)) * u15
  let u17 := 144 * (c.bx 0 4)
  let u18 := 72 * u15
  let u19 := 3 * s
  let u20 := 6 * u0
  let u21 := (c.bx 2 2) + (c.bx 2 3) * u19 + (c.bx 2 4) * u20
  let u22 := y * y * y * y
  let u23 := ((1/144)) * u22
  let u24 := (c.by_ 1 2) + (c.by_ 1 3) * u19 + (c.by_ 1 4) * u20
  let u25 := (c.by_ 2 2) + (c.by_ 2 3) * u19 + (c.by_ 2 4) * u20
  let u26 := 4 * x
  let u27 := y * y * y
  let u28 := ((1/12)) * u27
  let u29 := (c.by_ 1 1) * s
  let u30 := (c.by_ 1 2) * u0
  let u31 := (c.by_ 1 3) * u1
  let u32 := (c.by_ 1 4) * u2
  let u33 := (c.by_ 2 1) * s
  let u34 := (c.by_ 2 2) * u0
  let u35 := (c.by_ 2 3) * u1
  let u36 := (c.by_ 2 4) * u2
  let u37 := (c.by_ 2 0) + u33 + u34 + u35 + u36
  let u38 := 2 * x
  let u39 := ((1/2)) * y
  let u40 := (c.bx 0 2) + (c.bx 0 3) * u19 + (c.bx 0 4) * u20
  let u41 := (c.bx 1 2) + (c.bx 1 3) * u19 + (c.bx 1 4) * u20
  let u42 := 12 * x
  let u43 := 6 * u15
  let u44 := y * y
  let u45 := ((1/12)) * u44
  ((c.bx 0 0) + (c.bx 0 1) * s + (c.bx 0 2) * u0 + (c.bx 0 3) * u1 + (c.bx 0 4) * u2 - (c.bx 2 4) * u3 + x * ((c.bx 1 0) + u6 + u7 + u8 + u9) + u14 * u16 + u23 * (144 * (c.bx 1 4) * x + (c.bx 2 4) * u18 + u17 + 24 * u21) - u28 * (4 * u24 + u25 * u26) + u39 * (2 * (c.by_ 1 0) + 2 * u29 + 2 * u30 + 2 * u31 + 2 * u32 + u37 * u38) + ((1/240)) * u4 * (48 * (c.by_ 2 4) * x + u5) - u45 * (6 * (c.bx 2 0) + 6 * u10 + 6 * u11 + 6 * u12 + 6 * u13 + u21 * u43 + 12 * u40 + u41 * u42))

/-- `By` for the multipole order 3: spline_B_field_eval.h:236-352. -/
def By3 (c : Coeffs) (x y s : ℝ) : ℝ :=
  let u0 := s * s
  let u1 := s * s * s
  let u2 := s * s * s * s
  let u3 := ((1/10)) * y * y * y * y * y * y
  let u4 := y * y * y * y * y
  let u5 := 48 * (c.by_ 1 4)
  let u6 := (c.bx 1 1) * s
  let u7 := (c.bx 1 2) * u0
  let u8 := (c.bx 1 3) * u1
  let u9 := (c.bx 1 4) * u2
  let u10 := (c.bx 2 1) * s
  let u11 := (c.bx 2 2) * u0
  let u12 := (c.bx 2 3) * u1
  let u13 := (c.bx 2 4) * u2
  let u14 := (c.bx 2 0) + u10 + u11 + u12 + u13
  let u15 := x * x
  let u16 := ((1/2)) * u15
  let u17 := 144 * (c.bx 0 4)
  let u18 := 72 * u15
  let u19 := 3 * s
  let u20 := 6 * u0
  let u21 := (c.bx 2 2) + (c.bx 2 3) * u19 + (c.bx 2 4) * u20
  let u22 := y * y * y * y
  let u24 := (c.by_ 1 2) + (c.by_ 1 3) * u19 + (c.by_ 1 4) * u20
  let u25 := (c.by_ 2 2) + (c.by_ 2 3) * u19 + (c.by_ 2 4) * u20
  let u26 := 4 * x
  let u27 := y * y * y
  let u29 := (c.by_ 1 1) * s
  let u30 := (c.by_ 1 2) * u0
  let u31 := (c.by_ 1 3) * u1
  let u32 := (c.by_ 1 4) * u2
  let u33 := (c.by_ 2 1) * s
  let u34 := (c.by_ 2 2) * u0
  let u35 := (c.by_ 2 3) * u1
  let u36 := (c.by_ 2 4) * u2
  let u37 := (c.by_ 2 0) + u33 + u34 + u35 + u36
  let u40 := (c.bx 0 2) + (c.bx 0 3) * u19 + (c.bx 0 4) * u20
  let u41 := (c.bx 1 2) + (c.bx 1 3) * u19 + (c.bx 1 4) * u20
  let u42 := 12 * x
  let u43 := 6 * u15
  let u44 := y * y
  let u46 := x * x * x
  let u47 := 4 * s
  let u48 := 12 * s
  let u49 := 18 * u0
  let u50 := 24 * u1
  let u51 := 6 * x
  ((c.by_ 0 0) + (c.by_ 0 1) * s + (c.by_ 0 2) * u0 + (c.by_ 0 3) * u1 + (c.by_ 0 4) * u2 - (c.by_ 2 4) * u3 + x * ((c.by_ 1 0) + u29 + u30 + u31 + u32) + u16 * u37 + ((1/48)) * u22 * (48 * (c.by_ 0 4) + 24 * (c.by_ 2 4) * u15 + x * u5 + 8 * u25) + ((1/36)) * u27 * (36 * (c.bs 3) + 36 * (c.bs 4) * u47 + (c.bx 1 4) * u18 + 24 * (c.bx 2 4) * u46 + x * u17 + 24 * x * u21 + 24 * u41) - (1/720) * u4 * (432 * (c.bx 1 4) + 432 * (c.bx 2 4) * x) - (1/4) * u44 * (4 * (c.by_ 0 2) + 4 * (c.by_ 0 3) * u19 + 4 * (c.by_ 0 4) * u20 + 2 * (c.by_ 2 0) + 2 * u15 * u25 + u24 * u26 + 2 * u33 + 2 * u34 + 2 * u35 + 2 * u36) - (1/6) * y * (6 * (c.bs 1) + (c.bs 2) * u48 + (c.bs 3) * u49 + (c.bs 4) * u50 + 6 * (c.bx 1 0) + u14 * u51 + 2 * u21 * u46 + u40 * u42 + u41 * u43 + 6 * u6 + 6 * u7 + 6 * u8 + 6 * u9))

/-- `Bs` for the multipole order 3: spline_B_field_eval.h:236-352. -/
def Bs3 (c : Coeffs) (x y s : ℝ) : ℝ :=
  let u0 := s * s
  let u1 := s * s * s
  let u2 := s * s * s * s
  let u4 := y * y * y * y * y
  let u15 := x * x
  let u16 := ((1/2)) * u15
  let u19 := 3 * s
  let u20 := 6 * u0
  let u22 := y * y * y * y
  let u23 := ((1/144)) * u22
  let u27 := y * y * y
  let u28 := ((1/12)) * u27
  let u38 := 2 * x
  let u39 := ((1/2)) * y
  let u42 := 12 * x
  let u43 := 6 * u15
  let u44 := y * y
  let u45 := ((1/12)) * u44
  let u46 := x * x * x
  let u47 := 4 * s
  let u48 := 12 * s
  let u49 := 18 * u0
  let u50 := 24 * u1
  let u51 := 6 * x
  let u52 := (c.by_ 2 3) + (c.by_ 2 4) * u47
  let u53 := 2 * s
  let u54 := 3 * u0
  let u55 := 4 * u1
  let u56 := (c.bx 2 1) + (c.bx 2 2) * u53 + (c.bx 2 3) * u54 + (c.bx 2 4) * u55
  let u57 := (c.bx 1 3) + (c.bx 1 4) * u47
  let u58 := (c.bx 2 3) + (c.bx 2 4) * u47
  let u59 := 8 * u1
  ((c.bs 0) + (c.bs 1) * s + (c.bs 2) * u0 + (c.bs 3) * u1 + (c.bs 4) * u2 + x * ((c.bx 0 1) + (c.bx 0 2) * u53 + (c.bx 0 3) * u54 + (c.bx 0 4) * u55) + u16 * ((c.bx 1 1) + (c.bx 1 2) * u53 + (c.bx 1 3) * u54 + (c.bx 1 4) * u55) + u23 * (144 * (c.bs 4) + 72 * x * u58 + 72 * u57) - u28 * (12 * (c.by_ 0 3) + 12 * (c.by_ 0 4) * u47 + 2 * (c.by_ 2 1) + (c.by_ 2 2) * u47 + (c.by_ 2 3) * u20 + (c.by_ 2 4) * u59 + u42 * ((c.by_ 1 3) + (c.by_ 1 4) * u47) + u43 * u52) + u39 * (2 * (c.by_ 0 1) + (c.by_ 0 2) * u47 + (c.by_ 0 3) * u20 + (c.by_ 0 4) * u59 + u15 * ((c.by_ 2 1) + (c.by_ 2 2) * u53 + (c.by_ 2 3) * u54 + (c.by_ 2 4) * u55) + u38 * ((c.by_ 1 1) + (c.by_ 1 2) * u53 + (c.by_ 1 3) * u54 + (c.by_ 1 4) * u55)) + ((1/10)) * u4 * u52 - u45 * (12 * (c.bs 2) + 12 * (c.bs 3) * u19 + 12 * (c.bs 4) * u20 + 6 * (c.bx 1 1) + (c.bx 1 2) * u48 + (c.bx 1 3) * u49 + (c.bx 1 4) * u50 + 36 * x * ((c.bx 0 3) + (c.bx 0 4) * u47) + 18 * u15 * u57 + 6 * u46 * u58 + u51 * u56) + ((1/6)) * u46 * u56)

/-- `Bx` for the multipole order 4: spline_B_field_eval.h:356-518. -/
def Bx4 (c : Coeffs) (x y s : ℝ) : ℝ :=
  let u0 := s * s
  let u1 := s * s * s
  let u2 := s * s * s * s
  let u3 := y * y * y * y * y * y * y
  let u4 := y * y * y * y * y * y
  let u5 := 1728 * (c.bx 2 4)
  let u6 := (c.bx 1 1) * s
  let u7 := (c.bx 1 2) * u0
  let u8 := (c.bx 1 3) * u1
  let u9 := (c.bx 1 4) * u2
  let u10 := (c.bx 2 1) * s
  let u11 := (c.bx 2 2) * u0
  let u12 := (c.bx 2 3) * u1
  let u13 := (c.bx 2 4) * u2
  let u14 := (c.bx 2 0) + u10 + u11 + u12 + u13
  let u15 := x * x
  let u16 := ((1/2)) * u15
  let u17 := (c.bx 3 1) * s
  let u18 := (c.bx 3 2) * u0
  let u19 := (c.bx 3 3) * u1
  let u20 := (c.bx 3 4) * u2
  let u21 := (c.bx 3 0) + u17 + u18 + u19 + u20
  let u22 := x * x * x
  let u23 := ((1/6)) * u22
  let u24 := 144 * (c.by_ 1 4)
  let u25 := 144 * x
  let u26 := 72 * u15
  let u27 := 3 * s
  let u28 := 6 * u0
  let u29 := (c.by_ 3 2) + (c.by_ 3 3) * u27 + (c.by_ 3 4) * u28
  let u30 := y * y * y * y * y
  let u31 := ((1/720)) * u30
  let u32 := 576 * (c.bx 0 4)
  let u33 := 288 * u15
  let u34 := 96 * u22
  let u35 := (c.bx 2 2) + (c.bx 2 3) * u27 + (c.bx 2 4) * u28
  let u36 := (c.bx 3 2) + (c.bx 3 3) * u27 + (c.bx 3 4) * u28
  let u37 := 96 * x
  let u38 := y * y * y * y
  let u39 := ((1/576)) * u38
  let u40 := (c.by_ 1 1) * s
  let u41 := (c.by_ 1 2) * u0
  let u42 := (c.by_ 1 3) * u1
  let u43 := (c.by_ 1 4) * u2
  let u44 := (c.by_ 2 1) * s
  let u45 := (c.by_ 2 2) * u0
  let u46 := (c.by_ 2 3) * u1
  let u47 := (c.by_ 2 4) * u2
  let u48 := (c.by_ 2 0) + u44 + u45 + u46 + u47
  let u49 := 6 * x
  let u50 := (c.by_ 3 1) * s
  let u51 := (c.by_ 3 2) * u0
  let u52 := (c.by_ 3 3) * u1
  let u53 := (c.by_ 3 4) * u2
  let u54 := (c.by_ 3 0) + u50 + u51 + u52 + u53
  let u55 := 3 * u15
  let u56 := ((1/6)) * y
  let u57 := (c.by_ 1 2) + (c.by_ 1 3) * u27 + (c.by_ 1 4) * u28
  let u58 := (c.by_ 2 2) + (c.by_ 2 3) * u27 + (c.by_ 2 4) * u28
  let u59 := 12 * x
  let u60 := 6 * u15
  let u61 := y * y * y
  let u62 := ((1/36)) * u61
  let u63 := (c.bx 0 2) + (c.bx 0 3) * u27 + (c.bx 0 4) * u28
  let u64 := (c.bx 1 2) + (c.bx 1 3) * u27 + (c.bx 1 4) * u28
  let u65 := 48 * x
  let u66 := 24 * u15
  let u67 := 8 * u22
  let u68 := 24 * x
  let u69 := y * y
  let u70 := ((1/48)) * u69
  ((c.bx 0 0) + (c.bx 0 1) * s + (c.bx 0 2) * u0 + (c.bx 0 3) * u1 + (c.bx 0 4) * u2 - (1/70) * (c.by_ 3 4) * u3 + x * ((c.bx 1 0) + u6 + u7 + u8 + u9) + u14 * u16 + u21 * u23 + u31 * ((c.by_ 2 4) * u25 + (c.by_ 3 4) * u26 + u24 + 24 * u29) + u39 * (576 * (c.bx 1 4) * x + (c.bx 2 4) * u33 + (c.bx 3 4) * u34 + u32 + 96 * u35 + u36 * u37) - (1/17280) * u4 * (1728 * (c.bx 3 4) * x + u5) + u56 * (6 * (c.by_ 1 0) + 6 * u40 + 6 * u41 + 6 * u42 + 6 * u43 + u48 * u49 + u54 * u55) - u62 * (6 * (c.by_ 3 0) + u29 * u60 + 6 * u50 + 6 * u51 + 6 * u52 + 6 * u53 + 12 * u57 + u58 * u59) - u70 * (24 * (c.bx 2 0) + 24 * u10 + 24 * u11 + 24 * u12 + 24 * u13 + u21 * u68 + u35 * u66 + u36 * u67 + 48 * u63 + u64 * u65))

/-- `By` for the multipole order 4: spline_B_field_eval.h:356-518. -/
def By4 (c : Coeffs) (x y s : ℝ) : ℝ :=
  let u0 := s * s
  let u1 := s * s * s
  let u2 := s * s * s * s
  let u3 := y * y * y * y * y * y * y
  let u4 := y * y * y * y * y * y
  let u5 := 1728 * (c.bx 2 4)
  let u6 := (c.bx 1 1) * s
  let u7 := (c.bx 1 2) * u0
  let u8 := (c.bx 1 3) * u1
  let u9 := (c.bx 1 4) * u2
  let u10 := (c.bx 2 1) * s
  let u11 := (c.bx 2 2) * u0
  let u12 := (c.bx 2 3) * u1
  let u13 := (c.bx 2 4) * u2
  let u14 := (c.bx 2 0) + u10 + u11 + u12 + u13
  let u15 := x * x
  let u16 := ((1/2)) * u15
  let u17 := (c.bx 3 1) * s
  let u18 := (c.bx 3 2) * u0
  let u19 := (c.bx 3 3) * u1
  let u20 := (c.bx 3 4) * u2
  let u21 := (c.bx 3 0) + u17 + u18 + u19 + u20
  let u22 := x * x * x
  let u23 := ((1/6)) * u22
  let u24 := 144 * (c.by_ 1 4)
  let u26 := 72 * u15
  let u27 := 3 * s
  let u28 := 6 * u0
  let u29 := (c.by_ 3 2) + (c.by_ 3 3) * u27 + (c.by_ 3 4) * u28
  let u30 := y * y * y * y * y
  let u32 := 576 * (c.bx 0 4)
  let u33 := 288 * u15
  let u34 := 96 * u22
  let u35 := (c.bx 2 2) + (c.bx 2 3) * u27 + (c.bx 2 4) * u28
  let u36 := (c.bx 3 2) + (c.bx 3 3) * u27 + (c.bx 3 4) * u28
  let u37 := 96 * x
  let u38 := y * y * y * y
  let u40 := (c.by_ 1 1) * s
  let u41 := (c.by_ 1 2) * u0
  let u42 := (c.by_ 1 3) * u1
  let u43 := (c.by_ 1 4) * u2
  let u44 := (c.by_ 2 1) * s
  let u45 := (c.by_ 2 2) * u0
  let u46 := (c.by_ 2 3) * u1
  let u47 := (c.by_ 2 4) * u2
  let u48 := (c.by_ 2 0) + u44 + u45 + u46 + u47
  let u49 := 6 * x
  let u50 := (c.by_ 3 1) * s
  let u51 := (c.by_ 3 2) * u0
  let u52 := (c.by_ 3 3) * u1
  let u53 := (c.by_ 3 4) * u2
  let u54 := (c.by_ 3 0) + u50 + u51 + u52 + u53
  let u57 := (c.by_ 1 2) + (c.by_ 1 3) * u27 + (c.by_ 1 4) * u28
  let u58 := (c.by_ 2 2) + (c.by_ 2 3) * u27 + (c.by_ 2 4) * u28
  let u59 := 12 * x
  let u60 := 6 * u15
  let u61 := y * y * y
  let u63 := (c.bx 0 2) + (c.bx 0 3) * u27 + (c.bx 0 4) * u28
  let u64 := (c.bx 1 2) + (c.bx 1 3) * u27 + (c.bx 1 4) * u28
  let u65 := 48 * x
  let u66 := 24 * u15
  let u67 := 8 * u22
  let u68 := 24 * x
  let u69 := y * y
  let u71 := 24 * u22
  let u72 := x * x * x * x
  let u73 := 4 * s
  let u74 := 48 * s
  let u75 := 72 * u0
  let u76 := 96 * u1
  let u77 := 12 * u15
  (((1/35)) * (c.bx 3 4) * u3 + (c.by_ 0 0) + (c.by_ 0 1) * s + (c.by_ 0 2) * u0 + (c.by_ 0 3) * u1 + (c.by_ 0 4) * u2 + x * ((c.by_ 1 0) + u40 + u41 + u42 + u43) + u16 * u48 + u23 * u54 - (1/2880) * u30 * (1728 * (c.bx 1 4) + 864 * (c.bx 3 4) * u15 + x * u5 + 144 * u36) + ((1/144)) * u38 * (144 * (c.by_ 0 4) + (c.by_ 2 4) * u26 + (c.by_ 3 4) * u71 + x * u24 + u29 * u68 + 24 * u58) - (1/4320) * u4 * (432 * (c.by_ 2 4) + 432 * (c.by_ 3 4) * x) + ((1/144)) * u61 * (144 * (c.bs 3) + 144 * (c.bs 4) * u73 + (c.bx 1 4) * u33 + (c.bx 2 4) * u34 + 24 * (c.bx 3 0) + 24 * (c.bx 3 4) * u72 + x * u32 + 48 * u15 * u36 + 24 * u17 + 24 * u18 + 24 * u19 + 24 * u20 + u35 * u37 + 96 * u64) - (1/12) * u69 * (12 * (c.by_ 0 2) + 12 * (c.by_ 0 3) * u27 + 12 * (c.by_ 0 4) * u28 + 6 * (c.by_ 2 0) + 2 * u22 * u29 + 6 * u44 + 6 * u45 + 6 * u46 + 6 * u47 + u49 * u54 + u57 * u59 + u58 * u60) - (1/24) * y * (24 * (c.bs 1) + (c.bs 2) * u74 + (c.bs 3) * u75 + (c.bs 4) * u76 + 24 * (c.bx 1 0) + u14 * u68 + u21 * u77 + u35 * u67 + 2 * u36 * u72 + 24 * u6 + u63 * u65 + u64 * u66 + 24 * u7 + 24 * u8 + 24 * u9))

/-- `Bs` for the multipole order 4: spline_B_field_eval.h:356-518. -/
def Bs4 (c : Coeffs) (x y s : ℝ) : ℝ :=
  let u0 := s * s
  let u1 := s * s * s
  let u2 := s * s * s * s
  let u4 := y * y * y * y * y * y
  let u15 := x * x
  let u16 := ((1/2)) * u15
  let u22 := x * x * x
  let u23 := ((1/6)) * u22
  let u25 := 144 * x
  let u26 := 72 * u15
  let u27 := 3 * s
  let u28 := 6 * u0
  let u30 := y * y * y * y * y
  let u31 := ((1/720)) * u30
  let u38 := y * y * y * y
  let u39 := ((1/576)) * u38
  let u49 := 6 * x
  let u55 := 3 * u15
  let u56 := ((1/6)) * y
  let u61 := y * y * y
  let u62 := ((1/36)) * u61
  let u68 := 24 * x
  let u69 := y * y
  let u70 := ((1/48)) * u69
  let u71 := 24 * u22
  let u72 := x * x * x * x
  let u73 := 4 * s
  let u74 := 48 * s
  let u75 := 72 * u0
  let u76 := 96 * u1
  let u77 := 12 * u15
  let u78 := (c.bx 3 3) + (c.bx 3 4) * u73
  let u79 := 2 * s
  let u80 := 3 * u0
  let u81 := 4 * u1
  let u82 := (c.bx 2 1) + (c.bx 2 2) * u79 + (c.bx 2 3) * u80 + (c.bx 2 4) * u81
  let u83 := (c.bx 3 1) + (c.bx 3 2) * u79 + (c.bx 3 3) * u80 + (c.bx 3 4) * u81
  let u84 := (c.by_ 2 3) + (c.by_ 2 4) * u73
  let u85 := (c.by_ 3 3) + (c.by_ 3 4) * u73
  let u86 := (c.bx 1 3) + (c.bx 1 4) * u73
  let u87 := (c.bx 2 3) + (c.bx 2 4) * u73
  let u88 := 12 * s
  let u89 := 18 * u0
  let u90 := 24 * u1
  let u91 := (c.by_ 3 1) + (c.by_ 3 2) * u79 + (c.by_ 3 3) * u80 + (c.by_ 3 4) * u81
  ((c.bs 0) + (c.bs 1) * s + (c.bs 2) * u0 + (c.bs 3) * u1 + (c.bs 4) * u2 + x * ((c.bx 0 1) + (c.bx 0 2) * u79 + (c.bx 0 3) * u80 + (c.bx 0 4) * u81) + u16 * ((c.bx 1 1) + (c.bx 1 2) * u79 + (c.bx 1 3) * u80 + (c.bx 1 4) * u81) + u23 * u82 + u31 * (72 * x * u85 + 72 * u84) + u39 * (576 * (c.bs 4) + 24 * (c.bx 3 1) + (c.bx 3 2) * u74 + (c.bx 3 3) * u75 + (c.bx 3 4) * u76 + 288 * x * u87 + 144 * u15 * u78 + 288 * u86) - (1/40) * u4 * u78 + u56 * (6 * (c.by_ 0 1) + (c.by_ 0 2) * u88 + (c.by_ 0 3) * u89 + (c.by_ 0 4) * u90 + u22 * u91 + u49 * ((c.by_ 1 1) + (c.by_ 1 2) * u79 + (c.by_ 1 3) * u80 + (c.by_ 1 4) * u81) + u55 * ((c.by_ 2 1) + (c.by_ 2 2) * u79 + (c.by_ 2 3) * u80 + (c.by_ 2 4) * u81)) - u62 * (36 * (c.by_ 0 3) + 36 * (c.by_ 0 4) * u73 + 6 * (c.by_ 2 1) + (c.by_ 2 2) * u88 + (c.by_ 2 3) * u89 + (c.by_ 2 4) * u90 + 36 * x * ((c.by_ 1 3) + (c.by_ 1 4) * u73) + 18 * u15 * u84 + 6 * u22 * u85 + u49 * u91) - u70 * (48 * (c.bs 2) + 48 * (c.bs 3) * u27 + 48 * (c.bs 4) * u28 + 24 * (c.bx 1 1) + (c.bx 1 2) * u74 + (c.bx 1 3) * u75 + (c.bx 1 4) * u76 + u25 * ((c.bx 0 3) + (c.bx 0 4) * u73) + u26 * u86 + u68 * u82 + u71 * u87 + 6 * u72 * u78 + u77 * u83) + ((1/24)) * u72 * u83)

/-- `Bx` for the multipole order 5: spline_B_field_eval.h:522-727. -/
def Bx5 (c : Coeffs) (x y s : ℝ) : ℝ :=
  let u0 := s * s
  let u1 := s * s * s
  let u2 := s * s * s * s
  let u3 := ((1/280)) * y * y * y * y * y * y * y * y
  let u4 := y * y * y * y * y * y * y
  let u5 := 1728 * (c.by_ 3 4)
  let u6 := (c.bx 1 1) * s
  let u7 := (c.bx 1 2) * u0
  let u8 := (c.bx 1 3) * u1
  let u9 := (c.bx 1 4) * u2
  let u10 := (c.bx 2 1) * s
  let u11 := (c.bx 2 2) * u0
  let u12 := (c.bx 2 3) * u1
  let u13 := (c.bx 2 4) * u2
  let u14 := (c.bx 2 0) + u10 + u11 + u12 + u13
  let u15 := x * x
  let u16 := ((1/2)) * u15
  let u17 := (c.bx 3 1) * s
  let u18 := (c.bx 3 2) * u0
  let u19 := (c.bx 3 3) * u1
  let u20 := (c.bx 3 4) * u2
  let u21 := (c.bx 3 0) + u17 + u18 + u19 + u20
  let u22 := x * x * x
  let u23 := ((1/6)) * u22
  let u24 := (c.bx 4 1) * s
  let u25 := (c.bx 4 2) * u0
  let u26 := (c.bx 4 3) * u1
  let u27 := (c.bx 4 4) * u2
  let u28 := (c.bx 4 0) + u24 + u25 + u26 + u27
  let u29 := x * x * x * x
  let u30 := ((1/24)) * u29
  let u31 := 8640 * (c.bx 2 4)
  let u32 := 4320 * u15
  let u33 := 3 * s
  let u34 := 6 * u0
  let u35 := (c.bx 4 2) + (c.bx 4 3) * u33 + (c.bx 4 4) * u34
  let u36 := y * y * y * y * y * y
  let u37 := ((1/86400)) * u36
  let u38 := 576 * (c.by_ 1 4)
  let u39 := 288 * u15
  let u40 := 96 * u22
  let u41 := (c.by_ 3 2) + (c.by_ 3 3) * u33 + (c.by_ 3 4) * u34
  let u42 := (c.by_ 4 2) + (c.by_ 4 3) * u33 + (c.by_ 4 4) * u34
  let u43 := 96 * x
  let u44 := y * y * y * y * y
  let u45 := ((1/2880)) * u44
  let u46 := (c.by_ 1 1) * s
  let u47 := (c.by_ 1 2) * u0
  let u48 := (c.by_ 1 3) * u1
  let u49 := (c.by_ 1 4) * u2
  let u50 := (c.by_ 2 1) * s
  let u51 := (c.by_ 2 2) * u0
  let u52 := (c.by_ 2 3) * u1
  let u53 := (c.by_ 2 4) * u2
  let u54 := (c.by_ 2 0) + u50 + u51 + u52 + u53
  let u55 := 24 * x
  let u56 := (c.by_ 3 1) * s
  let u57 := (c.by_ 3 2) * u0
  let u58 := (c.by_ 3 3) * u1
  let u59 := (c.by_ 3 4) * u2
  let u60 := (c.by_ 3 0) + u56 + u57 + u58 + u59
  let u61 := 12 * u15
  let u62 := (c.by_ 4 1) * s
  let u63 := (c.by_ 4 2) * u0
  let u64 := (c.by_ 4 3) * u1
  let u65 := (c.by_ 4 4) * u2
  let u66 := (c.by_ 4 0) + u62 + u63 + u64 + u65
  let u67 := 4 * u22
  let u68 := ((1/24)) * y
  let u69 := 2880 * (c.bx 0 4)
  let u70 := 1440 * u15
  let u71 := 480 * u22
  let u72 := 120 * u29
  let u73 := (c.bx 2 2) + (c.bx 2 3) * u33 + (c.bx 2 4) * u34
  let u74 := (c.bx 3 2) + (c.bx 3 3) * u33 + (c.bx 3 4) * u34
  let u75 := 480 * x
  let u76 := 240 * u15
  let u77 := y * y * y * y
  let u78 := ((1/2880)) * u77
  let u79 := (c.by_ 1 2) + (c.by_ 1 3) * u33 + (c.by_ 1 4) * u34
  let u80 := (c.by_ 2 2) + (c.by_ 2 3) * u33 + (c.by_ 2 4) * u34
  let u81 := 48 * x
  let u82 := 24 * u15
  let u83 := 8 * u22
  let u84 := y * y * y
  let u85 := ((1/144)) * u84
  let u86 := (c.bx 0 2) + (c.bx 0 3) * u33 + (c.bx 0 4) * u34
  let u87 := (c.bx 1 2) + (c.bx 1 3) * u33 + (c.bx 1 4) * u34
  let u88 := 240 * x
  let u89 := 120 * u15
  let u90 := 40 * u22
  let u91 := 10 * u29
  let u92 := 120 * x
  let u93 := 60 * u15
  let u94 := y * y
  let u95 := ((1/240)) * u94
  ((c.bx 0 0) + (c.bx 0 1) * s + (c.bx 0 2) * u0 + (c.bx 0 3) * u1 + (c.bx 0 4) * u2 + (c.bx 4 4) * u3 + x * ((c.bx 1 0) + u6 + u7 + u8 + u9) + u14 * u16 + u21 * u23 + u28 * u30 - u37 * (8640 * (c.bx 3 4) * x + (c.bx 4 4) * u32 + u31 + 720 * u35) - (1/120960) * u4 * (1728 * (c.by_ 4 4) * x + u5) + u45 * (576 * (c.by_ 2 4) * x + (c.by_ 3 4) * u39 + (c.by_ 4 4) * u40 + u38 + 96 * u41 + u42 * u43) + u68 * (24 * (c.by_ 1 0) + 24 * u46 + 24 * u47 + 24 * u48 + 24 * u49 + u54 * u55 + u60 * u61 + u66 * u67) + u78 * (2880 * (c.bx 1 4) * x + (c.bx 2 4) * u70 + (c.bx 3 4) * u71 + 120 * (c.bx 4 0) + (c.bx 4 4) * u72 + 120 * u24 + 120 * u25 + 120 * u26 + 120 * u27 + u35 * u76 + u69 + 480 * u73 + u74 * u75) - u85 * (24 * (c.by_ 3 0) + u41 * u82 + u42 * u83 + u55 * u66 + 24 * u56 + 24 * u57 + 24 * u58 + 24 * u59 + 48 * u79 + u80 * u81) - u95 * (120 * (c.bx 2 0) + 120 * u10 + 120 * u11 + 120 * u12 + 120 * u13 + u21 * u92 + u28 * u93 + u35 * u91 + u73 * u89 + u74 * u90 + 240 * u86 + u87 * u88))

/-- `By` for the multipole order 5: spline_B_field_eval.h:522-727. -/
def By5 (c : Coeffs) (x y s : ℝ) : ℝ :=
  let u0 := s * s
  let u1 := s * s * s
  let u2 := s * s * s * s
  let u3 := ((1/280)) * y * y * y * y * y * y * y * y
  let u4 := y * y * y * y * y * y * y
  let u5 := 1728 * (c.by_ 3 4)
  let u6 := (c.bx 1 1) * s
  let u7 := (c.bx 1 2) * u0
  let u8 := (c.bx 1 3) * u1
  let u9 := (c.bx 1 4) * u2
  let u10 := (c.bx 2 1) * s
  let u11 := (c.bx 2 2) * u0
  let u12 := (c.bx 2 3) * u1
  let u13 := (c.bx 2 4) * u2
  let u14 := (c.bx 2 0) + u10 + u11 + u12 + u13
  let u15 := x * x
  let u16 := ((1/2)) * u15
  let u17 := (c.bx 3 1) * s
  let u18 := (c.bx 3 2) * u0
  let u19 := (c.bx 3 3) * u1
  let u20 := (c.bx 3 4) * u2
  let u21 := (c.bx 3 0) + u17 + u18 + u19 + u20
  let u22 := x * x * x
  let u23 := ((1/6)) * u22
  let u24 := (c.bx 4 1) * s
  let u25 := (c.bx 4 2) * u0
  let u26 := (c.bx 4 3) * u1
  let u27 := (c.bx 4 4) * u2
  let u28 := (c.bx 4 0) + u24 + u25 + u26 + u27
  let u29 := x * x * x * x
  let u30 := ((1/24)) * u29
  let u31 := 8640 * (c.bx 2 4)
  let u32 := 4320 * u15
  let u33 := 3 * s
  let u34 := 6 * u0
  let u35 := (c.bx 4 2) + (c.bx 4 3) * u33 + (c.bx 4 4) * u34
  let u36 := y * y * y * y * y * y
  let u38 := 576 * (c.by_ 1 4)
  let u39 := 288 * u15
  let u40 := 96 * u22
  let u41 := (c.by_ 3 2) + (c.by_ 3 3) * u33 + (c.by_ 3 4) * u34
  let u42 := (c.by_ 4 2) + (c.by_ 4 3) * u33 + (c.by_ 4 4) * u34
  let u43 := 96 * x
  let u44 := y * y * y * y * y
  let u46 := (c.by_ 1 1) * s
  let u47 := (c.by_ 1 2) * u0
  let u48 := (c.by_ 1 3) * u1
  let u49 := (c.by_ 1 4) * u2
  let u50 := (c.by_ 2 1) * s
  let u51 := (c.by_ 2 2) * u0
  let u52 := (c.by_ 2 3) * u1
  let u53 := (c.by_ 2 4) * u2
  let u54 := (c.by_ 2 0) + u50 + u51 + u52 + u53
  let u55 := 24 * x
  let u56 := (c.by_ 3 1) * s
  let u57 := (c.by_ 3 2) * u0
  let u58 := (c.by_ 3 3) * u1
  let u59 := (c.by_ 3 4) * u2
  let u60 := (c.by_ 3 0) + u56 + u57 + u58 + u59
  let u61 := 12 * u15
  let u62 := (c.by_ 4 1) * s
  let u63 := (c.by_ 4 2) * u0
  let u64 := (c.by_ 4 3) * u1
  let u65 := (c.by_ 4 4) * u2
  let u66 := (c.by_ 4 0) + u62 + u63 + u64 + u65
  let u69 := 2880 * (c.bx 0 4)
  let u70 := 1440 * u15
  let u71 := 480 * u22
  let u72 := 120 * u29
  let u73 := (c.bx 2 2) + (c.bx 2 3) * u33 + (c.bx 2 4) * u34
  let u74 := (c.bx 3 2) + (c.bx 3 3) * u33 + (c.bx 3 4) * u34
  let u75 := 480 * x
  let u76 := 240 * u15
  let u77 := y * y * y * y
  let u79 := (c.by_ 1 2) + (c.by_ 1 3) * u33 + (c.by_ 1 4) * u34
  let u80 := (c.by_ 2 2) + (c.by_ 2 3) * u33 + (c.by_ 2 4) * u34
  let u81 := 48 * x
  let u82 := 24 * u15
  let u83 := 8 * u22
  let u84 := y * y * y
  let u86 := (c.bx 0 2) + (c.bx 0 3) * u33 + (c.bx 0 4) * u34
  let u87 := (c.bx 1 2) + (c.bx 1 3) * u33 + (c.bx 1 4) * u34
  let u88 := 240 * x
  let u89 := 120 * u15
  let u90 := 40 * u22
  let u91 := 10 * u29
  let u92 := 120 * x
  let u93 := 60 * u15
  let u94 := y * y
  let u96 := 720 * x
  let u97 := x * x * x * x * x
  let u98 := 4 * s
  let u99 := 240 * s
  let u100 := 360 * u0
  let u101 := 480 * u1
  let u102 := 20 * u22
  ((c.by_ 0 0) + (c.by_ 0 1) * s + (c.by_ 0 2) * u0 + (c.by_ 0 3) * u1 + (c.by_ 0 4) * u2 + (c.by_ 4 4) * u3 + x * ((c.by_ 1 0) + u46 + u47 + u48 + u49) + u16 * u54 + u23 * u60 + u30 * u66 - (1/17280) * u36 * (1728 * (c.by_ 2 4) + 864 * (c.by_ 4 4) * u15 + x * u5 + 144 * u42) + ((1/604800)) * u4 * (17280 * (c.bx 3 4) + 17280 * (c.bx 4 4) * x) - (1/14400) * u44 * (8640 * (c.bx 1 4) + (c.bx 3 4) * u32 + 1440 * (c.bx 4 4) * u22 + x * u31 + u35 * u96 + 720 * u74) + ((1/576)) * u77 * (576 * (c.by_ 0 4) + (c.by_ 2 4) * u39 + (c.by_ 3 4) * u40 + 24 * (c.by_ 4 0) + 24 * (c.by_ 4 4) * u29 + x * u38 + 48 * u15 * u42 + u41 * u43 + 24 * u62 + 24 * u63 + 24 * u64 + 24 * u65 + 96 * u80) + ((1/720)) * u84 * (720 * (c.bs 3) + 720 * (c.bs 4) * u98 + (c.bx 1 4) * u70 + (c.bx 2 4) * u71 + 120 * (c.bx 3 0) + (c.bx 3 4) * u72 + 24 * (c.bx 4 4) * u97 + x * u69 + 120 * u17 + 120 * u18 + 120 * u19 + 120 * u20 + 80 * u22 * u35 + u28 * u92 + u73 * u75 + u74 * u76 + 480 * u87) - (1/48) * u94 * (48 * (c.by_ 0 2) + 48 * (c.by_ 0 3) * u33 + 48 * (c.by_ 0 4) * u34 + 24 * (c.by_ 2 0) + 2 * u29 * u42 + u41 * u83 + 24 * u50 + 24 * u51 + 24 * u52 + 24 * u53 + u55 * u60 + u61 * u66 + u79 * u81 + u80 * u82) - (1/120) * y * (120 * (c.bs 1) + (c.bs 2) * u99 + (c.bs 3) * u100 + (c.bs 4) * u101 + 120 * (c.bx 1 0) + u102 * u28 + u14 * u92 + u21 * u93 + 2 * u35 * u97 + 120 * u6 + 120 * u7 + u73 * u90 + u74 * u91 + 120 * u8 + u86 * u88 + u87 * u89 + 120 * u9))

/-- `Bs` for the multipole order 5: spline_B_field_eval.h:522-727. -/
def Bs5 (c : Coeffs) (x y s : ℝ) : ℝ :=
  let u0 := s * s
  let u1 := s * s * s
  let u2 := s * s * s * s
  let u4 := y * y * y * y * y * y * y
  let u15 := x * x
  let u16 := ((1/2)) * u15
  let u22 := x * x * x
  let u23 := ((1/6)) * u22
  let u29 := x * x * x * x
  let u30 := ((1/24)) * u29
  let u33 := 3 * s
  let u34 := 6 * u0
  let u36 := y * y * y * y * y * y
  let u37 := ((1/86400)) * u36
  let u44 := y * y * y * y * y
  let u45 := ((1/2880)) * u44
  let u55 := 24 * x
  let u61 := 12 * u15
  let u67 := 4 * u22
  let u68 := ((1/24)) * y
  let u77 := y * y * y * y
  let u78 := ((1/2880)) * u77
  let u84 := y * y * y
  let u85 := ((1/144)) * u84
  let u92 := 120 * x
  let u93 := 60 * u15
  let u94 := y * y
  let u95 := ((1/240)) * u94
  let u96 := 720 * x
  let u97 := x * x * x * x * x
  let u98 := 4 * s
  let u99 := 240 * s
  let u100 := 360 * u0
  let u101 := 480 * u1
  let u102 := 20 * u22
  let u103 := (c.by_ 4 3) + (c.by_ 4 4) * u98
  let u104 := 2 * s
  let u105 := 3 * u0
  let u106 := 4 * u1
  let u107 := (c.bx 2 1) + (c.bx 2 2) * u104 + (c.bx 2 3) * u105 + (c.bx 2 4) * u106
  let u108 := (c.bx 3 1) + (c.bx 3 2) * u104 + (c.bx 3 3) * u105 + (c.bx 3 4) * u106
  let u109 := (c.bx 4 1) + (c.bx 4 2) * u104 + (c.bx 4 3) * u105 + (c.bx 4 4) * u106
  let u110 := (c.bx 3 3) + (c.bx 3 4) * u98
  let u111 := (c.bx 4 3) + (c.bx 4 4) * u98
  let u112 := 48 * s
  let u113 := 72 * u0
  let u114 := 96 * u1
  let u115 := (c.by_ 2 3) + (c.by_ 2 4) * u98
  let u116 := (c.by_ 3 3) + (c.by_ 3 4) * u98
  let u117 := (c.bx 1 3) + (c.bx 1 4) * u98
  let u118 := (c.bx 2 3) + (c.bx 2 4) * u98
  let u119 := (c.by_ 4 1) + (c.by_ 4 2) * u104 + (c.by_ 4 3) * u105 + (c.by_ 4 4) * u106
  let u120 := (c.by_ 3 1) + (c.by_ 3 2) * u104 + (c.by_ 3 3) * u105 + (c.by_ 3 4) * u106
  ((c.bs 0) + (c.bs 1) * s + (c.bs 2) * u0 + (c.bs 3) * u1 + (c.bs 4) * u2 + x * ((c.bx 0 1) + (c.bx 0 2) * u104 + (c.bx 0 3) * u105 + (c.bx 0 4) * u106) - (1/280) * u103 * u4 + u107 * u23 + u108 * u30 + ((1/120)) * u109 * u97 + u16 * ((c.bx 1 1) + (c.bx 1 2) * u104 + (c.bx 1 3) * u105 + (c.bx 1 4) * u106) - u37 * (2160 * x * u111 + 2160 * u110) + u45 * (24 * (c.by_ 4 1) + (c.by_ 4 2) * u112 + (c.by_ 4 3) * u113 + (c.by_ 4 4) * u114 + 288 * x * u116 + 144 * u103 * u15 + 288 * u115) + u68 * (24 * (c.by_ 0 1) + (c.by_ 0 2) * u112 + (c.by_ 0 3) * u113 + (c.by_ 0 4) * u114 + u119 * u29 + u120 * u67 + u55 * ((c.by_ 1 1) + (c.by_ 1 2) * u104 + (c.by_ 1 3) * u105 + (c.by_ 1 4) * u106) + u61 * ((c.by_ 2 1) + (c.by_ 2 2) * u104 + (c.by_ 2 3) * u105 + (c.by_ 2 4) * u106)) + u78 * (2880 * (c.bs 4) + 120 * (c.bx 3 1) + (c.bx 3 2) * u99 + (c.bx 3 3) * u100 + (c.bx 3 4) * u101 + 1440 * x * u118 + u109 * u92 + 720 * u110 * u15 + 240 * u111 * u22 + 1440 * u117) - u85 * (144 * (c.by_ 0 3) + 144 * (c.by_ 0 4) * u98 + 24 * (c.by_ 2 1) + (c.by_ 2 2) * u112 + (c.by_ 2 3) * u113 + (c.by_ 2 4) * u114 + 144 * x * ((c.by_ 1 3) + (c.by_ 1 4) * u98) + 6 * u103 * u29 + 72 * u115 * u15 + 24 * u116 * u22 + u119 * u61 + u120 * u55) - u95 * (240 * (c.bs 2) + 240 * (c.bs 3) * u33 + 240 * (c.bs 4) * u34 + 120 * (c.bx 1 1) + (c.bx 1 2) * u99 + (c.bx 1 3) * u100 + (c.bx 1 4) * u101 + u102 * u109 + u107 * u92 + u108 * u93 + 30 * u110 * u29 + 6 * u111 * u97 + 360 * u117 * u15 + 120 * u118 * u22 + u96 * ((c.bx 0 3) + (c.bx 0 4) * u98)))

/-- `Bx` for the multipole order 6: spline_B_field_eval.h:731-983. -/
def Bx6 (c : Coeffs) (x y s : ℝ) : ℝ :=
  let u0 := s * s
  let u1 := s * s * s
  let u2 := s * s * s * s
  let u3 := y * y * y * y * y * y * y * y * y
  let u4 := y * y * y * y * y * y * y * y
  let u5 := 103680 * (c.bx 4 4)
  let u6 := (c.bx 1 1) * s
  let u7 := (c.bx 1 2) * u0
  let u8 := (c.bx 1 3) * u1
  let u9 := (c.bx 1 4) * u2
  let u10 := (c.bx 2 1) * s
  let u11 := (c.bx 2 2) * u0
  let u12 := (c.bx 2 3) * u1
  let u13 := (c.bx 2 4) * u2
  let u14 := (c.bx 2 0) + u10 + u11 + u12 + u13
  let u15 := x * x
  let u16 := ((1/2)) * u15
  let u17 := (c.bx 3 1) * s
  let u18 := (c.bx 3 2) * u0
  let u19 := (c.bx 3 3) * u1
  let u20 := (c.bx 3 4) * u2
  let u21 := (c.bx 3 0) + u17 + u18 + u19 + u20
  let u22 := x * x * x
  let u23 := ((1/6)) * u22
  let u24 := (c.bx 4 1) * s
  let u25 := (c.bx 4 2) * u0
  let u26 := (c.bx 4 3) * u1
  let u27 := (c.bx 4 4) * u2
  let u28 := (c.bx 4 0) + u24 + u25 + u26 + u27
  let u29 := x * x * x * x
  let u30 := ((1/24)) * u29
  let u31 := (c.bx 5 1) * s
  let u32 := (c.bx 5 2) * u0
  let u33 := (c.bx 5 3) * u1
  let u34 := (c.bx 5 4) * u2
  let u35 := (c.bx 5 0) + u31 + u32 + u33 + u34
  let u36 := x * x * x * x * x
  let u37 := ((1/120)) * u36
  let u38 := 8640 * (c.by_ 3 4)
  let u39 := 8640 * x
  let u40 := 4320 * u15
  let u41 := 3 * s
  let u42 := 6 * u0
  let u43 := (c.by_ 5 2) + (c.by_ 5 3) * u41 + (c.by_ 5 4) * u42
  let u44 := y * y * y * y * y * y * y
  let u45 := ((1/604800)) * u44
  let u46 := 51840 * (c.bx 2 4)
  let u47 := 25920 * u15
  let u48 := 8640 * u22
  let u49 := (c.bx 4 2) + (c.bx 4 3) * u41 + (c.bx 4 4) * u42
  let u50 := (c.bx 5 2) + (c.bx 5 3) * u41 + (c.bx 5 4) * u42
  let u51 := 4320 * x
  let u52 := y * y * y * y * y * y
  let u53 := ((1/518400)) * u52
  let u54 := 2880 * (c.by_ 1 4)
  let u55 := 2880 * x
  let u56 := (c.by_ 5 1) * s
  let u57 := 1440 * u15
  let u58 := 480 * u22
  let u59 := (c.by_ 5 2) * u0
  let u60 := (c.by_ 5 3) * u1
  let u61 := (c.by_ 5 4) * u2
  let u62 := 120 * u29
  let u63 := (c.by_ 3 2) + (c.by_ 3 3) * u41 + (c.by_ 3 4) * u42
  let u64 := (c.by_ 4 2) + (c.by_ 4 3) * u41 + (c.by_ 4 4) * u42
  let u65 := 480 * x
  let u66 := 240 * u15
  let u67 := y * y * y * y * y
  let u68 := ((1/14400)) * u67
  let u69 := (c.by_ 1 1) * s
  let u70 := (c.by_ 1 2) * u0
  let u71 := (c.by_ 1 3) * u1
  let u72 := (c.by_ 1 4) * u2
  let u73 := (c.by_ 2 1) * s
  let u74 := (c.by_ 2 2) * u0
  let u75 := (c.by_ 2 3) * u1
  let u76 := (c.by_ 2 4) * u2
  let u77 := (c.by_ 2 0) + u73 + u74 + u75 + u76
  let u78 := 120 * x
  let u79 := (c.by_ 3 1) * s
  let u80 := (c.by_ 3 2) * u0
  let u81 := (c.by_ 3 3) * u1
  let u82 := (c.by_ 3 4) * u2
  let u83 := (c.by_ 3 0) + u79 + u80 + u81 + u82
  let u84 := 60 * u15
  let u85 := (c.by_ 4 1) * s
  let u86 := (c.by_ 4 2) * u0
  let u87 := (c.by_ 4 3) * u1
  let u88 := (c.by_ 4 4) * u2
  let u89 := (c.by_ 4 0) + u85 + u86 + u87 + u88
  let u90 := 20 * u22
  let u91 := (c.by_ 5 0) + u56 + u59 + u60 + u61
  let u92 := 5 * u29
  let u93 := ((1/120)) * y
  let u94 := 17280 * (c.bx 0 4)
  let u95 := 17280 * x
  let u96 := 8640 * u15
  let u97 := 2880 * u22
  let u98 := 720 * u29
  let u99 := 144 * u36
  let u100 := (c.bx 2 2) + (c.bx 2 3) * u41 + (c.bx 2 4) * u42
  let u101 := (c.bx 3 2) + (c.bx 3 3) * u41 + (c.bx 3 4) * u42
  let u102 := 720 * x
  let u103 := y * y * y * y
  let u104 := ((1/17280)) * u103
  let u105 := (c.by_ 1 2) + (c.by_ 1 3) * u41 + (c.by_ 1 4) * u42
  let u106 := (c.by_ 2 2) + (c.by_ 2 3) * u41 + (c.by_ 2 4) * u42
  let u107 := 240 * x
  let u108 := 120 * u15
  let u109 := 40 * u22
  let u110 := 10 * u29
  let u111 := y * y * y
  let u112 := ((1/720)) * u111
  let u113 := (c.bx 0 2) + (c.bx 0 3) * u41 + (c.bx 0 4) * u42
  let u114 := (c.bx 1 2) + (c.bx 1 3) * u41 + (c.bx 1 4) * u42
  let u115 := 1440 * x
  let u116 := 720 * u15
  let u117 := 240 * u22
  let u118 := 60 * u29
  let u119 := 12 * u36
  let u120 := 360 * u15
  let u121 := 120 * u22
  let u122 := y * y
  let u123 := ((1/1440)) * u122
  ((c.bx 0 0) + (c.bx 0 1) * s + (c.bx 0 2) * u0 + (c.bx 0 3) * u1 + (c.bx 0 4) * u2 + ((1/2520)) * (c.by_ 5 4) * u3 + x * ((c.bx 1 0) + u6 + u7 + u8 + u9) + u104 * ((c.bx 1 4) * u95 + (c.bx 2 4) * u96 + (c.bx 3 4) * u97 + 720 * (c.bx 4 0) + (c.bx 4 4) * u98 + (c.bx 5 4) * u99 + 2880 * u100 + u101 * u55 + u102 * u35 + 720 * u24 + 720 * u25 + 720 * u26 + 720 * u27 + u49 * u57 + u50 * u58 + u94) - u112 * (120 * (c.by_ 3 0) + 240 * u105 + u106 * u107 + u108 * u63 + u109 * u64 + u110 * u43 + u78 * u89 + 120 * u79 + 120 * u80 + 120 * u81 + 120 * u82 + u84 * u91) - u123 * (720 * (c.bx 2 0) + 720 * u10 + u100 * u116 + u101 * u117 + u102 * u21 + 720 * u11 + 1440 * u113 + u114 * u115 + u118 * u49 + u119 * u50 + 720 * u12 + u120 * u28 + u121 * u35 + 720 * u13) + u14 * u16 + u21 * u23 + u28 * u30 + u35 * u37 + ((1/29030400)) * u4 * (103680 * (c.bx 5 4) * x + u5) - u45 * ((c.by_ 4 4) * u39 + (c.by_ 5 4) * u40 + u38 + 720 * u43) - u53 * (51840 * (c.bx 3 4) * x + (c.bx 4 4) * u47 + (c.bx 5 4) * u48 + u46 + 4320 * u49 + u50 * u51) + u68 * ((c.by_ 2 4) * u55 + (c.by_ 3 4) * u57 + (c.by_ 4 4) * u58 + 120 * (c.by_ 5 0) + (c.by_ 5 4) * u62 + u43 * u66 + u54 + 120 * u56 + 120 * u59 + 120 * u60 + 120 * u61 + 480 * u63 + u64 * u65) + u93 * (120 * (c.by_ 1 0) + 120 * u69 + 120 * u70 + 120 * u71 + 120 * u72 + u77 * u78 + u83 * u84 + u89 * u90 + u91 * u92))

/-- `By` for the multipole order 6: spline_B_field_eval.h:731-983. -/
def By6 (c : Coeffs) (x y s : ℝ) : ℝ :=
  let u0 := s * s
  let u1 := s * s * s
  let u2 := s * s * s * s
  let u3 := y * y * y * y * y * y * y * y * y
  let u4 := y * y * y * y * y * y * y * y
  let u5 := 103680 * (c.bx 4 4)
  let u6 := (c.bx 1 1) * s
  let u7 := (c.bx 1 2) * u0
  let u8 := (c.bx 1 3) * u1
  let u9 := (c.bx 1 4) * u2
  let u10 := (c.bx 2 1) * s
  let u11 := (c.bx 2 2) * u0
  let u12 := (c.bx 2 3) * u1
  let u13 := (c.bx 2 4) * u2
  let u14 := (c.bx 2 0) + u10 + u11 + u12 + u13
  let u15 := x * x
  let u16 := ((1/2)) * u15
  let u17 := (c.bx 3 1) * s
  let u18 := (c.bx 3 2) * u0
  let u19 := (c.bx 3 3) * u1
  let u20 := (c.bx 3 4) * u2
  let u21 := (c.bx 3 0) + u17 + u18 + u19 + u20
  let u22 := x * x * x
  let u23 := ((1/6)) * u22
  let u24 := (c.bx 4 1) * s
  let u25 := (c.bx 4 2) * u0
  let u26 := (c.bx 4 3) * u1
  let u27 := (c.bx 4 4) * u2
  let u28 := (c.bx 4 0) + u24 + u25 + u26 + u27
  let u29 := x * x * x * x
  let u30 := ((1/24)) * u29
  let u31 := (c.bx 5 1) * s
  let u32 := (c.bx 5 2) * u0
  let u33 := (c.bx 5 3) * u1
  let u34 := (c.bx 5 4) * u2
  let u35 := (c.bx 5 0) + u31 + u32 + u33 + u34
  let u36 := x * x * x * x * x
  let u37 := ((1/120)) * u36
  let u38 := 8640 * (c.by_ 3 4)
  let u40 := 4320 * u15
  let u41 := 3 * s
  let u42 := 6 * u0
  let u43 := (c.by_ 5 2) + (c.by_ 5 3) * u41 + (c.by_ 5 4) * u42
  let u44 := y * y * y * y * y * y * y
  let u46 := 51840 * (c.bx 2 4)
  let u47 := 25920 * u15
  let u48 := 8640 * u22
  let u49 := (c.bx 4 2) + (c.bx 4 3) * u41 + (c.bx 4 4) * u42
  let u50 := (c.bx 5 2) + (c.bx 5 3) * u41 + (c.bx 5 4) * u42
  let u51 := 4320 * x
  let u52 := y * y * y * y * y * y
  let u54 := 2880 * (c.by_ 1 4)
  let u55 := 2880 * x
  let u56 := (c.by_ 5 1) * s
  let u57 := 1440 * u15
  let u58 := 480 * u22
  let u59 := (c.by_ 5 2) * u0
  let u60 := (c.by_ 5 3) * u1
  let u61 := (c.by_ 5 4) * u2
  let u62 := 120 * u29
  let u63 := (c.by_ 3 2) + (c.by_ 3 3) * u41 + (c.by_ 3 4) * u42
  let u64 := (c.by_ 4 2) + (c.by_ 4 3) * u41 + (c.by_ 4 4) * u42
  let u65 := 480 * x
  let u66 := 240 * u15
  let u67 := y * y * y * y * y
  let u69 := (c.by_ 1 1) * s
  let u70 := (c.by_ 1 2) * u0
  let u71 := (c.by_ 1 3) * u1
  let u72 := (c.by_ 1 4) * u2
  let u73 := (c.by_ 2 1) * s
  let u74 := (c.by_ 2 2) * u0
  let u75 := (c.by_ 2 3) * u1
  let u76 := (c.by_ 2 4) * u2
  let u77 := (c.by_ 2 0) + u73 + u74 + u75 + u76
  let u78 := 120 * x
  let u79 := (c.by_ 3 1) * s
  let u80 := (c.by_ 3 2) * u0
  let u81 := (c.by_ 3 3) * u1
  let u82 := (c.by_ 3 4) * u2
  let u83 := (c.by_ 3 0) + u79 + u80 + u81 + u82
  let u84 := 60 * u15
  let u85 := (c.by_ 4 1) * s
  let u86 := (c.by_ 4 2) * u0
  let u87 := (c.by_ 4 3) * u1
  let u88 := (c.by_ 4 4) * u2
  let u89 := (c.by_ 4 0) + u85 + u86 + u87 + u88
  let u90 := 20 * u22
  let u91 := (c.by_ 5 0) + u56 + u59 + u60 + u61
  let u94 := 17280 * (c.bx 0 4)
  let u95 := 17280 * x
  let u96 := 8640 * u15
  let u97 := 2880 * u22
  let u98 := 720 * u29
  let u99 := 144 * u36
  let u100 := (c.bx 2 2) + (c.bx 2 3) * u41 + (c.bx 2 4) * u42
  let u101 := (c.bx 3 2) + (c.bx 3 3) * u41 + (c.bx 3 4) * u42
  let u102 := 720 * x
  let u103 := y * y * y * y
  let u105 := (c.by_ 1 2) + (c.by_ 1 3) * u41 + (c.by_ 1 4) * u42
  let u106 := (c.by_ 2 2) + (c.by_ 2 3) * u41 + (c.by_ 2 4) * u42
  let u107 := 240 * x
  let u108 := 120 * u15
  let u109 := 40 * u22
  let u110 := 10 * u29
  let u111 := y * y * y
  let u113 := (c.bx 0 2) + (c.bx 0 3) * u41 + (c.bx 0 4) * u42
  let u114 := (c.bx 1 2) + (c.bx 1 3) * u41 + (c.bx 1 4) * u42
  let u115 := 1440 * x
  let u116 := 720 * u15
  let u117 := 240 * u22
  let u118 := 60 * u29
  let u119 := 12 * u36
  let u120 := 360 * u15
  let u121 := 120 * u22
  let u122 := y * y
  let u124 := 1440 * u22
  let u125 := 2160 * u15
  let u126 := x * x * x * x * x * x
  let u127 := 4 * s
  let u128 := 1440 * s
  let u129 := 2160 * u0
  let u130 := 2880 * u1
  let u131 := 30 * u29
  (-(1/1512) * (c.bx 5 4) * u3 + (c.by_ 0 0) + (c.by_ 0 1) * s + (c.by_ 0 2) * u0 + (c.by_ 0 3) * u1 + (c.by_ 0 4) * u2 + x * ((c.by_ 1 0) + u69 + u70 + u71 + u72) + ((1/2880)) * u103 * (2880 * (c.by_ 0 4) + (c.by_ 2 4) * u57 + (c.by_ 3 4) * u58 + 120 * (c.by_ 4 0) + (c.by_ 4 4) * u62 + 24 * (c.by_ 5 4) * u36 + x * u54 + 480 * u106 + 80 * u22 * u43 + u63 * u65 + u64 * u66 + u78 * u91 + 120 * u85 + 120 * u86 + 120 * u87 + 120 * u88) + ((1/4320)) * u111 * (4320 * (c.bs 3) + 4320 * (c.bs 4) * u127 + (c.bx 1 4) * u96 + (c.bx 2 4) * u97 + 720 * (c.bx 3 0) + (c.bx 3 4) * u98 + (c.bx 4 4) * u99 + 24 * (c.bx 5 4) * u126 + x * u94 + u100 * u55 + u101 * u57 + u102 * u28 + 2880 * u114 + u120 * u35 + 720 * u17 + 720 * u18 + 720 * u19 + 720 * u20 + u49 * u58 + u50 * u62) - (1/240) * u122 * (240 * (c.by_ 0 2) + 240 * (c.by_ 0 3) * u41 + 240 * (c.by_ 0 4) * u42 + 120 * (c.by_ 2 0) + u105 * u107 + u106 * u108 + u109 * u63 + u110 * u64 + 2 * u36 * u43 + 120 * u73 + 120 * u74 + 120 * u75 + 120 * u76 + u78 * u83 + u84 * u89 + u90 * u91) + u16 * u77 + u23 * u83 + u30 * u89 + u37 * u91 + ((1/4838400)) * u4 * (17280 * (c.by_ 4 4) + (c.by_ 5 4) * u95) + ((1/3628800)) * u44 * (103680 * (c.bx 3 4) + 51840 * (c.bx 5 4) * u15 + x * u5 + 5760 * u50) - (1/86400) * u52 * (8640 * (c.by_ 2 4) + (c.by_ 4 4) * u40 + (c.by_ 5 4) * u124 + x * u38 + u102 * u43 + 720 * u64) - (1/86400) * u67 * (51840 * (c.bx 1 4) + (c.bx 3 4) * u47 + (c.bx 4 4) * u48 + 720 * (c.bx 5 0) + 2160 * (c.bx 5 4) * u29 + x * u46 + 4320 * u101 + u125 * u50 + 720 * u31 + 720 * u32 + 720 * u33 + 720 * u34 + u49 * u51) - (1/720) * y * (720 * (c.bs 1) + (c.bs 2) * u128 + (c.bs 3) * u129 + (c.bs 4) * u130 + 720 * (c.bx 1 0) + u100 * u117 + u101 * u118 + u102 * u14 + u113 * u115 + u114 * u116 + u119 * u49 + u120 * u21 + u121 * u28 + 2 * u126 * u50 + u131 * u35 + 720 * u6 + 720 * u7 + 720 * u8 + 720 * u9))

/-- `Bs` for the multipole order 6: spline_B_field_eval.h:731-983. -/
def Bs6 (c : Coeffs) (x y s : ℝ) : ℝ :=
  let u0 := s * s
  let u1 := s * s * s
  let u2 := s * s * s * s
  let u4 := y * y * y * y * y * y * y * y
  let u15 := x * x
  let u16 := ((1/2)) * u15
  let u22 := x * x * x
  let u23 := ((1/6)) * u22
  let u29 := x * x * x * x
  let u30 := ((1/24)) * u29
  let u36 := x * x * x * x * x
  let u37 := ((1/120)) * u36
  let u39 := 8640 * x
  let u40 := 4320 * u15
  let u41 := 3 * s
  let u42 := 6 * u0
  let u44 := y * y * y * y * y * y * y
  let u45 := ((1/604800)) * u44
  let u51 := 4320 * x
  let u52 := y * y * y * y * y * y
  let u53 := ((1/518400)) * u52
  let u67 := y * y * y * y * y
  let u68 := ((1/14400)) * u67
  let u78 := 120 * x
  let u84 := 60 * u15
  let u90 := 20 * u22
  let u92 := 5 * u29
  let u93 := ((1/120)) * y
  let u102 := 720 * x
  let u103 := y * y * y * y
  let u104 := ((1/17280)) * u103
  let u111 := y * y * y
  let u112 := ((1/720)) * u111
  let u115 := 1440 * x
  let u116 := 720 * u15
  let u117 := 240 * u22
  let u120 := 360 * u15
  let u121 := 120 * u22
  let u122 := y * y
  let u123 := ((1/1440)) * u122
  let u124 := 1440 * u22
  let u125 := 2160 * u15
  let u126 := x * x * x * x * x * x
  let u127 := 4 * s
  let u128 := 1440 * s
  let u129 := 2160 * u0
  let u130 := 2880 * u1
  let u131 := 30 * u29
  let u132 := (c.bx 5 3) + (c.bx 5 4) * u127
  let u133 := 2 * s
  let u134 := 3 * u0
  let u135 := 4 * u1
  let u136 := (c.bx 2 1) + (c.bx 2 2) * u133 + (c.bx 2 3) * u134 + (c.bx 2 4) * u135
  let u137 := (c.bx 3 1) + (c.bx 3 2) * u133 + (c.bx 3 3) * u134 + (c.bx 3 4) * u135
  let u138 := (c.bx 4 1) + (c.bx 4 2) * u133 + (c.bx 4 3) * u134 + (c.bx 4 4) * u135
  let u139 := (c.bx 5 1) + (c.bx 5 2) * u133 + (c.bx 5 3) * u134 + (c.bx 5 4) * u135
  let u140 := (c.by_ 4 3) + (c.by_ 4 4) * u127
  let u141 := (c.by_ 5 3) + (c.by_ 5 4) * u127
  let u142 := (c.bx 3 3) + (c.bx 3 4) * u127
  let u143 := (c.bx 4 3) + (c.bx 4 4) * u127
  let u144 := 240 * s
  let u145 := 360 * u0
  let u146 := 480 * u1
  let u147 := (c.by_ 2 3) + (c.by_ 2 4) * u127
  let u148 := (c.by_ 3 3) + (c.by_ 3 4) * u127
  let u149 := (c.by_ 5 1) + (c.by_ 5 2) * u133 + (c.by_ 5 3) * u134 + (c.by_ 5 4) * u135
  let u150 := (c.bx 1 3) + (c.bx 1 4) * u127
  let u151 := (c.bx 2 3) + (c.bx 2 4) * u127
  let u152 := (c.by_ 3 1) + (c.by_ 3 2) * u133 + (c.by_ 3 3) * u134 + (c.by_ 3 4) * u135
  let u153 := (c.by_ 4 1) + (c.by_ 4 2) * u133 + (c.by_ 4 3) * u134 + (c.by_ 4 4) * u135
  ((c.bs 0) + (c.bs 1) * s + (c.bs 2) * u0 + (c.bs 3) * u1 + (c.bs 4) * u2 + x * ((c.bx 0 1) + (c.bx 0 2) * u133 + (c.bx 0 3) * u134 + (c.bx 0 4) * u135) + u104 * (17280 * (c.bs 4) + 720 * (c.bx 3 1) + (c.bx 3 2) * u128 + (c.bx 3 3) * u129 + (c.bx 3 4) * u130 + u102 * u138 + u120 * u139 + u124 * u143 + 360 * u132 * u29 + u142 * u40 + 8640 * u150 + u151 * u39) - u112 * (720 * (c.by_ 0 3) + 720 * (c.by_ 0 4) * u127 + 120 * (c.by_ 2 1) + (c.by_ 2 2) * u144 + (c.by_ 2 3) * u145 + (c.by_ 2 4) * u146 + u102 * ((c.by_ 1 3) + (c.by_ 1 4) * u127) + u120 * u147 + u121 * u148 + u131 * u140 + 6 * u141 * u36 + u149 * u90 + u152 * u78 + u153 * u84) - u123 * (1440 * (c.bs 2) + 1440 * (c.bs 3) * u41 + 1440 * (c.bs 4) * u42 + 720 * (c.bx 1 1) + (c.bx 1 2) * u128 + (c.bx 1 3) * u129 + (c.bx 1 4) * u130 + u102 * u136 + u120 * u137 + u121 * u138 + u125 * u150 + 6 * u126 * u132 + u131 * u139 + 180 * u142 * u29 + 36 * u143 * u36 + 720 * u151 * u22 + u51 * ((c.bx 0 3) + (c.bx 0 4) * u127)) + ((1/720)) * u126 * u139 + ((1/1680)) * u132 * u4 + u136 * u23 + u137 * u30 + u138 * u37 + u16 * ((c.bx 1 1) + (c.bx 1 2) * u133 + (c.bx 1 3) * u134 + (c.bx 1 4) * u135) - u45 * (2160 * x * u141 + 2160 * u140) - u53 * (720 * (c.bx 5 1) + (c.bx 5 2) * u128 + (c.bx 5 3) * u129 + (c.bx 5 4) * u130 + 12960 * x * u143 + 6480 * u132 * u15 + 12960 * u142) + u68 * (120 * (c.by_ 4 1) + (c.by_ 4 2) * u144 + (c.by_ 4 3) * u145 + (c.by_ 4 4) * u146 + u115 * u148 + u116 * u140 + u117 * u141 + 1440 * u147 + u149 * u78) + u93 * (120 * (c.by_ 0 1) + (c.by_ 0 2) * u144 + (c.by_ 0 3) * u145 + (c.by_ 0 4) * u146 + u149 * u36 + u152 * u90 + u153 * u92 + u78 * ((c.by_ 1 1) + (c.by_ 1 2) * u133 + (c.by_ 1 3) * u134 + (c.by_ 1 4) * u135) + u84 * ((c.by_ 2 1) + (c.by_ 2 2) * u133 + (c.by_ 2 3) * u134 + (c.by_ 2 4) * u135)))

/-- `Bx` for the multipole order 7: spline_B_field_eval.h:987-1288. -/
def Bx7 (c : Coeffs) (x y s : ℝ) : ℝ :=
  let u0 := s * s
  let u1 := s * s * s
  let u2 := s * s * s * s
  let u3 := ((1/15120)) * y * y * y * y * y * y * y * y * y * y
  let u4 := y * y * y * y * y * y * y * y * y
  let u5 := 103680 * (c.by_ 5 4)
  let u6 := (c.bx 1 1) * s
  let u7 := (c.bx 1 2) * u0
  let u8 := (c.bx 1 3) * u1
  let u9 := (c.bx 1 4) * u2
  let u10 := (c.bx 2 1) * s
  let u11 := (c.bx 2 2) * u0
  let u12 := (c.bx 2 3) * u1
  let u13 := (c.bx 2 4) * u2
  let u14 := (c.bx 2 0) + u10 + u11 + u12 + u13
  let u15 := x * x
  let u16 := ((1/2)) * u15
  let u17 := (c.bx 3 1) * s
  let u18 := (c.bx 3 2) * u0
  let u19 := (c.bx 3 3) * u1
  let u20 := (c.bx 3 4) * u2
  let u21 := (c.bx 3 0) + u17 + u18 + u19 + u20
  let u22 := x * x * x
  let u23 := ((1/6)) * u22
  let u24 := (c.bx 4 1) * s
  let u25 := (c.bx 4 2) * u0
  let u26 := (c.bx 4 3) * u1
  let u27 := (c.bx 4 4) * u2
  let u28 := (c.bx 4 0) + u24 + u25 + u26 + u27
  let u29 := x * x * x * x
  let u30 := ((1/24)) * u29
  let u31 := (c.bx 5 1) * s
  let u32 := (c.bx 5 2) * u0
  let u33 := (c.bx 5 3) * u1
  let u34 := (c.bx 5 4) * u2
  let u35 := (c.bx 5 0) + u31 + u32 + u33 + u34
  let u36 := x * x * x * x * x
  let u37 := ((1/120)) * u36
  let u38 := (c.bx 6 1) * s
  let u39 := (c.bx 6 2) * u0
  let u40 := (c.bx 6 3) * u1
  let u41 := (c.bx 6 4) * u2
  let u42 := (c.bx 6 0) + u38 + u39 + u40 + u41
  let u43 := x * x * x * x * x * x
  let u44 := ((1/720)) * u43
  let u45 := 725760 * (c.bx 4 4)
  let u46 := 362880 * u15
  let u47 := 3 * s
  let u48 := 6 * u0
  let u49 := (c.bx 6 2) + (c.bx 6 3) * u47 + (c.bx 6 4) * u48
  let u50 := y * y * y * y * y * y * y * y
  let u51 := ((1/203212800)) * u50
  let u52 := 51840 * (c.by_ 3 4)
  let u53 := 25920 * u15
  let u54 := 8640 * u22
  let u55 := (c.by_ 5 2) + (c.by_ 5 3) * u47 + (c.by_ 5 4) * u48
  let u56 := (c.by_ 6 2) + (c.by_ 6 3) * u47 + (c.by_ 6 4) * u48
  let u57 := 4320 * x
  let u58 := y * y * y * y * y * y * y
  let u59 := ((1/3628800)) * u58
  let u60 := 362880 * (c.bx 2 4)
  let u61 := 181440 * u15
  let u62 := 60480 * u22
  let u63 := 15120 * u29
  let u64 := (c.bx 4 2) + (c.bx 4 3) * u47 + (c.bx 4 4) * u48
  let u65 := (c.bx 5 2) + (c.bx 5 3) * u47 + (c.bx 5 4) * u48
  let u66 := 30240 * x
  let u67 := 15120 * u15
  let u68 := y * y * y * y * y * y
  let u69 := ((1/3628800)) * u68
  let u70 := 17280 * (c.by_ 1 4)
  let u71 := (c.by_ 5 1) * s
  let u72 := 8640 * u15
  let u73 := 2880 * u22
  let u74 := (c.by_ 5 2) * u0
  let u75 := (c.by_ 5 3) * u1
  let u76 := (c.by_ 5 4) * u2
  let u77 := 720 * u29
  let u78 := 144 * u36
  let u79 := (c.by_ 3 2) + (c.by_ 3 3) * u47 + (c.by_ 3 4) * u48
  let u80 := (c.by_ 4 2) + (c.by_ 4 3) * u47 + (c.by_ 4 4) * u48
  let u81 := 2880 * x
  let u82 := 1440 * u15
  let u83 := 480 * u22
  let u84 := (c.by_ 6 1) * s
  let u85 := (c.by_ 6 2) * u0
  let u86 := (c.by_ 6 3) * u1
  let u87 := (c.by_ 6 4) * u2
  let u88 := (c.by_ 6 0) + u84 + u85 + u86 + u87
  let u89 := 720 * x
  let u90 := y * y * y * y * y
  let u91 := ((1/86400)) * u90
  let u92 := (c.by_ 1 1) * s
  let u93 := (c.by_ 1 2) * u0
  let u94 := (c.by_ 1 3) * u1
  let u95 := (c.by_ 1 4) * u2
  let u96 := (c.by_ 2 1) * s
  let u97 := (c.by_ 2 2) * u0
  let u98 := (c.by_ 2 3) * u1
  let u99 := (c.by_ 2 4) * u2
  let u100 := (c.by_ 2 0) + u96 + u97 + u98 + u99
  let u101 := (c.by_ 3 1) * s
  let u102 := (c.by_ 3 2) * u0
  let u103 := (c.by_ 3 3) * u1
  let u104 := (c.by_ 3 4) * u2
  let u105 := (c.by_ 3 0) + u101 + u102 + u103 + u104
  let u106 := 360 * u15
  let u107 := (c.by_ 4 1) * s
  let u108 := (c.by_ 4 2) * u0
  let u109 := (c.by_ 4 3) * u1
  let u110 := (c.by_ 4 4) * u2
  let u111 := (c.by_ 4 0) + u107 + u108 + u109 + u110
  let u112 := 120 * u22
  let u113 := (c.by_ 5 0) + u71 + u74 + u75 + u76
  let u114 := 30 * u29
  let u115 := 6 * u36
  let u116 := ((1/720)) * y
  let u117 := 120960 * (c.bx 0 4)
  let u118 := 120960 * x
  let u119 := 60480 * u15
  let u120 := 20160 * u22
  let u121 := 5040 * u29
  let u122 := 1008 * u36
  let u123 := 168 * u43
  let u124 := (c.bx 2 2) + (c.bx 2 3) * u47 + (c.bx 2 4) * u48
  let u125 := (c.bx 3 2) + (c.bx 3 3) * u47 + (c.bx 3 4) * u48
  let u126 := 20160 * x
  let u127 := 10080 * u15
  let u128 := 3360 * u22
  let u129 := 840 * u29
  let u130 := 5040 * x
  let u131 := 2520 * u15
  let u132 := y * y * y * y
  let u133 := ((1/120960)) * u132
  let u134 := (c.by_ 1 2) + (c.by_ 1 3) * u47 + (c.by_ 1 4) * u48
  let u135 := (c.by_ 2 2) + (c.by_ 2 3) * u47 + (c.by_ 2 4) * u48
  let u136 := 1440 * x
  let u137 := 720 * u15
  let u138 := 240 * u22
  let u139 := 60 * u29
  let u140 := 12 * u36
  let u141 := y * y * y
  let u142 := ((1/4320)) * u141
  let u143 := (c.bx 0 2) + (c.bx 0 3) * u47 + (c.bx 0 4) * u48
  let u144 := (c.bx 1 2) + (c.bx 1 3) * u47 + (c.bx 1 4) * u48
  let u145 := 10080 * x
  let u146 := 5040 * u15
  let u147 := 1680 * u22
  let u148 := 420 * u29
  let u149 := 84 * u36
  let u150 := 14 * u43
  let u151 := 840 * u22
  let u152 := 210 * u29
  let u153 := y * y
  let u154 := ((1/10080)) * u153
  ((c.bx 0 0) + (c.bx 0 1) * s + (c.bx 0 2) * u0 + (c.bx 0 3) * u1 + (c.bx 0 4) * u2 - (c.bx 6 4) * u3 + x * ((c.bx 1 0) + u6 + u7 + u8 + u9) + u116 * (720 * (c.by_ 1 0) + u100 * u89 + u105 * u106 + u111 * u112 + u113 * u114 + u115 * u88 + 720 * u92 + 720 * u93 + 720 * u94 + 720 * u95) + u133 * ((c.bx 1 4) * u118 + (c.bx 2 4) * u119 + (c.bx 3 4) * u120 + 5040 * (c.bx 4 0) + (c.bx 4 4) * u121 + (c.bx 5 4) * u122 + (c.bx 6 4) * u123 + u117 + 20160 * u124 + u125 * u126 + u127 * u64 + u128 * u65 + u129 * u49 + u130 * u35 + u131 * u42 + 5040 * u24 + 5040 * u25 + 5040 * u26 + 5040 * u27) + u14 * u16 - u142 * (720 * (c.by_ 3 0) + 720 * u101 + 720 * u102 + 720 * u103 + 720 * u104 + u106 * u113 + u111 * u89 + u112 * u88 + 1440 * u134 + u135 * u136 + u137 * u79 + u138 * u80 + u139 * u55 + u140 * u56) - u154 * (5040 * (c.bx 2 0) + 5040 * u10 + 5040 * u11 + 5040 * u12 + u124 * u146 + u125 * u147 + 5040 * u13 + u130 * u21 + u131 * u28 + 10080 * u143 + u144 * u145 + u148 * u64 + u149 * u65 + u150 * u49 + u151 * u35 + u152 * u42) + u21 * u23 + u28 * u30 + u35 * u37 + ((1/261273600)) * u4 * (103680 * (c.by_ 6 4) * x + u5) + u42 * u44 + u51 * (725760 * (c.bx 5 4) * x + (c.bx 6 4) * u46 + u45 + 40320 * u49) - u59 * (51840 * (c.by_ 4 4) * x + (c.by_ 5 4) * u53 + (c.by_ 6 4) * u54 + u52 + 4320 * u55 + u56 * u57) - u69 * (362880 * (c.bx 3 4) * x + (c.bx 4 4) * u61 + (c.bx 5 4) * u62 + 5040 * (c.bx 6 0) + (c.bx 6 4) * u63 + 5040 * u38 + 5040 * u39 + 5040 * u40 + 5040 * u41 + u49 * u67 + u60 + 30240 * u64 + u65 * u66) + u91 * (17280 * (c.by_ 2 4) * x + (c.by_ 3 4) * u72 + (c.by_ 4 4) * u73 + 720 * (c.by_ 5 0) + (c.by_ 5 4) * u77 + (c.by_ 6 4) * u78 + u55 * u82 + u56 * u83 + u70 + 720 * u71 + 720 * u74 + 720 * u75 + 720 * u76 + 2880 * u79 + u80 * u81 + u88 * u89))

/-- `By` for the multipole order 7: spline_B_field_eval.h:987-1288. -/
def By7 (c : Coeffs) (x y s : ℝ) : ℝ :=
  let u0 := s * s
  let u1 := s * s * s
  let u2 := s * s * s * s
  let u3 := ((1/15120)) * y * y * y * y * y * y * y * y * y * y
  let u4 := y * y * y * y * y * y * y * y * y
  let u5 := 103680 * (c.by_ 5 4)
  let u6 := (c.bx 1 1) * s
  let u7 := (c.bx 1 2) * u0
  let u8 := (c.bx 1 3) * u1
  let u9 := (c.bx 1 4) * u2
  let u10 := (c.bx 2 1) * s
  let u11 := (c.bx 2 2) * u0
  let u12 := (c.bx 2 3) * u1
  let u13 := (c.bx 2 4) * u2
  let u14 := (c.bx 2 0) + u10 + u11 + u12 + u13
  let u15 := x * x
  let u16 := ((1/2)) * u15
  let u17 := (c.bx 3 1) * s
  let u18 := (c.bx 3 2) * u0
  let u19 := (c.bx 3 3) * u1
  let u20 := (c.bx 3 4) * u2
  let u21 := (c.bx 3 0) + u17 + u18 + u19 + u20
  let u22 := x * x * x
  let u23 := ((1/6)) * u22
  let u24 := (c.bx 4 1) * s
  let u25 := (c.bx 4 2) * u0
  let u26 := (c.bx 4 3) * u1
  let u27 := (c.bx 4 4) * u2
  let u28 := (c.bx 4 0) + u24 + u25 + u26 + u27
  let u29 := x * x * x * x
  let u30 := ((1/24)) * u29
  let u31 := (c.bx 5 1) * s
  let u32 := (c.bx 5 2) * u0
  let u33 := (c.bx 5 3) * u1
  let u34 := (c.bx 5 4) * u2
  let u35 := (c.bx 5 0) + u31 + u32 + u33 + u34
  let u36 := x * x * x * x * x
  let u37 := ((1/120)) * u36
  let u38 := (c.bx 6 1) * s
  let u39 := (c.bx 6 2) * u0
  let u40 := (c.bx 6 3) * u1
  let u41 := (c.bx 6 4) * u2
  let u42 := (c.bx 6 0) + u38 + u39 + u40 + u41
  let u43 := x * x * x * x * x * x
  let u44 := ((1/720)) * u43
  let u45 := 725760 * (c.bx 4 4)
  let u46 := 362880 * u15
  let u47 := 3 * s
  let u48 := 6 * u0
  let u49 := (c.bx 6 2) + (c.bx 6 3) * u47 + (c.bx 6 4) * u48
  let u50 := y * y * y * y * y * y * y * y
  let u52 := 51840 * (c.by_ 3 4)
  let u53 := 25920 * u15
  let u54 := 8640 * u22
  let u55 := (c.by_ 5 2) + (c.by_ 5 3) * u47 + (c.by_ 5 4) * u48
  let u56 := (c.by_ 6 2) + (c.by_ 6 3) * u47 + (c.by_ 6 4) * u48
  let u57 := 4320 * x
  let u58 := y * y * y * y * y * y * y
  let u60 := 362880 * (c.bx 2 4)
  let u61 := 181440 * u15
  let u62 := 60480 * u22
  let u63 := 15120 * u29
  let u64 := (c.bx 4 2) + (c.bx 4 3) * u47 + (c.bx 4 4) * u48
  let u65 := (c.bx 5 2) + (c.bx 5 3) * u47 + (c.bx 5 4) * u48
  let u66 := 30240 * x
  let u67 := 15120 * u15
  let u68 := y * y * y * y * y * y
  let u70 := 17280 * (c.by_ 1 4)
  let u71 := (c.by_ 5 1) * s
  let u72 := 8640 * u15
  let u73 := 2880 * u22
  let u74 := (c.by_ 5 2) * u0
  let u75 := (c.by_ 5 3) * u1
  let u76 := (c.by_ 5 4) * u2
  let u77 := 720 * u29
  let u78 := 144 * u36
  let u79 := (c.by_ 3 2) + (c.by_ 3 3) * u47 + (c.by_ 3 4) * u48
  let u80 := (c.by_ 4 2) + (c.by_ 4 3) * u47 + (c.by_ 4 4) * u48
  let u81 := 2880 * x
  let u82 := 1440 * u15
  let u83 := 480 * u22
  let u84 := (c.by_ 6 1) * s
  let u85 := (c.by_ 6 2) * u0
  let u86 := (c.by_ 6 3) * u1
  let u87 := (c.by_ 6 4) * u2
  let u88 := (c.by_ 6 0) + u84 + u85 + u86 + u87
  let u89 := 720 * x
  let u90 := y * y * y * y * y
  let u92 := (c.by_ 1 1) * s
  let u93 := (c.by_ 1 2) * u0
  let u94 := (c.by_ 1 3) * u1
  let u95 := (c.by_ 1 4) * u2
  let u96 := (c.by_ 2 1) * s
  let u97 := (c.by_ 2 2) * u0
  let u98 := (c.by_ 2 3) * u1
  let u99 := (c.by_ 2 4) * u2
  let u100 := (c.by_ 2 0) + u96 + u97 + u98 + u99
  let u101 := (c.by_ 3 1) * s
  let u102 := (c.by_ 3 2) * u0
  let u103 := (c.by_ 3 3) * u1
  let u104 := (c.by_ 3 4) * u2
  let u105 := (c.by_ 3 0) + u101 + u102 + u103 + u104
  let u106 := 360 * u15
  let u107 := (c.by_ 4 1) * s
  let u108 := (c.by_ 4 2) * u0
  let u109 := (c.by_ 4 3) * u1
  let u110 := (c.by_ 4 4) * u2
  let u111 := (c.by_ 4 0) + u107 + u108 + u109 + u110
  let u112 := 120 * u22
  let u113 := (c.by_ 5 0) + u71 + u74 + u75 + u76
  let u114 := 30 * u29
  let u117 := 120960 * (c.bx 0 4)
  let u119 := 60480 * u15
  let u120 := 20160 * u22
  let u121 := 5040 * u29
  let u122 := 1008 * u36
  let u123 := 168 * u43
  let u124 := (c.bx 2 2) + (c.bx 2 3) * u47 + (c.bx 2 4) * u48
  let u125 := (c.bx 3 2) + (c.bx 3 3) * u47 + (c.bx 3 4) * u48
  let u126 := 20160 * x
  let u127 := 10080 * u15
  let u128 := 3360 * u22
  let u129 := 840 * u29
  let u130 := 5040 * x
  let u131 := 2520 * u15
  let u132 := y * y * y * y
  let u134 := (c.by_ 1 2) + (c.by_ 1 3) * u47 + (c.by_ 1 4) * u48
  let u135 := (c.by_ 2 2) + (c.by_ 2 3) * u47 + (c.by_ 2 4) * u48
  let u136 := 1440 * x
  let u137 := 720 * u15
  let u138 := 240 * u22
  let u139 := 60 * u29
  let u140 := 12 * u36
  let u141 := y * y * y
  let u143 := (c.bx 0 2) + (c.bx 0 3) * u47 + (c.bx 0 4) * u48
  let u144 := (c.bx 1 2) + (c.bx 1 3) * u47 + (c.bx 1 4) * u48
  let u145 := 10080 * x
  let u146 := 5040 * u15
  let u147 := 1680 * u22
  let u148 := 420 * u29
  let u149 := 84 * u36
  let u150 := 14 * u43
  let u151 := 840 * u22
  let u152 := 210 * u29
  let u153 := y * y
  let u155 := 2160 * u15
  let u156 := 5040 * u22
  let u157 := x * x * x * x * x * x * x
  let u158 := 4 * s
  let u159 := 10080 * s
  let u160 := 15120 * u0
  let u161 := 20160 * u1
  let u162 := 42 * u36
  ((c.by_ 0 0) + (c.by_ 0 1) * s + (c.by_ 0 2) * u0 + (c.by_ 0 3) * u1 + (c.by_ 0 4) * u2 - (c.by_ 6 4) * u3 + x * ((c.by_ 1 0) + u92 + u93 + u94 + u95) + u100 * u16 + u105 * u23 + u111 * u30 + u113 * u37 + ((1/17280)) * u132 * (17280 * (c.by_ 0 4) + (c.by_ 2 4) * u72 + (c.by_ 3 4) * u73 + 720 * (c.by_ 4 0) + (c.by_ 4 4) * u77 + (c.by_ 5 4) * u78 + 24 * (c.by_ 6 4) * u43 + x * u70 + u106 * u88 + 720 * u107 + 720 * u108 + 720 * u109 + 720 * u110 + u113 * u89 + 2880 * u135 + 120 * u29 * u56 + u55 * u83 + u79 * u81 + u80 * u82) + ((1/30240)) * u141 * (30240 * (c.bs 3) + 30240 * (c.bs 4) * u158 + (c.bx 1 4) * u119 + (c.bx 2 4) * u120 + 5040 * (c.bx 3 0) + (c.bx 3 4) * u121 + (c.bx 4 4) * u122 + (c.bx 5 4) * u123 + 24 * (c.bx 6 4) * u157 + x * u117 + u124 * u126 + u125 * u127 + u128 * u64 + u129 * u65 + u130 * u28 + u131 * u35 + 20160 * u144 + u151 * u42 + 5040 * u17 + 5040 * u18 + 5040 * u19 + 5040 * u20 + 168 * u36 * u49) - (1/1440) * u153 * (1440 * (c.by_ 0 2) + 1440 * (c.by_ 0 3) * u47 + 1440 * (c.by_ 0 4) * u48 + 720 * (c.by_ 2 0) + u105 * u89 + u106 * u111 + u112 * u113 + u114 * u88 + u134 * u136 + u135 * u137 + u138 * u79 + u139 * u80 + u140 * u55 + 2 * u43 * u56 + 720 * u96 + 720 * u97 + 720 * u98 + 720 * u99) - (1/1828915200) * u4 * (1209600 * (c.bx 5 4) + 1209600 * (c.bx 6 4) * x) + u44 * u88 + ((1/29030400)) * u50 * (103680 * (c.by_ 4 4) + 51840 * (c.by_ 6 4) * u15 + x * u5 + 5760 * u56) + ((1/25401600)) * u58 * (725760 * (c.bx 3 4) + (c.bx 5 4) * u46 + 120960 * (c.bx 6 4) * u22 + x * u45 + 40320 * x * u49 + 40320 * u65) - (1/518400) * u68 * (51840 * (c.by_ 2 4) + (c.by_ 4 4) * u53 + (c.by_ 5 4) * u54 + 720 * (c.by_ 6 0) + 2160 * (c.by_ 6 4) * u29 + x * u52 + u155 * u56 + u55 * u57 + 4320 * u80 + 720 * u84 + 720 * u85 + 720 * u86 + 720 * u87) - (1/604800) * u90 * (362880 * (c.bx 1 4) + (c.bx 3 4) * u61 + (c.bx 4 4) * u62 + 5040 * (c.bx 5 0) + (c.bx 5 4) * u63 + 3024 * (c.bx 6 4) * u36 + x * u60 + 30240 * u125 + u130 * u42 + u156 * u49 + 5040 * u31 + 5040 * u32 + 5040 * u33 + 5040 * u34 + u64 * u66 + u65 * u67) - (1/5040) * y * (5040 * (c.bs 1) + (c.bs 2) * u159 + (c.bs 3) * u160 + (c.bs 4) * u161 + 5040 * (c.bx 1 0) + u124 * u147 + u125 * u148 + u130 * u14 + u131 * u21 + u143 * u145 + u144 * u146 + u149 * u64 + u150 * u65 + u151 * u28 + u152 * u35 + 2 * u157 * u49 + u162 * u42 + 5040 * u6 + 5040 * u7 + 5040 * u8 + 5040 * u9))

/-- `Bs` for the multipole order 7: spline_B_field_eval.h:987-1288. -/
def Bs7 (c : Coeffs) (x y s : ℝ) : ℝ :=
  let u0 := s * s
  let u1 := s * s * s
  let u2 := s * s * s * s
  let u4 := y * y * y * y * y * y * y * y * y
  let u15 := x * x
  let u16 := ((1/2)) * u15
  let u22 := x * x * x
  let u23 := ((1/6)) * u22
  let u29 := x * x * x * x
  let u30 := ((1/24)) * u29
  let u36 := x * x * x * x * x
  let u37 := ((1/120)) * u36
  let u43 := x * x * x * x * x * x
  let u44 := ((1/720)) * u43
  let u47 := 3 * s
  let u48 := 6 * u0
  let u50 := y * y * y * y * y * y * y * y
  let u51 := ((1/203212800)) * u50
  let u57 := 4320 * x
  let u58 := y * y * y * y * y * y * y
  let u59 := ((1/3628800)) * u58
  let u66 := 30240 * x
  let u67 := 15120 * u15
  let u68 := y * y * y * y * y * y
  let u69 := ((1/3628800)) * u68
  let u89 := 720 * x
  let u90 := y * y * y * y * y
  let u91 := ((1/86400)) * u90
  let u106 := 360 * u15
  let u112 := 120 * u22
  let u114 := 30 * u29
  let u115 := 6 * u36
  let u116 := ((1/720)) * y
  let u118 := 120960 * x
  let u130 := 5040 * x
  let u131 := 2520 * u15
  let u132 := y * y * y * y
  let u133 := ((1/120960)) * u132
  let u141 := y * y * y
  let u142 := ((1/4320)) * u141
  let u151 := 840 * u22
  let u152 := 210 * u29
  let u153 := y * y
  let u154 := ((1/10080)) * u153
  let u155 := 2160 * u15
  let u156 := 5040 * u22
  let u157 := x * x * x * x * x * x * x
  let u158 := 4 * s
  let u159 := 10080 * s
  let u160 := 15120 * u0
  let u161 := 20160 * u1
  let u162 := 42 * u36
  let u163 := (c.by_ 6 3) + (c.by_ 6 4) * u158
  let u164 := 2 * s
  let u165 := 3 * u0
  let u166 := 4 * u1
  let u167 := (c.bx 2 1) + (c.bx 2 2) * u164 + (c.bx 2 3) * u165 + (c.bx 2 4) * u166
  let u168 := (c.bx 3 1) + (c.bx 3 2) * u164 + (c.bx 3 3) * u165 + (c.bx 3 4) * u166
  let u169 := (c.bx 4 1) + (c.bx 4 2) * u164 + (c.bx 4 3) * u165 + (c.bx 4 4) * u166
  let u170 := (c.bx 5 1) + (c.bx 5 2) * u164 + (c.bx 5 3) * u165 + (c.bx 5 4) * u166
  let u171 := (c.bx 6 1) + (c.bx 6 2) * u164 + (c.bx 6 3) * u165 + (c.bx 6 4) * u166
  let u172 := (c.bx 5 3) + (c.bx 5 4) * u158
  let u173 := (c.bx 6 3) + (c.bx 6 4) * u158
  let u174 := 1440 * s
  let u175 := 2160 * u0
  let u176 := 2880 * u1
  let u177 := (c.by_ 4 3) + (c.by_ 4 4) * u158
  let u178 := (c.by_ 5 3) + (c.by_ 5 4) * u158
  let u179 := (c.bx 3 3) + (c.bx 3 4) * u158
  let u180 := (c.bx 4 3) + (c.bx 4 4) * u158
  let u181 := (c.by_ 2 3) + (c.by_ 2 4) * u158
  let u182 := (c.by_ 3 3) + (c.by_ 3 4) * u158
  let u183 := (c.by_ 5 1) + (c.by_ 5 2) * u164 + (c.by_ 5 3) * u165 + (c.by_ 5 4) * u166
  let u184 := (c.by_ 6 1) + (c.by_ 6 2) * u164 + (c.by_ 6 3) * u165 + (c.by_ 6 4) * u166
  let u185 := (c.bx 1 3) + (c.bx 1 4) * u158
  let u186 := (c.bx 2 3) + (c.bx 2 4) * u158
  let u187 := (c.by_ 3 1) + (c.by_ 3 2) * u164 + (c.by_ 3 3) * u165 + (c.by_ 3 4) * u166
  let u188 := (c.by_ 4 1) + (c.by_ 4 2) * u164 + (c.by_ 4 3) * u165 + (c.by_ 4 4) * u166
  ((c.bs 0) + (c.bs 1) * s + (c.bs 2) * u0 + (c.bs 3) * u1 + (c.bs 4) * u2 + x * ((c.bx 0 1) + (c.bx 0 2) * u164 + (c.bx 0 3) * u165 + (c.bx 0 4) * u166) + u116 * (720 * (c.by_ 0 1) + (c.by_ 0 2) * u174 + (c.by_ 0 3) * u175 + (c.by_ 0 4) * u176 + u106 * ((c.by_ 2 1) + (c.by_ 2 2) * u164 + (c.by_ 2 3) * u165 + (c.by_ 2 4) * u166) + u112 * u187 + u114 * u188 + u115 * u183 + u184 * u43 + u89 * ((c.by_ 1 1) + (c.by_ 1 2) * u164 + (c.by_ 1 3) * u165 + (c.by_ 1 4) * u166)) + u133 * (120960 * (c.bs 4) + 5040 * (c.bx 3 1) + (c.bx 3 2) * u159 + (c.bx 3 3) * u160 + (c.bx 3 4) * u161 + 60480 * x * u186 + u130 * u169 + u131 * u170 + 30240 * u15 * u179 + u151 * u171 + 2520 * u172 * u29 + 504 * u173 * u36 + 10080 * u180 * u22 + 60480 * u185) - u142 * (4320 * (c.by_ 0 3) + 4320 * (c.by_ 0 4) * u158 + 720 * (c.by_ 2 1) + (c.by_ 2 2) * u174 + (c.by_ 2 3) * u175 + (c.by_ 2 4) * u176 + u106 * u188 + u112 * u183 + u114 * u184 + u155 * u181 + 6 * u163 * u43 + 180 * u177 * u29 + 36 * u178 * u36 + 720 * u182 * u22 + u187 * u89 + u57 * ((c.by_ 1 3) + (c.by_ 1 4) * u158)) - u154 * (10080 * (c.bs 2) + 10080 * (c.bs 3) * u47 + 10080 * (c.bs 4) * u48 + 5040 * (c.bx 1 1) + (c.bx 1 2) * u159 + (c.bx 1 3) * u160 + (c.bx 1 4) * u161 + u130 * u167 + u131 * u168 + u151 * u169 + u152 * u170 + u156 * u186 + 6 * u157 * u173 + u162 * u171 + 42 * u172 * u43 + 1260 * u179 * u29 + 252 * u180 * u36 + u185 * u67 + u66 * ((c.bx 0 3) + (c.bx 0 4) * u158)) + ((1/5040)) * u157 * u171 + u16 * ((c.bx 1 1) + (c.bx 1 2) * u164 + (c.bx 1 3) * u165 + (c.bx 1 4) * u166) + ((1/15120)) * u163 * u4 + u167 * u23 + u168 * u30 + u169 * u37 + u170 * u44 + u51 * (u118 * u173 + 120960 * u172) - u59 * (720 * (c.by_ 6 1) + (c.by_ 6 2) * u174 + (c.by_ 6 3) * u175 + (c.by_ 6 4) * u176 + 12960 * x * u178 + 6480 * u15 * u163 + 12960 * u177) - u69 * (5040 * (c.bx 5 1) + (c.bx 5 2) * u159 + (c.bx 5 3) * u160 + (c.bx 5 4) * u161 + 90720 * x * u180 + u130 * u171 + 45360 * u15 * u172 + 15120 * u173 * u22 + 90720 * u179) + u91 * (720 * (c.by_ 4 1) + (c.by_ 4 2) * u174 + (c.by_ 4 3) * u175 + (c.by_ 4 4) * u176 + 8640 * x * u182 + u106 * u184 + 4320 * u15 * u177 + 360 * u163 * u29 + 1440 * u178 * u22 + 8640 * u181 + u183 * u89))

/-- `Bx` as chosen by the `switch`: spline_B_field_eval.h:115.  Other orders are refused before. -/
def Bx : ℕ → Coeffs → ℝ → ℝ → ℝ → ℝ
  | 1 => Bx1
  | 2 => Bx2
  | 3 => Bx3
  | 4 => Bx4
  | 5 => Bx5
  | 6 => Bx6
  | 7 => Bx7
  | _ => fun _ _ _ _ => 0

/-- `By` as chosen by the `switch`: spline_B_field_eval.h:115.  Other orders are refused before. -/
def By : ℕ → Coeffs → ℝ → ℝ → ℝ → ℝ
  | 1 => By1
  | 2 => By2
  | 3 => By3
  | 4 => By4
  | 5 => By5
  | 6 => By6
  | 7 => By7
  | _ => fun _ _ _ _ => 0

/-- `Bs` as chosen by the `switch`: spline_B_field_eval.h:115.  Other orders are refused before. -/
def Bs : ℕ → Coeffs → ℝ → ℝ → ℝ → ℝ
  | 1 => Bs1
  | 2 => Bs2
  | 3 => Bs3
  | 4 => Bs4
  | 5 => Bs5
  | 6 => Bs6
  | 7 => Bs7
  | _ => fun _ _ _ _ => 0

end

end Verif.Boris
