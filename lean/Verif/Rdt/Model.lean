import Verif.Rdt.FeedDown
import Mathlib.Analysis.SpecialFunctions.Pow.Real
import Mathlib.Analysis.SpecialFunctions.Complex.Log

/-!
# Model of the resonance driving terms

File modelled: `/repo/xtrack/rdt.py`: `rdt_first_order_perturbation`, `rdt_metadata` (frequencies and
whether the line is there), `tracking_from_rdt`, `_omega`.  Real and complex numbers are exact.  A key `fpqrt`
is given by its four numbers (the parsing of the string is not modelled).  Tables are functions of the
number of the row, with a length.
-/

namespace Verif.Rdt

open Finset Complex

noncomputable section

/-- Row of the twiss table and of the strengths after the feed-down (lines 65-90). -/
structure Row where
  betx : ℝ
  bety : ℝ
  mux : ℝ
  muy : ℝ
  knl : ℕ → ℝ
  ksl : ℕ → ℝ

/-- The feed-down of lines 66-88; six orders. -/
def compile (fd : Bool) (betx bety mux muy : ℝ) (knl ksl : ℕ → ℝ) (shiftX shiftY rot x y : ℝ) : Row :=
  if fd then
    ⟨betx, bety, mux, muy, effN ⟨6, knl, ksl, shiftX, shiftY, rot, x, y⟩, effS ⟨6, knl, ksl, shiftX, shiftY, rot, x, y⟩⟩
  else ⟨betx, bety, mux, muy, knl, ksl⟩

structure Key where
  p : ℕ
  q : ℕ
  r : ℕ
  t : ℕ
deriving DecidableEq

/-- Line 112. -/
def Key.n (k : Key) : ℕ := k.p + k.q + k.r + k.t

/-- `_omega`, lines 303-304. -/
def omega (idx : ℕ) : ℂ := if idx % 2 = 0 then 1 else 0

/-- `h_pqrt_l`, lines 109-123. -/
def hl (w : Row) (k : Key) : ℂ :=
  -(((w.knl (k.n - 1) : ℂ) * omega (k.r + k.t) + I * (w.ksl (k.n - 1) : ℂ) * omega (k.r + k.t + 1))
    / ((k.p.factorial : ℂ) * k.q.factorial * k.r.factorial * k.t.factorial) / 2 ^ k.n * I ^ (k.r + k.t)
    * ((w.betx ^ (((k.p : ℝ) + k.q) / 2) : ℝ) : ℂ) * ((w.bety ^ (((k.r : ℝ) + k.t) / 2) : ℝ) : ℂ))

/-- `integrand`, line 125. -/
def integrand (w : Row) (k : Key) : ℂ :=
  hl w k * exp (I * 2 * Real.pi * (((k.p : ℂ) - k.q) * (-w.mux) + ((k.r : ℂ) - k.t) * (-w.muy)))

/-- `integrand_turn_m1`, lines 126-127. -/
def integrandM1 (qx qy : ℝ) (w : Row) (k : Key) : ℂ :=
  hl w k * exp (I * 2 * Real.pi * (((k.p : ℂ) - k.q) * (-w.mux + qx) + ((k.r : ℂ) - k.t) * (-w.muy + qy)))

/-- `integrand_two_turns`, line 128. -/
def twoTurns (L : ℕ) (rows : ℕ → Row) (qx qy : ℝ) (k : Key) (j : ℕ) : ℂ :=
  if j < L then integrandM1 qx qy (rows j) k else integrand (rows (j - L)) k

/-- `cumsum_integrand_two_turns`, line 129. -/
def cumsum (L : ℕ) (rows : ℕ → Row) (qx qy : ℝ) (k : Key) (j : ℕ) : ℂ :=
  ∑ l ∈ range (j + 1), twoTurns L rows qx qy k l

/-- `exp_obs`, line 131. -/
def expObs (w : Row) (k : Key) : ℂ :=
  exp (I * 2 * Real.pi * (((k.p : ℂ) - k.q) * w.mux + ((k.r : ℂ) - k.t) * w.muy))

/-- `f_pqrt_open`, lines 134-137. -/
def fOpen (L : ℕ) (rows : ℕ → Row) (qx qy : ℝ) (k : Key) (i : ℕ) : ℂ :=
  (cumsum L rows qx qy k (i + L) - cumsum L rows qx qy k i) * expObs (rows i) k

/-- `denominator`, line 139. -/
def denominator (qx qy : ℝ) (k : Key) : ℂ :=
  1 - exp (I * 2 * Real.pi * (((k.p : ℂ) - k.q) * qx + ((k.r : ℂ) - k.t) * qy))

/-- `f_pqrt`, line 140. -/
def f (L : ℕ) (rows : ℕ → Row) (qx qy : ℝ) (k : Key) (i : ℕ) : ℂ :=
  fOpen L rows qx qy k i / denominator qx qy k

/-! ## `tracking_from_rdt` -/

/-- `phase_x`, `phase_y`, lines 271-272. -/
def phase (q psi : ℝ) (N : ℕ) : ℝ := 2 * Real.pi * q * N + psi

/-- One term of `sum_hx`, lines 284-289. -/
def termX (v : ℂ) (k : Key) (Ix Iy phx phy : ℝ) : ℂ :=
  if k.p ≠ 0 then
    k.p * v * (((2 * Ix) ^ (((k.p : ℝ) + k.q - 1) / 2) * (2 * Iy) ^ (((k.r : ℝ) + k.t) / 2) : ℝ) : ℂ)
      * exp (I * ((1 - (k.p : ℂ) + k.q) * phx + ((k.t : ℂ) - k.r) * phy))
  else 0

/-- One term of `sum_hy`, lines 291-296. -/
def termY (v : ℂ) (k : Key) (Ix Iy phx phy : ℝ) : ℂ :=
  if k.r ≠ 0 then
    k.r * v * (((2 * Ix) ^ (((k.p : ℝ) + k.q) / 2) * (2 * Iy) ^ (((k.r : ℝ) + k.t - 1) / 2) : ℝ) : ℂ)
      * exp (I * (((k.q : ℂ) - k.p) * phx + (1 - (k.r : ℂ) + k.t) * phy))
  else 0

/-- `hx_minus`, lines 274-299; the keys of the dictionary are a finite set. -/
def hxMinus (rdts : Finset Key) (v : Key → ℂ) (Ix Iy qx qy psix psiy : ℝ) (N : ℕ) : ℂ :=
  (Real.sqrt (2 * Ix) : ℂ) * exp (I * phase qx psix N)
    - 2 * I * ∑ k ∈ rdts, termX (v k) k Ix Iy (phase qx psix N) (phase qy psiy N)

/-- `hy_minus`. -/
def hyMinus (rdts : Finset Key) (v : Key → ℂ) (Ix Iy qx qy psix psiy : ℝ) (N : ℕ) : ℂ :=
  (Real.sqrt (2 * Iy) : ℂ) * exp (I * phase qy psiy N)
    - 2 * I * ∑ k ∈ rdts, termY (v k) k Ix Iy (phase qx psix N) (phase qy psiy N)

/-! ## `rdt_metadata` -/

theorem exists_up (x : ℝ) : ∃ n : ℕ, ¬ x + n < 0 := by
  obtain ⟨n, hn⟩ := exists_nat_ge (-x)
  exact ⟨n, by push Not; linarith⟩

theorem exists_down (x : ℝ) : ∃ n : ℕ, ¬ 1 ≤ x - n := by
  obtain ⟨n, hn⟩ := exists_nat_ge x
  exact ⟨n, by push Not; linarith⟩

open Classical in
/-- The `while` loops, lines 193-200: one is added until the number is not negative, then subtracted while it
is at least one. -/
def wrap (x : ℝ) : ℝ :=
  let y := x + (Nat.find (exists_up x) : ℕ)
  y - (Nat.find (exists_down y) : ℕ)

/-- `freq_x`, lines 190, 193-198. -/
def freqX (k : Key) (qx qy : ℝ) : ℝ := wrap ((1 - (k.p : ℝ) + k.q) * qx + ((k.t : ℝ) - k.r) * qy)

/-- `freq_y`, lines 192, 195-200. -/
def freqY (k : Key) (qx qy : ℝ) : ℝ := wrap (((k.q : ℝ) - k.p) * qx + (1 - (k.r : ℝ) + k.t) * qy)

end

end Verif.Rdt
