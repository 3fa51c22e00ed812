import Verif.Footprint.Lemmas
import Mathlib.Analysis.SpecialFunctions.Pow.Real

/-! # C134 and C136: the tunes of a footprint -/

namespace Verif.Footprint

open Finset

/-- C134 (every particle). With a positive chunk size, the footprint ends, has the shape of the grid, and the entry in a row and a
column is the tune found in the motion of the particle which started with the amplitudes of that row and column. -/
theorem C134_every (motion : ℝ → ℝ → ℕ → ℝ) (grid : Table × Table) (turns n size : ℕ) (hs : 0 < size)
    (shape : grid.2.cols = grid.1.cols) : ∃ rounds t, footprint motion grid turns n size rounds = some t
      ∧ t.rows = grid.1.rows ∧ t.cols = grid.1.cols
      ∧ ∀ i < grid.1.rows, ∀ j < grid.1.cols, t.at' i j = tune (motion (grid.1.at' i j) (grid.2.at' i j)) turns n := by
  obtain ⟨r, hr, hq⟩ := chunks_done (fun p => tune (motion (grid.1.flat p) (grid.2.flat p)) turns n)
    (grid.1.rows * grid.1.cols) size hs (grid.1.rows * grid.1.cols) 0 (fun _ => 0) (by omega) (by intro p hp; omega)
  refine ⟨grid.1.rows * grid.1.cols, reshape r grid.1.rows grid.1.cols, ?_, rfl, rfl, ?_⟩
  · rw [footprint, hr]
  · intro i hi j hj
    have hp : i * grid.1.cols + j < grid.1.rows * grid.1.cols := by
      have : (i + 1) * grid.1.cols ≤ grid.1.rows * grid.1.cols := Nat.mul_le_mul_right _ hi
      have : (i + 1) * grid.1.cols = i * grid.1.cols + grid.1.cols := by ring
      omega
    have e1 : (i * grid.1.cols + j) / grid.1.cols = i := by
      rw [mul_comm, Nat.mul_add_div (by omega), Nat.div_eq_of_lt hj, add_zero]
    have e2 : (i * grid.1.cols + j) % grid.1.cols = j := by
      rw [mul_comm, Nat.mul_add_mod, Nat.mod_eq_of_lt hj]
    show r (i * grid.1.cols + j) = _
    rw [hq _ hp]
    simp only [Table.flat, shape, e1, e2]

/-- The hypotheses of `C134_every` hold for the default chunk size and a grid in polar coordinates. -/
example : 0 < 200 ∧ (polarGrid 0.1 6 10 0.05 1.5 7).2.cols = (polarGrid 0.1 6 10 0.05 1.5 7).1.cols
    ∧ (polarGrid 0.1 6 10 0.05 1.5 7).1.rows = 7 ∧ (polarGrid 0.1 6 10 0.05 1.5 7).1.cols = 10 := by
  refine ⟨by norm_num, rfl, rfl, rfl⟩

/-- C134 is violated for the chunk size zero: with at least one particle, the loop never ends. -/
theorem C134_chunk_violated (motion : ℝ → ℝ → ℕ → ℝ) (grid : Table × Table) (turns n : ℕ) (some' : 0 < grid.1.rows * grid.1.cols) :
    ∀ rounds, footprint motion grid turns n 0 rounds = none := by
  intro rounds
  rw [footprint, chunks_stuck _ _ _ _ _ some']

example : 0 < (polarGrid 0.1 6 10 0.05 1.5 7).1.rows * (polarGrid 0.1 6 10 0.05 1.5 7).1.cols := by
  show 0 < 7 * 10
  norm_num

/-- C134 (polar grid). In mode `polar` the entry in row `i` and column `j` has the amplitudes `r cos(theta)`, `r sin(theta)`, where
`r` runs over the columns and `theta` over the rows in equal steps, from the first to the last value of the ranges. -/
theorem C134_polar (r0 r1 : ℝ) (nr : ℕ) (t0 t1 : ℝ) (nt : ℕ) (h1 : 2 ≤ nr) (h2 : 2 ≤ nt) :
    ∃ r θ : ℕ → ℝ, r 0 = r0 ∧ r (nr - 1) = r1 ∧ θ 0 = t0 ∧ θ (nt - 1) = t1
      ∧ (∀ j, r (j + 2) - r (j + 1) = r (j + 1) - r j) ∧ (∀ i, θ (i + 2) - θ (i + 1) = θ (i + 1) - θ i)
      ∧ ∀ i j, (polarGrid r0 r1 nr t0 t1 nt).1.at' i j = r j * Real.cos (θ i)
        ∧ (polarGrid r0 r1 nr t0 t1 nt).2.at' i j = r j * Real.sin (θ i) := by
  have last : ∀ (a b : ℝ) (n : ℕ), 2 ≤ n → linspace a b n (n - 1) = b := by
    intro a b n hn
    have : ((n - 1 : ℕ) : ℝ) = n - 1 := by rw [Nat.cast_sub (by omega)]; simp
    have h0 : (n : ℝ) - 1 ≠ 0 := by
      have : (2 : ℝ) ≤ n := by exact_mod_cast hn
      linarith
    rw [linspace, this]
    field_simp
    ring
  refine ⟨linspace r0 r1 nr, linspace t0 t1 nt, ?_, last _ _ _ h1, ?_, last _ _ _ h2, ?_, ?_, fun i j => ⟨rfl, rfl⟩⟩
  · simp [linspace]
  · simp [linspace]
  · intro j; simp only [linspace]; push_cast; ring
  · intro i; simp only [linspace]; push_cast; ring

example : 2 ≤ 10 ∧ 2 ≤ 7 := by norm_num

/-- C134 (grid of actions). In mode `uniform_action_grid`, with positive emittances and amplitudes which are not negative, the action
`nemitt a^2 / 2` of the amplitudes runs in equal steps from the one of the first to the one of the last amplitude. -/
theorem C134_actions (ex ey x0 x1 : ℝ) (nx : ℕ) (y0 y1 : ℝ) (ny : ℕ) (h1 : 2 ≤ nx) (h2 : 2 ≤ ny) (hex : 0 < ex) (hey : 0 < ey)
    (i j : ℕ) (hi : i < ny) (hj : j < nx) :
    ex * (actionAmplitudes ex ey x0 x1 nx y0 y1 ny).1.at' i j ^ 2 / 2
      = ex * x0 ^ 2 / 2 + j / (nx - 1) * (ex * x1 ^ 2 / 2 - ex * x0 ^ 2 / 2)
    ∧ ey * (actionAmplitudes ex ey x0 x1 nx y0 y1 ny).2.at' i j ^ 2 / 2
      = ey * y0 ^ 2 / 2 + i / (ny - 1) * (ey * y1 ^ 2 / 2 - ey * y0 ^ 2 / 2)
    ∧ 0 ≤ (actionAmplitudes ex ey x0 x1 nx y0 y1 ny).1.at' i j ∧ 0 ≤ (actionAmplitudes ex ey x0 x1 nx y0 y1 ny).2.at' i j := by
  have key : ∀ (e a b : ℝ) (n k : ℕ), 0 < e → 2 ≤ n → k < n → 0 ≤ actionGrid e a b n k ∧
      actionGrid e a b n k = e * a ^ 2 / 2 + k / (n - 1) * (e * b ^ 2 / 2 - e * a ^ 2 / 2) := by
    intro e a b n k he hn hk
    have hn' : (2 : ℝ) ≤ n := by exact_mod_cast hn
    have hk' : (k : ℝ) ≤ n - 1 := by
      have : (k + 1 : ℝ) ≤ n := by exact_mod_cast hk
      linarith
    have heq : actionGrid e a b n k = e * a ^ 2 / 2 + k / (n - 1) * (e * b ^ 2 / 2 - e * a ^ 2 / 2) := by
      rw [actionGrid, linspace]
      ring
    refine ⟨?_, heq⟩
    rw [heq]
    have h0 : 0 ≤ (k : ℝ) / (n - 1) := div_nonneg (by positivity) (by linarith)
    have h3 : (k : ℝ) / (n - 1) ≤ 1 := (div_le_one (by linarith)).2 hk'
    have ha : 0 ≤ e * a ^ 2 / 2 := by positivity
    have hb : 0 ≤ e * b ^ 2 / 2 := by positivity
    nlinarith
  obtain ⟨p1, q1⟩ := key ex x0 x1 nx j hex h1 hj
  obtain ⟨p2, q2⟩ := key ey y0 y1 ny i hey h2 hi
  refine ⟨?_, ?_, Real.sqrt_nonneg _, Real.sqrt_nonneg _⟩
  · show ex * Real.sqrt (2 * actionGrid ex x0 x1 nx j / ex) ^ 2 / 2 = _
    rw [Real.sq_sqrt (by positivity), ← q1]
    field_simp
  · show ey * Real.sqrt (2 * actionGrid ey y0 y1 ny i / ey) ^ 2 / 2 = _
    rw [Real.sq_sqrt (by positivity), ← q2]
    field_simp

example : 2 ≤ 10 ∧ (0 : ℝ) < 2.5e-6 ∧ 3 < 10 := by norm_num

/-- C134 (strongest line). The tune is a frequency `k / n` between 0 and 1/2 at which the spectrum of the motion about its mean is
largest, and the smallest such frequency. -/
theorem C134_strongest (x : ℕ → ℝ) (turns n : ℕ) (hn : 0 < n) : ∃ k, 2 * k ≤ n ∧ tune x turns n = k / n
    ∧ (∀ l, 2 * l ≤ n → ‖rfft (noCO x turns) turns n l‖ ≤ ‖rfft (noCO x turns) turns n k‖)
    ∧ ∀ l < k, ‖rfft (noCO x turns) turns n l‖ < ‖rfft (noCO x turns) turns n k‖ := by
  have h := argmax_spec (fun k => ‖rfft (noCO x turns) turns n k‖) (n / 2)
  have hle := argmax_le (fun k => ‖rfft (noCO x turns) turns n k‖) (n / 2)
  exact ⟨_, by omega, rfl, fun l hl => h.1 l (by omega), h.2⟩

example : 0 < 2 ^ 18 := by norm_num

/-- C134 (closed orbit). The tune does not depend on the closed orbit: a constant added to the motion changes nothing. -/
theorem C134_orbit (x : ℕ → ℝ) (c : ℝ) (turns n : ℕ) (ht : 0 < turns) : tune (fun j => x j + c) turns n = tune x turns n := by
  have : noCO (fun j => x j + c) turns = noCO x turns := by
    funext j
    have h0 : (turns : ℝ) ≠ 0 := by exact_mod_cast ht.ne'
    simp only [noCO, sum_add_distrib, sum_const, card_range, nsmul_eq_mul]
    field_simp
    ring
  rw [tune, tune, this]

example : 0 < 256 := by norm_num

theorem tune_wave (c amp ph : ℝ) (m n : ℕ) (ha : amp ≠ 0) (hm : 0 < m) (h2 : 2 * m < n) :
    tune (fun j => wave amp ph m n j + c) n n = m / n := by
  have hn : 0 < n := by omega
  rw [C134_orbit _ _ _ _ hn]
  have e : noCO (wave amp ph m n) n = wave amp ph m n := by
    funext j
    simp [noCO, wave_sum amp ph m n hm (by omega)]
  have hn' : (0 : ℝ) < n := by exact_mod_cast hn
  rw [tune, e, argmax_only _ _ m (by omega)]
  · rw [wave_norm _ _ _ _ _ hm h2 (by omega), if_pos rfl]
    have := abs_pos.2 ha
    positivity
  · intro l hl hne
    rw [wave_norm _ _ _ _ _ hm h2 hl, if_neg hne]

/-- C134 (exact tune). For a motion with the single tune `q` about any closed orbit, recorded for as many turns as the Fourier
transform has, where the fractional part of `q` is a multiple of the resolution `1/n` below one half: the footprint reports the
fractional part of `q`.
Missing: tunes between the frequencies of the transform, the padding with zeros, and fractional parts above one half, below. -/
theorem C134_exact_partial (x : ℕ → ℝ) (c amp ph q : ℝ) (n m : ℕ) (ha : amp ≠ 0)
    (hx : ∀ j : ℕ, x j = c + amp * Real.cos (2 * Real.pi * q * j + ph)) (hq : Int.fract q = m / n) (hm : 0 < m) (h2 : 2 * m < n) :
    tune x n n = Int.fract q := by
  have : x = fun j => wave amp ph m n j + c := by
    funext j
    rw [hx, wave, add_comm]
    congr 2
    have e : q = ⌊q⌋ + m / n := by rw [← hq]; exact (Int.floor_add_fract q).symm
    have : 2 * Real.pi * q * j + ph = 2 * Real.pi * (m * j / n) + ph + ((⌊q⌋ * j : ℤ) : ℝ) * (2 * Real.pi) := by
      conv_lhs => rw [e]
      push_cast
      ring
    rw [this, Real.cos_add_int_mul_two_pi]
  rw [this, tune_wave c amp ph m n ha hm h2, hq]

/-- The tune 62.25, with 256 turns. -/
example : Int.fract (62.25 : ℝ) = (64 : ℕ) / (256 : ℕ) ∧ 0 < 64 ∧ 2 * 64 < 256 := by
  refine ⟨?_, by norm_num, by norm_num⟩
  rw [Int.fract, show ⌊(62.25 : ℝ)⌋ = 62 by rw [Int.floor_eq_iff]; norm_num]
  norm_num

/-- C134 is violated for tunes with a fractional part above one half: the footprint reports `1 - q`, for every closed orbit,
amplitude and phase. -/
theorem C134_half_violated (x : ℕ → ℝ) (c amp ph q : ℝ) (n m : ℕ) (ha : amp ≠ 0)
    (hx : ∀ j : ℕ, x j = c + amp * Real.cos (2 * Real.pi * q * j + ph)) (hq : Int.fract q = m / n) (hm : m < n) (h2 : n < 2 * m) :
    tune x n n = 1 - Int.fract q ∧ tune x n n ≠ Int.fract q := by
  have hn : (0 : ℝ) < n := by exact_mod_cast (by omega : 0 < n)
  have hf : Int.fract (-q) = (n - m : ℕ) / n := by
    rw [Int.fract_neg, hq, Nat.cast_sub hm.le]
    · field_simp
    · rw [hq]
      have : (0 : ℝ) < m := by exact_mod_cast (by omega : 0 < m)
      positivity
  have h := C134_exact_partial x c amp (-ph) (-q) n (n - m) ha (by
    intro j
    rw [hx, ← Real.cos_neg (2 * Real.pi * q * j + ph)]
    congr 3
    ring) hf (by omega) (by omega)
  have e : tune x n n = 1 - Int.fract q := by
    rw [h, hf, hq, Nat.cast_sub hm.le]
    field_simp
  refine ⟨e, ?_⟩
  rw [e, hq]
  intro h'
  have h3 : (2 : ℝ) * m = n := by
    field_simp at h'
    linarith
  have : 2 * m = n := by exact_mod_cast h3
  omega

/-- The tune 20.75, with 256 turns. -/
example : Int.fract (20.75 : ℝ) = (192 : ℕ) / (256 : ℕ) ∧ 192 < 256 ∧ 256 < 2 * 192 := by
  refine ⟨?_, by norm_num, by norm_num⟩
  rw [Int.fract, show ⌊(20.75 : ℝ)⌋ = 20 by rw [Int.floor_eq_iff]; norm_num]
  norm_num

/-- C136 (linear rescaling). If the tune is linear in the knob, the rescaled footprint has the tune at the value of the knob. -/
theorem C136_linear (q : ℝ → ℝ) (a b : ℝ) (hq : ∀ v, q v = a + b * v) (v0 dv v : ℝ) (hdv : dv ≠ 0) :
    rescale (q v0) (q (v0 + dv)) v0 dv v = q v := by
  simp only [rescale, hq]
  field_simp
  ring

example : ∃ q : ℝ → ℝ, (∀ v, q v = 0.31 + -0.01 * v) ∧ (0.05 : ℝ) ≠ 0 := ⟨_, fun _ => rfl, by norm_num⟩

/-- C136 (errors). If the two footprints have errors of at most `h`, the rescaled tune has an error of at most `h (|1 - t| + |t|)`,
where `t` is the distance of the value of the knob from `v0` in units of `dv`; for a value between `v0` and `v0 + dv` at most `h`. -/
theorem C136_error (q : ℝ → ℝ) (a b : ℝ) (hq : ∀ v, q v = a + b * v) (v0 dv v h q0 q1 : ℝ) (hdv : dv ≠ 0)
    (h0 : |q0 - q v0| ≤ h) (h1 : |q1 - q (v0 + dv)| ≤ h) :
    |rescale q0 q1 v0 dv v - q v| ≤ h * (|1 - (v - v0) / dv| + |(v - v0) / dv|)
    ∧ (0 ≤ (v - v0) / dv → (v - v0) / dv ≤ 1 → |rescale q0 q1 v0 dv v - q v| ≤ h) := by
  have key : rescale q0 q1 v0 dv v - q v = (1 - (v - v0) / dv) * (q0 - q v0) + (v - v0) / dv * (q1 - q (v0 + dv)) := by
    simp only [rescale, hq]
    field_simp
    ring
  have bound : |rescale q0 q1 v0 dv v - q v| ≤ h * (|1 - (v - v0) / dv| + |(v - v0) / dv|) := by
    rw [key]
    refine (abs_add_le _ _).trans ?_
    rw [abs_mul, abs_mul]
    have := mul_le_mul_of_nonneg_left h0 (abs_nonneg (1 - (v - v0) / dv))
    have := mul_le_mul_of_nonneg_left h1 (abs_nonneg ((v - v0) / dv))
    linarith
  refine ⟨bound, fun ht0 ht1 => ?_⟩
  rw [abs_of_nonneg ht0, abs_of_nonneg (sub_nonneg.2 ht1)] at bound
  linarith

example : (0.05 : ℝ) ≠ 0 ∧ |(0.3101 : ℝ) - 0.31| ≤ 0.001 ∧ |(0.3094 : ℝ) - 0.3095| ≤ 0.001 := by
  refine ⟨by norm_num, ?_, ?_⟩ <;> rw [abs_le] <;> norm_num

end Verif.Footprint
