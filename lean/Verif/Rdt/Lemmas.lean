import Verif.Rdt.Spec

/-! Lemmas for the resonance driving terms. -/

namespace Verif.Rdt

open Finset Complex Verif.Magnets

noncomputable section

/-- The complex amplitude. -/
def amp (J ph : ℝ) : ℂ := (Real.sqrt (2 * J) : ℂ) * exp (I * ph)
def ampBar (J ph : ℝ) : ℂ := (Real.sqrt (2 * J) : ℂ) * exp (-(I * ph))

theorem amp_add (J ph : ℝ) : ampBar J ph + amp J ph = 2 * ((Real.sqrt (2 * J) * Real.cos ph : ℝ) : ℂ) := by
  unfold amp ampBar
  have h : exp (-(I * ph)) + exp (I * ph) = 2 * (Real.cos ph : ℂ) := by
    rw [Complex.ofReal_cos, Complex.two_cos, mul_comm I]; ring_nf
  rw [← mul_add, h]; push_cast; ring

theorem rpow_half {x : ℝ} (hx : 0 ≤ x) (n : ℕ) : x ^ ((n : ℝ) / 2) = Real.sqrt x ^ n := by
  rw [Real.sqrt_eq_rpow, ← Real.rpow_natCast, ← Real.rpow_mul hx]
  congr 1; ring

theorem termX_succ (v : ℂ) (p q r t : ℕ) {Ix Iy : ℝ} (hx : 0 ≤ Ix) (hy : 0 ≤ Iy) (phx phy : ℝ) :
    termX v ⟨p + 1, q, r, t⟩ Ix Iy phx phy =
      ((p + 1 : ℕ) : ℂ) * v * (amp Ix phx ^ q * ampBar Ix phx ^ p) * (amp Iy phy ^ t * ampBar Iy phy ^ r) := by
  unfold termX
  rw [if_pos (by simp)]
  have e1 : (2 * Ix) ^ ((((p + 1 : ℕ) : ℝ) + q - 1) / 2) = Real.sqrt (2 * Ix) ^ (p + q) := by
    rw [← rpow_half (by linarith)]; congr 1; push_cast; ring
  have e2 : (2 * Iy) ^ (((r : ℝ) + t) / 2) = Real.sqrt (2 * Iy) ^ (r + t) := by
    rw [← rpow_half (by linarith)]; congr 1; push_cast; ring
  simp only [e1, e2]
  unfold amp ampBar
  simp only [mul_pow, ← Complex.exp_nat_mul]
  have e3 : exp (I * ((1 - ((p + 1 : ℕ) : ℂ) + q) * phx + ((t : ℂ) - r) * phy))
      = exp (q * (I * phx)) * exp (p * -(I * phx)) * (exp (t * (I * phy)) * exp (r * -(I * phy))) := by
    rw [← Complex.exp_add, ← Complex.exp_add, ← Complex.exp_add]; congr 1; push_cast; ring
  rw [e3]
  push_cast
  ring

theorem termY_succ (v : ℂ) (p q r t : ℕ) {Ix Iy : ℝ} (hx : 0 ≤ Ix) (hy : 0 ≤ Iy) (phx phy : ℝ) :
    termY v ⟨p, q, r + 1, t⟩ Ix Iy phx phy =
      ((r + 1 : ℕ) : ℂ) * v * (amp Ix phx ^ q * ampBar Ix phx ^ p) * (amp Iy phy ^ t * ampBar Iy phy ^ r) := by
  unfold termY
  rw [if_pos (by simp)]
  have e1 : (2 * Ix) ^ (((p : ℝ) + q) / 2) = Real.sqrt (2 * Ix) ^ (p + q) := by
    rw [← rpow_half (by linarith)]; congr 1; push_cast; ring
  have e2 : (2 * Iy) ^ ((((r + 1 : ℕ) : ℝ) + t - 1) / 2) = Real.sqrt (2 * Iy) ^ (r + t) := by
    rw [← rpow_half (by linarith)]; congr 1; push_cast; ring
  simp only [e1, e2]
  unfold amp ampBar
  simp only [mul_pow, ← Complex.exp_nat_mul]
  have e3 : exp (I * (((q : ℂ) - p) * phx + (1 - ((r + 1 : ℕ) : ℂ) + t) * phy))
      = exp (q * (I * phx)) * exp (p * -(I * phx)) * (exp (t * (I * phy)) * exp (r * -(I * phy))) := by
    rw [← Complex.exp_add, ← Complex.exp_add, ← Complex.exp_add]; congr 1; push_cast; ring
  rw [e3]
  push_cast
  ring

theorem sum_keysOf (n : ℕ) (g : Key → ℂ) :
    ∑ k ∈ keysOf n, g k = ∑ a ∈ antidiagonal n, ∑ b ∈ antidiagonal a.1, ∑ c ∈ antidiagonal a.2, g ⟨b.1, b.2, c.1, c.2⟩ := by
  simp only [Finset.sum_sigma']
  refine Finset.sum_bij' (fun k _ => ⟨(k.p + k.q, k.r + k.t), ⟨(k.p, k.q), (k.r, k.t)⟩⟩)
    (fun a _ => ⟨a.2.1.1, a.2.1.2, a.2.2.1, a.2.2.2⟩) ?_ ?_ ?_ ?_ ?_
  · intro k hk
    rw [mem_keysOf] at hk
    simp only [mem_sigma, mem_antidiagonal]
    unfold Key.n at hk
    exact ⟨by omega, trivial, trivial⟩
  · rintro ⟨⟨a1, a2⟩, ⟨b1, b2⟩, c1, c2⟩ h
    simp only [mem_sigma, mem_antidiagonal] at h
    rw [mem_keysOf]
    show b1 + b2 + c1 + c2 = n
    omega
  · intro k _; rfl
  · rintro ⟨⟨a1, a2⟩, ⟨b1, b2⟩, c1, c2⟩ h
    simp only [mem_sigma, mem_antidiagonal] at h
    obtain ⟨h1, rfl, rfl⟩ := h
    rfl
  · intro k _; rfl

/-- The keys of order `m + 1` with `p > 0`. -/
theorem sum_keys_p (m : ℕ) (g : Key → ℂ) (hg : ∀ k, k.p = 0 → g k = 0) :
    ∑ k ∈ keysOf (m + 1), g k = ∑ k ∈ keysOf m, g ⟨k.p + 1, k.q, k.r, k.t⟩ := by
  rw [← Finset.sum_filter_of_ne (p := fun k : Key => k.p ≠ 0) (fun k _ h h0 => h (hg k h0))]
  refine Finset.sum_bij' (fun k _ => ⟨k.p - 1, k.q, k.r, k.t⟩) (fun k _ => ⟨k.p + 1, k.q, k.r, k.t⟩) ?_ ?_ ?_ ?_ ?_
  · intro k hk
    rw [mem_filter, mem_keysOf] at hk
    rw [mem_keysOf]
    unfold Key.n at hk ⊢
    have h1 := hk.1
    have h2 := hk.2
    simp only; omega
  · intro k hk
    rw [mem_keysOf] at hk
    rw [mem_filter, mem_keysOf]
    unfold Key.n at hk ⊢
    exact ⟨by simp only; omega, by simp⟩
  · intro k hk
    rw [mem_filter] at hk
    have := hk.2
    cases k; simp only [Key.mk.injEq] at *; simp; omega
  · intro k _; cases k; simp
  · intro k hk
    rw [mem_filter] at hk
    have h2 := hk.2
    have : k.p - 1 + 1 = k.p := by omega
    simp only [this]

theorem sum_keys_r (m : ℕ) (g : Key → ℂ) (hg : ∀ k, k.r = 0 → g k = 0) :
    ∑ k ∈ keysOf (m + 1), g k = ∑ k ∈ keysOf m, g ⟨k.p, k.q, k.r + 1, k.t⟩ := by
  rw [← Finset.sum_filter_of_ne (p := fun k : Key => k.r ≠ 0) (fun k _ h h0 => h (hg k h0))]
  refine Finset.sum_bij' (fun k _ => ⟨k.p, k.q, k.r - 1, k.t⟩) (fun k _ => ⟨k.p, k.q, k.r + 1, k.t⟩) ?_ ?_ ?_ ?_ ?_
  · intro k hk
    rw [mem_filter, mem_keysOf] at hk
    rw [mem_keysOf]
    unfold Key.n at hk ⊢
    have h1 := hk.1
    have h2 := hk.2
    simp only; omega
  · intro k hk
    rw [mem_keysOf] at hk
    rw [mem_filter, mem_keysOf]
    unfold Key.n at hk ⊢
    exact ⟨by simp only; omega, by simp⟩
  · intro k hk
    rw [mem_filter] at hk
    have := hk.2
    cases k; simp only [Key.mk.injEq] at *; simp; omega
  · intro k _; cases k; simp
  · intro k hk
    rw [mem_filter] at hk
    have h2 := hk.2
    have : k.r - 1 + 1 = k.r := by omega
    simp only [this]

/-- The part of the field which is left in a plane. -/
theorem omega_re (b a : ℝ) (l : ℕ) :
    ((b : ℂ) * omega l + I * (a : ℂ) * omega (l + 1)) * I ^ l = ((((⟨b, a⟩ : ℂ) * I ^ l).re : ℝ) : ℂ) := by
  rcases Nat.even_or_odd' l with ⟨j, rfl | rfl⟩
  · have h1 : omega (2 * j) = 1 := by unfold omega; rw [if_pos (by omega)]
    have h2 : omega (2 * j + 1) = 0 := by unfold omega; rw [if_neg (by omega)]
    have h3 : (I : ℂ) ^ (2 * j) = (((-1) ^ j : ℝ) : ℂ) := by rw [pow_mul, I_sq]; push_cast; rfl
    rw [h1, h2, h3, Complex.re_mul_ofReal]; push_cast; ring
  · have h1 : omega (2 * j + 1) = 0 := by unfold omega; rw [if_neg (by omega)]
    have h2 : omega (2 * j + 1 + 1) = 1 := by unfold omega; rw [if_pos (by omega)]
    have h3 : (I : ℂ) ^ (2 * j + 1) = (((-1) ^ j : ℝ) : ℂ) * I := by rw [pow_succ, pow_mul, I_sq]; push_cast; rfl
    have h4 : ((⟨b, a⟩ : ℂ) * ((((-1) ^ j : ℝ) : ℂ) * I)).re = -(a * (-1) ^ j) := by
      rw [← mul_assoc, Complex.mul_I_re, Complex.im_mul_ofReal]
    rw [h1, h2, h3, h4]
    push_cast
    linear_combination (a : ℂ) * (-1) ^ j * I_mul_I

theorem betPow {b : ℝ} (hb : 0 ≤ b) (k l : ℕ) : ((b ^ (((k : ℝ) + l) / 2) : ℝ) : ℂ) = (Real.sqrt b : ℂ) ^ (k + l) := by
  rw [← Complex.ofReal_pow, ← rpow_half hb]; push_cast; rfl

/-- Product of two binomials. -/
theorem two_binomials (a1 b1 a2 b2 : ℂ) (k l : ℕ) :
    ∑ b ∈ antidiagonal k, ∑ c ∈ antidiagonal l, (b1 ^ b.1 / b.1.factorial * (a1 ^ b.2 / b.2.factorial)) *
      (b2 ^ c.1 / c.1.factorial * (a2 ^ c.2 / c.2.factorial))
      = ((b1 + a1) ^ k / k.factorial) * ((b2 + a2) ^ l / l.factorial) := by
  rw [binomial, binomial, Finset.sum_mul_sum]

end

end Verif.Rdt
