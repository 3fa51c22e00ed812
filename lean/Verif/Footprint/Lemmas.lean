import Verif.Footprint.Model
import Mathlib.Tactic.Ring
import Mathlib.Tactic.FieldSimp
import Mathlib.Tactic.Linarith
import Mathlib.Tactic.LinearCombination
import Mathlib.Tactic.NormNum
import Mathlib.Tactic.Push
import Mathlib.Algebra.Field.GeomSum

/-! # Lemmas on the sums of the Fourier transform and on the loop over chunks -/

namespace Verif.Footprint

open Finset

/-- The root of unity with the exponent `l / n`. -/
noncomputable def root (l : ℤ) (n : ℕ) : ℂ := Complex.exp (2 * Real.pi * Complex.I * (l / n))

theorem root_pow (l : ℤ) (n j : ℕ) : Complex.exp (2 * Real.pi * Complex.I * (j * l / n)) = root l n ^ j := by
  rw [root, ← Complex.exp_nat_mul]
  congr 1
  ring

theorem root_sum (l : ℤ) (n : ℕ) (hn : 0 < n) : ∑ j ∈ range n, root l n ^ j = if (n : ℤ) ∣ l then (n : ℂ) else 0 := by
  have hn' : (n : ℂ) ≠ 0 := by exact_mod_cast hn.ne'
  split_ifs with h
  · obtain ⟨c, rfl⟩ := h
    have : root ((n : ℤ) * c) n = 1 := by
      rw [root, Complex.exp_eq_one_iff]
      refine ⟨c, ?_⟩
      push_cast
      field_simp
    simp [this]
  · have h1 : root l n ≠ 1 := by
      intro h1
      rw [root, Complex.exp_eq_one_iff] at h1
      obtain ⟨c, hc⟩ := h1
      apply h
      refine ⟨c, ?_⟩
      have h2 : (2 * (Real.pi : ℂ) * Complex.I) ≠ 0 := Complex.two_pi_I_ne_zero
      have h3 : (l : ℂ) / n = c := by
        apply mul_left_cancel₀ h2
        rw [hc]
        ring
      rw [div_eq_iff hn'] at h3
      have h4 : (l : ℂ) = ((n * c : ℤ) : ℂ) := by rw [h3]; push_cast; ring
      exact_mod_cast h4
    have h2 : root l n ^ n = 1 := by
      rw [root, ← Complex.exp_nat_mul, Complex.exp_eq_one_iff]
      refine ⟨l, ?_⟩
      field_simp
    rw [geom_sum_eq h1, h2]
    simp

/-- A line of the spectrum. -/
noncomputable def wave (amp ph : ℝ) (m n j : ℕ) : ℝ := amp * Real.cos (2 * Real.pi * (m * j / n) + ph)

theorem wave_complex (amp ph : ℝ) (m n j : ℕ) : ((wave amp ph m n j : ℝ) : ℂ)
    = amp / 2 * (Complex.exp (ph * Complex.I) * root m n ^ j + Complex.exp (-(ph * Complex.I)) * root (-m) n ^ j) := by
  rw [← root_pow, ← root_pow, ← Complex.exp_add, ← Complex.exp_add, wave]
  push_cast
  rw [Complex.cos]
  have e1 : (2 * (Real.pi : ℂ) * (m * j / n) + ph) * Complex.I = ph * Complex.I + 2 * Real.pi * Complex.I * (j * m / n) := by ring
  have e2 : -(2 * (Real.pi : ℂ) * (m * j / n) + ph) * Complex.I = -(ph * Complex.I) + 2 * Real.pi * Complex.I * (j * -m / n) := by ring
  rw [e1, e2]
  ring

theorem wave_sum (amp ph : ℝ) (m n : ℕ) (hm : 0 < m) (hmn : m < n) : ∑ j ∈ range n, wave amp ph m n j = 0 := by
  have hn : 0 < n := by omega
  have key : ((∑ j ∈ range n, wave amp ph m n j : ℝ) : ℂ) = 0 := by
    rw [Complex.ofReal_sum]
    simp only [wave_complex]
    rw [← mul_sum, sum_add_distrib, ← mul_sum, ← mul_sum, root_sum _ _ hn, root_sum _ _ hn]
    have h1 : ¬ ((n : ℤ) ∣ (m : ℤ)) := by
      intro h
      have := Int.le_of_dvd (by exact_mod_cast hm) h
      omega
    have h2 : ¬ ((n : ℤ) ∣ -(m : ℤ)) := by rwa [dvd_neg]
    rw [if_neg h1, if_neg h2]
    ring
  exact_mod_cast key

theorem root_mul (a b : ℤ) (n : ℕ) : root a n * root b n = root (a + b) n := by
  rw [root, root, root, ← Complex.exp_add]
  congr 1
  push_cast
  ring

theorem wave_rfft (amp ph : ℝ) (m n k : ℕ) (hn : 0 < n) : rfft (wave amp ph m n) n n k
    = amp / 2 * (Complex.exp (ph * Complex.I) * (if (n : ℤ) ∣ (m - k : ℤ) then (n : ℂ) else 0)
      + Complex.exp (-(ph * Complex.I)) * (if (n : ℤ) ∣ (-m - k : ℤ) then (n : ℂ) else 0)) := by
  rw [← root_sum _ _ hn, ← root_sum _ _ hn, rfft, mul_sum, mul_sum, ← sum_add_distrib, mul_sum]
  refine sum_congr rfl fun j hj => ?_
  rw [if_pos (mem_range.1 hj), wave_complex]
  have e : Complex.exp (-(2 * Real.pi * Complex.I * (j * k / n))) = root (-k) n ^ j := by
    rw [← root_pow]
    congr 1
    push_cast
    ring
  rw [e]
  have e1 : root (m - k : ℤ) n = root m n * root (-k) n := by rw [root_mul]; congr 1
  have e2 : root (-m - k : ℤ) n = root (-m) n * root (-k) n := by rw [root_mul]; congr 1
  rw [e1, e2, mul_pow, mul_pow]
  ring

theorem argmax_le (f : ℕ → ℝ) (m : ℕ) : argmax f m ≤ m := by
  induction m with
  | zero => simp [argmax]
  | succ m ih =>
    rw [argmax]
    split_ifs <;> omega

/-- `argmax` is one of the largest entries, and the first of them. -/
theorem argmax_spec (f : ℕ → ℝ) (m : ℕ) : (∀ k ≤ m, f k ≤ f (argmax f m)) ∧ ∀ k < argmax f m, f k < f (argmax f m) := by
  induction m with
  | zero => simp [argmax]
  | succ m ih =>
    rw [argmax]
    split_ifs with h
    · refine ⟨fun k hk => ?_, fun k hk => ?_⟩
      · rcases Nat.lt_or_ge k (m + 1) with h1 | h1
        · exact (ih.1 k (by omega)).trans h.le
        · rw [show k = m + 1 by omega]
      · exact (ih.1 k (by omega)).trans_lt h
    · refine ⟨fun k hk => ?_, ih.2⟩
      rcases Nat.lt_or_ge k (m + 1) with h1 | h1
      · exact ih.1 k (by omega)
      · rw [show k = m + 1 by omega]
        exact not_lt.1 h

theorem argmax_only (f : ℕ → ℝ) (m k : ℕ) (hk : k ≤ m) (pos : 0 < f k) (zero : ∀ l ≤ m, l ≠ k → f l = 0) : argmax f m = k := by
  by_contra h
  have h1 := (argmax_spec f m).1 k hk
  rw [zero _ (argmax_le f m) h] at h1
  linarith

theorem wave_norm (amp ph : ℝ) (m n k : ℕ) (hm : 0 < m) (h2 : 2 * m < n) (hk : k ≤ n / 2) :
    ‖rfft (wave amp ph m n) n n k‖ = if k = m then |amp| * n / 2 else 0 := by
  have hn : 0 < n := by omega
  rw [wave_rfft _ _ _ _ _ hn]
  have hb : ¬ ((n : ℤ) ∣ (-m - k : ℤ)) := by
    rintro ⟨c, hc⟩
    have h3 : (n : ℤ) * (-c) = m + k := by linarith
    have h4 : (m : ℤ) + k < n := by omega
    have h5 : 0 < (m : ℤ) + k := by omega
    rcases lt_or_ge (-c) 1 with h6 | h6
    · nlinarith
    · nlinarith
  rw [if_neg hb]
  split_ifs with h h' h'
  · have : ‖Complex.exp (ph * Complex.I)‖ = 1 := Complex.norm_exp_ofReal_mul_I ph
    rw [mul_zero, add_zero, norm_mul, norm_mul, this]
    simp
    ring
  · exfalso
    obtain ⟨c, hc⟩ := h
    have h3 : (m : ℤ) - k < n := by omega
    have h4 : -(n : ℤ) < m - k := by omega
    have h5 : c = 0 := by
      by_contra h0
      rcases lt_or_gt_of_ne h0 with h6 | h6
      · nlinarith
      · nlinarith
    rw [h5] at hc
    omega
  · exfalso
    apply h
    rw [h']
    simp
  · simp

theorem chunks_done (f : ℕ → ℝ) (npart size : ℕ) (hs : 0 < size) : ∀ (fuel start : ℕ) (q : ℕ → ℝ), npart ≤ start + fuel →
    (∀ p < start, p < npart → q p = f p) → ∃ r, chunks f npart size fuel start q = some r ∧ ∀ p < npart, r p = f p := by
  intro fuel
  induction fuel with
  | zero =>
    intro start q h hq
    rw [chunks, if_neg (by omega)]
    exact ⟨q, rfl, fun p hp => hq p (by omega) hp⟩
  | succ fuel ih =>
    intro start q h hq
    rw [chunks]
    by_cases h1 : start < npart
    · rw [if_pos h1]
      apply ih
      · omega
      · intro p hp hpn
        by_cases h2 : start ≤ p
        · rw [if_pos]
          refine ⟨h2, ?_⟩
          split_ifs <;> omega
        · rw [if_neg (by tauto)]
          exact hq p (by omega) hpn
    · rw [if_neg h1]
      exact ⟨q, rfl, fun p hp => hq p (by omega) hp⟩

theorem chunks_stuck (f : ℕ → ℝ) (npart : ℕ) : ∀ (fuel start : ℕ) (q : ℕ → ℝ), start < npart → chunks f npart 0 fuel start q = none := by
  intro fuel
  induction fuel with
  | zero => intro start q h; rw [chunks, if_pos h]
  | succ fuel ih =>
    intro start q h
    rw [chunks, if_pos h]
    exact ih _ _ h

end Verif.Footprint
