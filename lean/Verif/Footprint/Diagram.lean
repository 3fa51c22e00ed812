import Verif.Footprint.Lemmas
import Mathlib.Algebra.Order.BigOperators.Group.Finset
import Mathlib.Algebra.BigOperators.Field

/-! # C135: the stability diagram -/

namespace Verif.Footprint

open Finset

/-- Specification: the integral of `f` over the actions with the trapezoidal rule: every cell of the grid, with its area and the mean
of its four corners. Rows belong to the vertical action, columns to the horizontal one. -/
noncomputable def integral (f : ℕ → ℕ → ℂ) (gx gy : Grid) : ℂ :=
  ∑ i ∈ range (gy.n - 1), ∑ j ∈ range (gx.n - 1),
    ((gx.at' (j + 1) - gx.at' j : ℝ) : ℂ) * ((gy.at' (i + 1) - gy.at' i : ℝ) : ℂ)
      * (f i j + f i (j + 1) + f (i + 1) j + f (i + 1) (j + 1)) / 4

/-- Specification: the integrand of the dispersion integral, the action times the density of the beam over the distance of the tunes:
`J exp(-Jx - Jy) / (Q - q + i eps)`. -/
noncomputable def dispersion (J Jx Jy q Q eps : ℝ) : ℂ := ((J * Real.exp (-Jx - Jy) : ℝ) : ℂ) / ((Q - q : ℝ) + eps * Complex.I)

theorem trapz_same (y : ℕ → ℂ) (n : ℕ) (grid : ℕ → ℝ) :
    trapz y n grid n = ∑ i ∈ range (n - 1), ((grid (i + 1) - grid i : ℝ) : ℂ) * (y i + y (i + 1)) / 2 := by
  rw [trapz, if_pos rfl]

/-- C135 (horizontal plane). For every footprint, the shift is one over the dispersion integral
`∫∫ Jx exp(-Jx - Jy) / (Q - qx(Jx, Jy) + i eps) dJx dJy`, with the trapezoidal rule on the grid. -/
theorem C135_horizontal (gx gy : Grid) (q : ℕ → ℕ → ℝ) (Q eps : ℝ) : shiftX gx gy q Q eps
    = some (1 / integral (fun i j => dispersion (gx.at' j) (gx.at' j) (gy.at' i) (q i j) Q eps) gx gy) := by
  rw [shiftX, tuneShift, if_pos ⟨Or.inl rfl, Or.inl rfl⟩]
  congr 1
  rw [← neg_div_neg_eq, neg_neg]
  congr 1
  rw [trapz_same, integral, ← sum_neg_distrib]
  refine sum_congr rfl fun i _ => ?_
  rw [trapz_same, trapz_same, ← sum_add_distrib, mul_sum, sum_div, ← sum_neg_distrib]
  refine sum_congr rfl fun j _ => ?_
  simp only [dispersion]
  push_cast
  ring

/-- The grids of a stability diagram are those of the actions in equal steps. -/
theorem diagram_uniform (x0 x1 : ℝ) (nx : ℕ) (y0 y1 : ℝ) (ny fine : ℕ) :
    ∃ n m, diagramGrids x0 x1 nx y0 y1 ny fine = (⟨n, linspace (x0 ^ 2 / 2) (x1 ^ 2 / 2) n⟩, ⟨m, linspace (y0 ^ 2 / 2) (y1 ^ 2 / 2) m⟩)
      ∧ ((fine > nx ∨ fine > ny) → n = fine ∧ m = fine) ∧ (¬ (fine > nx ∨ fine > ny) → n = nx ∧ m = ny) := by
  rw [diagramGrids]
  split_ifs with h
  · exact ⟨fine, fine, rfl, fun _ => ⟨rfl, rfl⟩, fun h' => absurd h h'⟩
  · exact ⟨nx, ny, rfl, fun h' => absurd h' h, fun _ => ⟨rfl, rfl⟩⟩

theorem linspace_step (a b : ℝ) (n i : ℕ) : linspace a b n (i + 1) - linspace a b n i = (b - a) / (n - 1) := by
  simp only [linspace]
  push_cast
  ring

theorem vertical_uniform (a b c d : ℝ) (n : ℕ) (q : ℕ → ℕ → ℝ) (Q eps : ℝ) :
    shiftY ⟨n, linspace a b n⟩ ⟨n, linspace c d n⟩ q Q eps
    = some (1 / integral (fun i j => dispersion (linspace c d n i) (linspace a b n j) (linspace c d n i) (q i j) Q eps)
      ⟨n, linspace a b n⟩ ⟨n, linspace c d n⟩) := by
  rw [shiftY, tuneShift, if_pos ⟨Or.inl rfl, Or.inl rfl⟩]
  congr 1
  rw [← neg_div_neg_eq, neg_neg]
  congr 1
  simp only
  rw [trapz_same, integral, ← sum_neg_distrib]
  refine sum_congr rfl fun i _ => ?_
  rw [trapz_same, trapz_same, ← sum_add_distrib, mul_sum, sum_div, ← sum_neg_distrib]
  refine sum_congr rfl fun j _ => ?_
  simp only [dispersion, linspace_step]
  have e : ∀ u v : ℝ, -u - v = -v - u := by intro u v; ring
  simp only [e (linspace c d n _) _]
  push_cast
  ring

/-- C135 (vertical plane). The shift is one over the integral
`∫∫ Jy exp(-Jx - Jy) / (Q - qy(Jx, Jy) + i eps) dJx dJy` if the tunes are interpolated on a finer grid, or if the two grids of the
footprint have the same number of points. The code sums along the horizontal action with the steps of the vertical one and conversely;
this gives the same area for every cell, as the steps are equal.
Missing: footprints with different numbers of points, without interpolation; below. -/
theorem C135_vertical_partial (x0 x1 : ℝ) (nx : ℕ) (y0 y1 : ℝ) (ny fine : ℕ) (q : ℕ → ℕ → ℝ) (Q eps : ℝ)
    (h : fine > nx ∨ fine > ny ∨ nx = ny) (gx gy : Grid) (hg : diagramGrids x0 x1 nx y0 y1 ny fine = (gx, gy)) :
    shiftY gx gy q Q eps
      = some (1 / integral (fun i j => dispersion (gy.at' i) (gx.at' j) (gy.at' i) (q i j) Q eps) gx gy) := by
  obtain ⟨n, m, h1, h2, h3⟩ := diagram_uniform x0 x1 nx y0 y1 ny fine
  have hnm : n = m := by
    by_cases hf : fine > nx ∨ fine > ny
    · rw [(h2 hf).1, (h2 hf).2]
    · rw [(h3 hf).1, (h3 hf).2]
      push Not at hf
      omega
  subst hnm
  rw [h1, Prod.mk.injEq] at hg
  obtain ⟨rfl, rfl⟩ := hg
  exact vertical_uniform _ _ _ _ _ _ _ _

/-- The default: 10 points, interpolated on 1000. -/
example : 1000 > 10 ∨ 1000 > 12 ∨ 10 = 12 := by norm_num

/-- C135 is violated without interpolation for a footprint with different numbers of points: the vertical diagram raises an error,
although the horizontal one is computed. -/
theorem C135_vertical_violated (x0 x1 : ℝ) (nx : ℕ) (y0 y1 : ℝ) (ny fine : ℕ) (q : ℕ → ℕ → ℝ) (Q eps : ℝ) (h1 : fine ≤ nx) (h2 : fine ≤ ny)
    (hne : nx ≠ ny) (hx : 3 ≤ nx) (hy : 3 ≤ ny) (gx gy : Grid) (hg : diagramGrids x0 x1 nx y0 y1 ny fine = (gx, gy)) :
    shiftY gx gy q Q eps = none ∧ (shiftX gx gy q Q eps).isSome := by
  refine ⟨?_, by rw [C135_horizontal]; rfl⟩
  rw [diagramGrids, if_neg (by omega), Prod.mk.injEq] at hg
  obtain ⟨rfl, rfl⟩ := hg
  rw [shiftY, tuneShift, if_neg]
  simp only [fits]
  omega

/-- Interpolation turned off, 10 by 12 points. -/
example : 0 ≤ 10 ∧ 0 ≤ 12 ∧ 10 ≠ 12 ∧ 3 ≤ 10 ∧ 3 ≤ 12 := by norm_num

theorem dispersion_im (J Jx Jy q Q eps : ℝ) (he : 0 < eps) :
    (dispersion J Jx Jy q Q eps).im = -(J * Real.exp (-Jx - Jy) * eps / ((Q - q) ^ 2 + eps ^ 2)) := by
  have hd : (0 : ℝ) < (Q - q) ^ 2 + eps ^ 2 := by positivity
  rw [dispersion]
  generalize Real.exp (-Jx - Jy) = w at *
  rw [Complex.div_im]
  have hn : Complex.normSq ((Q - q : ℝ) + eps * Complex.I) = (Q - q) ^ 2 + eps ^ 2 := by
    rw [Complex.normSq_apply]
    simp
    ring
  rw [hn]
  simp

/-- The integral of a weight which is not negative, and positive where the row and the column are. -/
theorem integral_im (J : ℕ → ℕ → ℝ) (gx gy : Grid) (q : ℕ → ℕ → ℝ) (Q eps : ℝ) (he : 0 < eps) (hx : 2 ≤ gx.n) (hy : 2 ≤ gy.n)
    (sx : ∀ j, gx.at' j < gx.at' (j + 1)) (sy : ∀ i, gy.at' i < gy.at' (i + 1)) (hJ : ∀ i j, 0 ≤ J i j)
    (hJ' : ∀ i j, 0 < J (i + 1) (j + 1)) :
    (integral (fun i j => dispersion (J i j) (gx.at' j) (gy.at' i) (q i j) Q eps) gx gy).im < 0 := by
  rw [integral, Complex.im_sum, ← neg_pos, ← sum_neg_distrib]
  refine sum_pos (fun i _ => ?_) ⟨0, by simp; omega⟩
  rw [Complex.im_sum, ← sum_neg_distrib]
  refine sum_pos (fun j _ => ?_) ⟨0, by simp; omega⟩
  have e : ∀ (u v : ℝ) (z : ℂ), ((u : ℂ) * v * z / 4).im = u * v * z.im / 4 := by
    intro u v z
    have : (u : ℂ) * v * z / 4 = ((u * v / 4 : ℝ) : ℂ) * z := by push_cast; ring
    rw [this, Complex.im_ofReal_mul]
    ring
  rw [e]
  have hle : ∀ i j, (dispersion (J i j) (gx.at' j) (gy.at' i) (q i j) Q eps).im ≤ 0 := by
    intro i j
    rw [dispersion_im _ _ _ _ _ _ he, neg_nonpos]
    have := hJ i j
    positivity
  have hlt : (dispersion (J (i + 1) (j + 1)) (gx.at' (j + 1)) (gy.at' (i + 1)) (q (i + 1) (j + 1)) Q eps).im < 0 := by
    rw [dispersion_im _ _ _ _ _ _ he, neg_lt_zero]
    have := hJ' i j
    positivity
  have h1 := hle i j
  have h2 := hle i (j + 1)
  have h3 := hle (i + 1) j
  have hs : (dispersion (J i j) (gx.at' j) (gy.at' i) (q i j) Q eps + dispersion (J i (j + 1)) (gx.at' (j + 1)) (gy.at' i) (q i (j + 1)) Q eps
      + dispersion (J (i + 1) j) (gx.at' j) (gy.at' (i + 1)) (q (i + 1) j) Q eps
      + dispersion (J (i + 1) (j + 1)) (gx.at' (j + 1)) (gy.at' (i + 1)) (q (i + 1) (j + 1)) Q eps).im < 0 := by
    simp only [Complex.add_im]
    linarith
  have hA : 0 < (gx.at' (j + 1) - gx.at' j) * (gy.at' (i + 1) - gy.at' i) :=
    mul_pos (sub_pos.2 (sx j)) (sub_pos.2 (sy i))
  have := mul_neg_of_pos_of_neg hA hs
  linarith

theorem inv_im_pos (z : ℂ) (h : z.im < 0) : 0 < (1 / z).im := by
  rw [one_div, Complex.inv_im]
  have hz : z ≠ 0 := by rintro rfl; simp at h
  have := Complex.normSq_pos.2 hz
  exact div_pos (by linarith) this

/-- C135 (sign). With a positive epsilon and increasing amplitudes, the imaginary part of every point is positive, in the horizontal
plane, and in the vertical one wherever it is computed as claimed. -/
theorem C135_sign (x0 x1 : ℝ) (nx : ℕ) (y0 y1 : ℝ) (ny fine : ℕ) (q : ℕ → ℕ → ℝ) (Q eps : ℝ) (he : 0 < eps)
    (hx0 : 0 ≤ x0) (hx1 : x0 < x1) (hy0 : 0 ≤ y0) (hy1 : y0 < y1) (hnx : 2 ≤ nx) (hny : 2 ≤ ny)
    (gx gy : Grid) (hg : diagramGrids x0 x1 nx y0 y1 ny fine = (gx, gy)) :
    (∃ z, shiftX gx gy q Q eps = some z ∧ 0 < z.im)
    ∧ (fine > nx ∨ fine > ny ∨ nx = ny → ∃ z, shiftY gx gy q Q eps = some z ∧ 0 < z.im) := by
  obtain ⟨n, m, h1, h2, h3⟩ := diagram_uniform x0 x1 nx y0 y1 ny fine
  have hn : 2 ≤ n ∧ 2 ≤ m := by
    by_cases hf : fine > nx ∨ fine > ny
    · rw [(h2 hf).1, (h2 hf).2]
      omega
    · rw [(h3 hf).1, (h3 hf).2]
      exact ⟨hnx, hny⟩
  have inc : ∀ (a b : ℝ) (k : ℕ), 0 ≤ a → a < b → 2 ≤ k → (∀ i, linspace (a ^ 2 / 2) (b ^ 2 / 2) k i < linspace (a ^ 2 / 2) (b ^ 2 / 2) k (i + 1))
      ∧ (∀ i, 0 ≤ linspace (a ^ 2 / 2) (b ^ 2 / 2) k i) := by
    intro a b k ha hb hk
    have hk' : (2 : ℝ) ≤ k := by exact_mod_cast hk
    have hstep : 0 < (b ^ 2 / 2 - a ^ 2 / 2) / ((k : ℝ) - 1) := div_pos (by nlinarith) (by linarith)
    refine ⟨fun i => ?_, fun i => ?_⟩
    · rw [← sub_pos, linspace_step]
      exact hstep
    · rw [linspace]
      positivity
  obtain ⟨ix, px⟩ := inc x0 x1 n hx0 hx1 hn.1
  obtain ⟨iy, py⟩ := inc y0 y1 m hy0 hy1 hn.2
  have hgx : gx = ⟨n, linspace (x0 ^ 2 / 2) (x1 ^ 2 / 2) n⟩ := by rw [h1, Prod.mk.injEq] at hg; exact hg.1.symm
  have hgy : gy = ⟨m, linspace (y0 ^ 2 / 2) (y1 ^ 2 / 2) m⟩ := by rw [h1, Prod.mk.injEq] at hg; exact hg.2.symm
  refine ⟨⟨_, C135_horizontal _ _ _ _ _, inv_im_pos _ ?_⟩, fun h => ⟨_, C135_vertical_partial x0 x1 nx y0 y1 ny fine q Q eps h gx gy hg, inv_im_pos _ ?_⟩⟩
  · subst hgx hgy
    exact integral_im (fun _ j => linspace (x0 ^ 2 / 2) (x1 ^ 2 / 2) n j) _ _ q Q eps he hn.1 hn.2 ix iy (fun _ j => px j)
      (fun _ j => lt_of_le_of_lt (px j) (ix j))
  · subst hgx hgy
    exact integral_im (fun i _ => linspace (y0 ^ 2 / 2) (y1 ^ 2 / 2) m i) _ _ q Q eps he hn.1 hn.2 ix iy (fun i _ => py i)
      (fun i _ => lt_of_le_of_lt (py i) (iy i))

/-- The default ranges. -/
example : (0 : ℝ) < 1e-5 ∧ (0 : ℝ) ≤ 0.1 ∧ (0.1 : ℝ) < 6 ∧ 2 ≤ 10 := by norm_num

theorem adaptLoop_spec (shift : ℝ → ℂ) (factor tol minEps : ℝ) : ∀ (k count : ℕ) (ref eps : ℝ) (cur : ℂ), cur = shift ref →
    (count > 0 → eps = |(shift ref).im * factor|) →
    let r := adaptLoop shift factor tol minEps count k ref eps cur
    r.1 = shift r.2.1 ∧ (r.2.1 = ref ∨ minEps ≤ r.2.1) ∧ count ≤ r.2.2.2 ∧ r.2.2.2 ≤ count + k
      ∧ (r.2.2.2 < count + k → |1 - r.2.2.1 / r.2.1| ≤ tol ∨ r.2.2.1 < minEps)
      ∧ (r.2.2.2 > 0 → r.2.2.1 = |(shift r.2.1).im * factor|)
      ∧ (r.2.2.2 = count → r.2.1 = ref ∧ r.2.2.1 = eps) := by
  intro k
  induction k with
  | zero =>
    intro count ref eps cur hc he
    exact ⟨hc, Or.inl rfl, le_refl _, le_refl _, fun h => absurd h (lt_irrefl _), he, fun _ => ⟨rfl, rfl⟩⟩
  | succ k ih =>
    intro count ref eps cur hc he
    rw [adaptLoop]
    split_ifs with h
    · obtain ⟨a1, a2, a3, a4, a5, a6, a7⟩ := ih (count + 1) eps _ _ rfl (fun _ => rfl)
      refine ⟨a1, Or.inr ?_, by omega, by omega, fun hlt => a5 (by omega), a6, fun h' => by omega⟩
      rcases a2 with a2 | a2
      · rw [a2]; exact h.2
      · exact a2
    · refine ⟨hc, Or.inl rfl, le_refl _, by simp, fun _ => ?_, he, fun _ => ⟨rfl, rfl⟩⟩
      by_contra hn
      push Not at hn
      exact h ⟨hn.1, hn.2⟩

/-- C135 (adaptive epsilon). The algorithm makes at most `max_iter` rounds. The point returned is the shift for an epsilon which is
`epsilon0` or at least `min_epsilon`; and if the algorithm makes some rounds, but less than `max_iter`, the epsilon which follows from
the point, `|Im * epsilon_factor|`, is equal to the one used up to the tolerance, or is less than `min_epsilon`. It makes no round although it
may only if the first such epsilon, or `min_epsilon` if that is larger, is equal to `epsilon0` up to the tolerance. -/
theorem C135_adaptive (shift : ℝ → ℂ) (eps0 factor tol : ℝ) (maxIter : ℕ) (minEps : ℝ) : ∃ eps rounds,
    (adapt shift eps0 factor tol maxIter minEps).1 = shift eps ∧ (eps = eps0 ∨ minEps ≤ eps)
    ∧ (adapt shift eps0 factor tol maxIter minEps).2.2.2 = rounds ∧ rounds ≤ maxIter ∧ (rounds = 0 → eps = eps0)
    ∧ (rounds = 0 → 0 < factor → 0 < maxIter → |1 - max minEps |(shift eps0).im * factor| / eps0| ≤ tol)
    ∧ (0 < rounds → rounds < maxIter → |1 - |(shift eps).im * factor| / eps| ≤ tol ∨ |(shift eps).im * factor| < minEps) := by
  rw [adapt]
  by_cases h : factor > 0
  · rw [if_pos h]
    obtain ⟨a1, a2, a3, a4, a5, a6, a7⟩ := adaptLoop_spec shift factor tol minEps maxIter 0 eps0
      (if |(shift eps0).im * factor| < minEps then minEps else |(shift eps0).im * factor|) (shift eps0) rfl (fun h => absurd h (lt_irrefl _))
    refine ⟨_, _, a1, a2, rfl, by omega, fun h0 => (a7 h0).1, fun h0 _ hM => ?_, fun h0 h1 => ?_⟩
    · have hfl : minEps ≤ (if |(shift eps0).im * factor| < minEps then minEps else |(shift eps0).im * factor|) := by
        split_ifs with hh
        · exact le_refl _
        · exact not_lt.1 hh
      have hmax : max minEps |(shift eps0).im * factor|
          = (if |(shift eps0).im * factor| < minEps then minEps else |(shift eps0).im * factor|) := by
        split_ifs with hh
        · exact max_eq_left hh.le
        · exact max_eq_right (not_lt.1 hh)
      rw [hmax]
      have h5 := a5 (by omega)
      rw [(a7 h0).1, (a7 h0).2] at h5
      rcases h5 with h5 | h5
      · exact h5
      · exact absurd h5 (not_lt.2 hfl)
    rw [← a6 h0]
    exact a5 (by omega)
  · rw [if_neg h]
    exact ⟨eps0, 0, rfl, Or.inl rfl, rfl, by omega, fun _ => rfl, fun _ hf => absurd hf h, fun h0 => absurd h0 (lt_irrefl _)⟩

/-- C135 (sign of the diagram). Hence, with positive `epsilon0` and `min_epsilon`, all points of the horizontal diagram have a positive
imaginary part, and those of the vertical diagram wherever it is computed as claimed. -/
theorem C135_above (x0 x1 : ℝ) (nx : ℕ) (y0 y1 : ℝ) (ny fine : ℕ) (q : ℕ → ℕ → ℝ) (Q : ℝ) (hx0 : 0 ≤ x0) (hx1 : x0 < x1) (hy0 : 0 ≤ y0)
    (hy1 : y0 < y1) (hnx : 2 ≤ nx) (hny : 2 ≤ ny) (gx gy : Grid) (hg : diagramGrids x0 x1 nx y0 y1 ny fine = (gx, gy))
    (eps0 factor tol : ℝ) (maxIter : ℕ) (minEps : ℝ) (h0 : 0 < eps0) (hm : 0 < minEps) (f : ℝ → ℂ)
    (hf : (∀ e, shiftX gx gy q Q e = some (f e)) ∨ (fine > nx ∨ fine > ny ∨ nx = ny) ∧ ∀ e, shiftY gx gy q Q e = some (f e)) :
    0 < (adapt f eps0 factor tol maxIter minEps).1.im := by
  obtain ⟨e, _, h1, h2, -⟩ := C135_adaptive f eps0 factor tol maxIter minEps
  have he : 0 < e := by
    rcases h2 with h2 | h2 <;> linarith
  have hs := C135_sign x0 x1 nx y0 y1 ny fine q Q e he hx0 hx1 hy0 hy1 hnx hny gx gy hg
  rcases hf with hf | ⟨hc, hf⟩
  · obtain ⟨z, hz, hp⟩ := hs.1
    rw [hf e, Option.some.injEq] at hz
    rw [h1, hz]
    exact hp
  · obtain ⟨z, hz, hp⟩ := hs.2 hc
    rw [hf e, Option.some.injEq] at hz
    rw [h1, hz]
    exact hp

/-- The hypothesis on `f` can always be met. -/
example (gx gy : Grid) (q : ℕ → ℕ → ℝ) (Q : ℝ) : ∃ f : ℝ → ℂ, ∀ e, shiftX gx gy q Q e = some (f e) :=
  ⟨_, fun e => C135_horizontal gx gy q Q e⟩

end Verif.Footprint
