import Verif.Boris.Maxwell7
import Verif.Boris.Spline
import Verif.Boris.StepProps
import Mathlib.Algebra.BigOperators.Group.Finset.Basic
import Mathlib.Tactic.IntervalCases

/-!
# C185: the field of a `SplineBoris` element
-/

namespace Verif.Boris

/-- C185 (field): whatever the splines, the field has neither divergence nor curl at any point, for
every number of splines. -/
theorem C185_maxwell (n : ℕ) (h : 1 ≤ n) (k : n ≤ 7) (c : Coeffs) (x y s : ℝ) : Vacuum (Bx n c) (By n c) (Bs n c) x y s := by
  interval_cases n
  · exact maxwell1 c x y s
  · exact maxwell2 c x y s
  · exact maxwell3 c x y s
  · exact maxwell4 c x y s
  · exact maxwell5 c x y s
  · exact maxwell6 c x y s
  · exact maxwell7 c x y s

/-- C185 (field): in the middle plane the transverse components are the Taylor series of which the
splines are the derivatives, and on the axis the longitudinal component is its spline. -/
theorem C185_midplane (n : ℕ) (h : 1 ≤ n) (k : n ≤ 7) (c : Coeffs) (x s : ℝ) :
    Bx n c x 0 s = ∑ i ∈ Finset.range n, x ^ i / i.factorial * poly (c.bx i) s ∧
    By n c x 0 s = ∑ i ∈ Finset.range n, x ^ i / i.factorial * poly (c.by_ i) s ∧
    Bs n c 0 0 s = poly c.bs s := by
  interval_cases n
  · have := midplane1 c x s
    simpa [Finset.sum_range_succ, Bx, By, Bs, Nat.factorial] using this
  · have := midplane2 c x s
    simpa [Finset.sum_range_succ, Bx, By, Bs, Nat.factorial] using this
  · have := midplane3 c x s
    simpa [Finset.sum_range_succ, Bx, By, Bs, Nat.factorial] using this
  · have := midplane4 c x s
    simpa [Finset.sum_range_succ, Bx, By, Bs, Nat.factorial] using this
  · have := midplane5 c x s
    simpa [Finset.sum_range_succ, Bx, By, Bs, Nat.factorial] using this
  · have := midplane6 c x s
    simpa [Finset.sum_range_succ, Bx, By, Bs, Nat.factorial] using this
  · have := midplane7 c x s
    simpa [Finset.sum_range_succ, Bx, By, Bs, Nat.factorial] using this

/-- C185 (field): with the coefficients of the splines the field on the axis has the values given for
the ends of the element. -/
theorem C185_ends (n : ℕ) (h : 1 ≤ n) (k : n ≤ 7) (L : ℝ) (hL : 0 < L) (bx by_ : ℕ → Spline) (bs : Spline) :
    let c : Coeffs := ⟨fun k => (toPoly L bs).at k, fun i k => (toPoly L (by_ i)).at k, fun i k => (toPoly L (bx i)).at k⟩
    splineField n c 0 0 0 = ((bx 0).start, (by_ 0).start, bs.start) ∧
      splineField n c 0 0 L = ((bx 0).stop, (by_ 0).stop, bs.stop) := by
  intro c
  have key : ∀ s, splineField n c 0 0 s = (along L (bx 0) s, along L (by_ 0) s, along L bs s) := by
    intro s
    obtain ⟨h1, h2, h3⟩ := C185_midplane n h k c 0 s
    have hz : ∀ f : ℕ → ℝ, (∑ i ∈ Finset.range n, (0 : ℝ) ^ i / (i.factorial : ℝ) * f i) = f 0 := by
      intro f
      rw [Finset.sum_eq_single_of_mem 0 (Finset.mem_range.mpr h) (fun i _ hi => by rw [zero_pow hi]; ring)]
      simp
    rw [hz (fun i => poly (c.bx i) s)] at h1
    rw [hz (fun i => poly (c.by_ i) s)] at h2
    exact Prod.ext h1 (Prod.ext h2 h3)
  have ex := C183_ends L hL (bx 0)
  have ey := C183_ends L hL (by_ 0)
  have es := C183_ends L hL bs
  rw [key, key, ex.1, ey.1, es.1, ex.2.2.1, ey.2.2.1, es.2.2.1]
  exact ⟨rfl, rfl⟩

theorem Vacuum.scale {Bx By Bs : ℝ → ℝ → ℝ → ℝ} {x y s : ℝ} (h : Vacuum Bx By Bs x y s) (k : ℝ) :
    Vacuum (fun x y s => Bx x y s * k) (fun x y s => By x y s * k) (fun x y s => Bs x y s * k) x y s := by
  obtain ⟨a1, a2, a3, a4, a5, a6, a7, a8, a9, h1, h2, h3, h4, h5, h6, h7, h8, h9, e1, e2, e3, e4⟩ := h
  refine ⟨a1 * k, a2 * k, a3 * k, a4 * k, a5 * k, a6 * k, a7 * k, a8 * k, a9 * k, h1.mul_const k, h2.mul_const k, h3.mul_const k,
    h4.mul_const k, h5.mul_const k, h6.mul_const k, h7.mul_const k, h8.mul_const k, h9.mul_const k, ?_, ?_, ?_, ?_⟩
  · linear_combination k * e1
  · linear_combination k * e2
  · linear_combination k * e3
  · linear_combination k * e4

theorem Vacuum.shift {Bx By Bs : ℝ → ℝ → ℝ → ℝ} {x y s a b : ℝ} (h : Vacuum Bx By Bs (x - a) (y - b) s) :
    Vacuum (fun x y s => Bx (x - a) (y - b) s) (fun x y s => By (x - a) (y - b) s) (fun x y s => Bs (x - a) (y - b) s) x y s := by
  obtain ⟨a1, a2, a3, a4, a5, a6, a7, a8, a9, h1, h2, h3, h4, h5, h6, h7, h8, h9, e⟩ := h
  exact ⟨a1, a2, a3, a4, a5, a6, a7, a8, a9, h1.comp_sub_const x a, h2.comp_sub_const y b, h3,
    h4.comp_sub_const x a, h5.comp_sub_const y b, h6, h7.comp_sub_const x a, h8.comp_sub_const y b, h9, e⟩

/-- C185 (field): the field of an element, shifted and scaled, with any multipoles which have neither divergence nor
curl on top, has neither divergence nor curl. -/
theorem C185_element (e : Elem) (n : ℕ) (h : 1 ≤ n) (k : n ≤ 7) (c : Coeffs) (he : e.spline = splineField n c) (x y s : ℝ)
    (hm : Vacuum (fun x y _ => (e.multipoles x y).1) (fun x y _ => (e.multipoles x y).2.1) (fun x y _ => (e.multipoles x y).2.2)
      (x - e.shiftX) (y - e.shiftY) s) :
    Vacuum (fun x y s => (e.field x y s).1) (fun x y s => (e.field x y s).2.1) (fun x y s => (e.field x y s).2.2) x y s := by
  have := ((C185_maxwell n h k c (x - e.shiftX) (y - e.shiftY) s).scale e.scaleB).add hm
  have := this.shift
  simp only [Elem.field, he, splineField]
  exact this

/-- A field which changes along the element: two splines for each transverse component. -/
example : Vacuum (Bx 2 ⟨fun k => k, fun i k => i + k, fun i k => i * k⟩) (By 2 ⟨fun k => k, fun i k => i + k, fun i k => i * k⟩)
    (Bs 2 ⟨fun k => k, fun i k => i + k, fun i k => i * k⟩) 1 2 3 :=
  C185_maxwell 2 (by norm_num) (by norm_num) _ _ _ _

end Verif.Boris
