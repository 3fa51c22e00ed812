import Verif.Magnets.KickProps
import Verif.Frames.Model
import Mathlib.Analysis.SpecialFunctions.Trigonometric.Basic
import Mathlib.Data.Nat.Choose.Sum
import Mathlib.Algebra.BigOperators.Field
import Mathlib.Algebra.BigOperators.NatAntidiagonal
import Mathlib.Tactic.Abel

/-!
# Model of the feed-down of multipoles, and C106

File modelled: `/repo/xtrack/feed_down.py`, for one element (the code does the same for each row).
Complex numbers are exact.  The checks of the shapes (lines 55-81) are not modelled.

The theorems tie it to the tracking of a displaced and rolled thin magnet
(`Verif.Frames.trackPlaced`, `Verif.Magnets.kickSimple`).
-/

namespace Verif.Rdt

open Finset Complex Verif.Frames Verif.Magnets

noncomputable section

/-- The arguments of `feed_down` for one element; `order` is `n_order`. -/
structure FeedArgs where
  order : ℕ
  kn : ℕ → ℝ
  ks : ℕ → ℝ
  shiftX : ℝ
  shiftY : ℝ
  psi : ℝ
  x0 : ℝ
  y0 : ℝ

/-- `b_tilde`, lines 91-95. -/
def bTilde (a : FeedArgs) : ℂ :=
  exp (-I * a.psi) * ((a.x0 + I * a.y0) - (a.shiftX + I * a.shiftY))

/-- `n_out`, lines 58-61. -/
def nOut (a : FeedArgs) (maxOut : Option ℕ) : ℕ :=
  match maxOut with
  | none => a.order
  | some m => min a.order (m + 1)

/-- `out[:, m]`, lines 102-108. -/
def out (a : FeedArgs) (m : ℕ) : ℂ :=
  exp (-I * (m + 1) * a.psi) *
    ∑ p ∈ range (a.order - m), (a.kn (m + p) + I * a.ks (m + p)) / p.factorial * bTilde a ^ p

/-- `feed_down`: the arrays of real and imaginary parts, lines 100-112. -/
def feedDown (a : FeedArgs) (maxOut : Option ℕ) : List ℝ × List ℝ :=
  let o := (List.range (nOut a maxOut)).map (out a)
  (o.map Complex.re, o.map Complex.im)

/-! ## The field -/

theorem binomial (a b : ℂ) (n : ℕ) :
    (a + b) ^ n / n.factorial = ∑ k ∈ antidiagonal n, a ^ k.1 / k.1.factorial * (b ^ k.2 / k.2.factorial) := by
  rw [(Commute.all a b).add_pow', Finset.sum_div]
  apply Finset.sum_congr rfl
  intro k hk
  rw [mem_antidiagonal] at hk
  have h := Nat.choose_mul_factorial_mul_factorial (n := n) (k := k.1) (by omega)
  have h2 : n - k.1 = k.2 := by omega
  rw [h2] at h
  have hc : ((n.choose k.1 : ℕ) : ℂ) * (k.1.factorial : ℂ) * (k.2.factorial : ℂ) = (n.factorial : ℂ) := by
    exact_mod_cast h
  have n1 : (k.1.factorial : ℂ) ≠ 0 := by exact_mod_cast Nat.factorial_ne_zero _
  have n2 : (k.2.factorial : ℂ) ≠ 0 := by exact_mod_cast Nat.factorial_ne_zero _
  have n3 : (n.factorial : ℂ) ≠ 0 := by exact_mod_cast Nat.factorial_ne_zero _
  rw [nsmul_eq_mul, div_mul_div_comm, div_eq_div_iff n3 (mul_ne_zero n1 n2), ← hc]
  ring

/-- Sums over triangles. -/
theorem triangle (f : ℕ → ℕ → ℂ) (N : ℕ) :
    ∑ m ∈ range N, ∑ p ∈ range (N - m), f m p = ∑ n ∈ range N, ∑ k ∈ antidiagonal n, f k.1 k.2 := by
  rw [Finset.sum_sigma', Finset.sum_sigma']
  refine Finset.sum_bij' (fun x _ => ⟨x.1 + x.2, (x.1, x.2)⟩) (fun x _ => ⟨x.2.1, x.2.2⟩) ?_ ?_ ?_ ?_ ?_
  · rintro ⟨m, p⟩ h
    simp only [mem_sigma, mem_range, mem_antidiagonal] at h ⊢
    have h1 := h.1
    have h2 := h.2
    exact ⟨by omega, trivial⟩
  · rintro ⟨n, k⟩ h
    simp only [mem_sigma, mem_range, mem_antidiagonal] at h ⊢
    omega
  · rintro ⟨m, p⟩ h; rfl
  · rintro ⟨n, k, l⟩ h
    simp only [mem_sigma, mem_range, mem_antidiagonal] at h
    obtain ⟨-, rfl⟩ := h
    rfl
  · rintro ⟨m, p⟩ h; rfl

/-- **C106.**  The effective multipoles, taken around the orbit, have the field of the displaced and rolled magnet: at any
distance `z` from the orbit, the field of the effective multipoles is the field of the magnet in its own frame, turned
back to the frame of the machine. -/
theorem C106_field (a : FeedArgs) (z : ℂ) :
    ∑ m ∈ range a.order, out a m * z ^ m / m.factorial =
      exp (-I * a.psi) * ∑ n ∈ range a.order, (a.kn n + I * a.ks n) *
        (exp (-I * a.psi) * ((a.x0 + I * a.y0) + z - (a.shiftX + I * a.shiftY))) ^ n / n.factorial := by
  have key : ∀ n, (exp (-I * a.psi) * ((a.x0 + I * a.y0) + z - (a.shiftX + I * a.shiftY))) ^ n / n.factorial
      = ∑ k ∈ antidiagonal n, (exp (-I * a.psi) * z) ^ k.1 / k.1.factorial * (bTilde a ^ k.2 / k.2.factorial) := by
    intro n
    rw [← binomial]
    congr 2
    unfold bTilde; ring
  have h1 : ∑ n ∈ range a.order, (a.kn n + I * a.ks n) *
        (exp (-I * a.psi) * ((a.x0 + I * a.y0) + z - (a.shiftX + I * a.shiftY))) ^ n / n.factorial
      = ∑ n ∈ range a.order, ∑ k ∈ antidiagonal n, (a.kn (k.1 + k.2) + I * a.ks (k.1 + k.2)) *
        ((exp (-I * a.psi) * z) ^ k.1 / k.1.factorial * (bTilde a ^ k.2 / k.2.factorial)) := by
    apply Finset.sum_congr rfl
    intro n _
    rw [mul_div_assoc, key, Finset.mul_sum]
    apply Finset.sum_congr rfl
    intro k hk
    rw [mem_antidiagonal.mp hk]
  rw [h1, ← triangle (fun m p => (a.kn (m + p) + I * a.ks (m + p)) *
        ((exp (-I * a.psi) * z) ^ m / m.factorial * (bTilde a ^ p / p.factorial))), Finset.mul_sum]
  apply Finset.sum_congr rfl
  intro m _
  have he : exp (-I * (m + 1) * a.psi) = exp (-I * a.psi) * exp (-I * a.psi) ^ m := by
    rw [← Complex.exp_nat_mul, ← Complex.exp_add]; congr 1; ring
  rw [out, he, Finset.mul_sum, Finset.sum_mul, Finset.sum_div, Finset.mul_sum]
  apply Finset.sum_congr rfl
  intro p _
  rw [mul_pow]
  ring

/-- **C106.**  Truncation of the output leaves the orders which are kept as they are. -/
theorem C106_truncate (a : FeedArgs) (maxOut : ℕ) :
    (feedDown a (some maxOut)).1 = (feedDown a none).1.take (maxOut + 1)
      ∧ (feedDown a (some maxOut)).2 = (feedDown a none).2.take (maxOut + 1) := by
  simp only [feedDown, nOut, ← List.map_take, List.take_range]
  rw [min_comm]; exact ⟨rfl, rfl⟩

/-- **C106.**  Without displacement, roll and orbit nothing changes. -/
theorem C106_neutral (a : FeedArgs) (hp : a.psi = 0) (hx : a.x0 = a.shiftX) (hy : a.y0 = a.shiftY) :
    feedDown a none = ((List.range a.order).map a.kn, (List.range a.order).map a.ks) := by
  have hb : bTilde a = 0 := by unfold bTilde; rw [hx, hy]; simp
  have ho : ∀ m ∈ List.range a.order, out a m = a.kn m + I * a.ks m := by
    intro m hm
    rw [List.mem_range] at hm
    obtain ⟨k, hk⟩ : ∃ k, a.order - m = k + 1 := ⟨a.order - m - 1, by omega⟩
    unfold out
    rw [hk, Finset.sum_range_succ', hb, hp]
    simp
  simp only [feedDown, nOut]
  rw [List.map_congr_left ho, List.map_map, List.map_map]
  congr 1
  · apply List.map_congr_left; intro m _; simp
  · apply List.map_congr_left; intro m _; simp

/-! ## Tracking -/

/-- The tracking of a displaced and rolled thin magnet. -/
def displaced (dx dy tilt : ℝ) : Placed :=
  ⟨⟨dx, dy, 0, 0, 0, 0, 0, 0, tilt⟩, 1, 0, false, none⟩

theorem entry_displaced (dx dy tilt : ℝ) (p : Part) :
    misalignEntry (displaced dx dy tilt) false p = sRotate (xyShift p dx dy) tilt := by
  simp [misalignEntry, displaced, sliceMis, entryStraight, sShift, yRotate, xRotate, sRotate]

theorem exit_displaced (dx dy tilt : ℝ) (p : Part) :
    misalignExit (displaced dx dy tilt) false p = xyShift (sRotate p (-tilt)) (-dx) (-dy) := by
  simp [misalignExit, displaced, sliceMis, exitStraight, sShift, yRotate, xRotate, sRotate]

/-- Positions and momenta turned by an angle. -/
theorem sRotate_coords (p : Part) (t : ℝ) :
    (sRotate p t).x = Real.cos t * p.x + Real.sin t * p.y ∧ (sRotate p t).y = -Real.sin t * p.x + Real.cos t * p.y
    ∧ (sRotate p t).px = Real.cos t * p.px + Real.sin t * p.py
    ∧ (sRotate p t).py = -Real.sin t * p.px + Real.cos t * p.py
    ∧ (sRotate p t).spinX = Real.cos t * p.spinX + Real.sin t * p.spinY
    ∧ (sRotate p t).spinY = -Real.sin t * p.spinX + Real.cos t * p.spinY
    ∧ (sRotate p t).zeta = p.zeta ∧ (sRotate p t).s = p.s ∧ (sRotate p t).delta = p.delta
    ∧ (sRotate p t).ptau = p.ptau ∧ (sRotate p t).rpp = p.rpp ∧ (sRotate p t).rvv = p.rvv
    ∧ (sRotate p t).beta0 = p.beta0 ∧ (sRotate p t).chi = p.chi ∧ (sRotate p t).spinZ = p.spinZ := by
  unfold sRotate sRot
  split_ifs with h1 h2
  · simp
  · push Not at h2
    simp [h2.1, h2.2]
  · rw [not_not] at h1
    subst h1; simp

/-- The arrays which `feed_down` gives, as functions. -/
def effN (a : FeedArgs) (m : ℕ) : ℝ := (feedDown a none).1.getD m 0
def effS (a : FeedArgs) (m : ℕ) : ℝ := (feedDown a none).2.getD m 0

theorem eff_eq (a : FeedArgs) {m : ℕ} (h : m < a.order) : (⟨effN a m, effS a m⟩ : ℂ) = out a m := by
  have h1 : (List.range a.order)[m]? = some m := by rw [List.getElem?_range h]
  simp [effN, effS, feedDown, nOut, List.getD_eq_getElem?_getD, h1]

theorem exp_psi (t : ℝ) : exp (-I * t) = ⟨Real.cos t, -Real.sin t⟩ := by
  have : -I * (t : ℂ) = ((-t : ℝ) : ℂ) * I := by push_cast; ring
  rw [this, Complex.exp_mul_I, ← Complex.ofReal_cos, ← Complex.ofReal_sin, Real.cos_neg, Real.sin_neg]
  apply Complex.ext
  · simp [-Complex.ofReal_cos, -Complex.ofReal_sin]
  · simp [-Complex.ofReal_cos, -Complex.ofReal_sin]

/-- The field of the effective multipoles at a distance from the orbit, with the one of the magnet. -/
theorem field_eff (a : FeedArgs) (N : ℕ) (hN : a.order = N + 1) (x y : ℝ) :
    field (effN a) (effS a) N (x - a.x0) (y - a.y0) =
      ⟨Real.cos a.psi, -Real.sin a.psi⟩ * field a.kn a.ks N
        (Real.cos a.psi * (x - a.shiftX) + Real.sin a.psi * (y - a.shiftY))
        (-Real.sin a.psi * (x - a.shiftX) + Real.cos a.psi * (y - a.shiftY)) := by
  have h := C106_field a ⟨x - a.x0, y - a.y0⟩
  rw [hN, exp_psi] at h
  have e1 : (⟨Real.cos a.psi, -Real.sin a.psi⟩ : ℂ) * ((a.x0 + I * a.y0) + ⟨x - a.x0, y - a.y0⟩ - (a.shiftX + I * a.shiftY))
      = ⟨Real.cos a.psi * (x - a.shiftX) + Real.sin a.psi * (y - a.shiftY),
        -Real.sin a.psi * (x - a.shiftX) + Real.cos a.psi * (y - a.shiftY)⟩ := by
    apply Complex.ext <;> simp <;> ring
  rw [e1] at h
  unfold field
  rw [show (∑ n ∈ range (N + 1), (⟨effN a n, effS a n⟩ : ℂ) * (⟨x - a.x0, y - a.y0⟩ : ℂ) ^ n / (n.factorial : ℂ))
    = ∑ m ∈ range (N + 1), out a m * ⟨x - a.x0, y - a.y0⟩ ^ m / m.factorial from
      Finset.sum_congr rfl (fun m hm => by rw [eff_eq a (by rw [hN]; exact mem_range.mp hm)]), h]
  congr 1
  apply Finset.sum_congr rfl
  intro n _
  have e2 : (a.kn n + I * a.ks n : ℂ) = ⟨a.kn n, a.ks n⟩ := by apply Complex.ext <;> simp
  rw [e2]

/-- **C106.**  Tracking through the displaced and rolled thin magnet changes a particle as the effective multipoles do, taken
around the orbit: the same change of the momenta, and everything else stays as it is. -/
theorem C106_track (a : FeedArgs) (N : ℕ) (hN : a.order = N + 1) (w : ℝ) (p : Part) :
    trackPlaced (displaced a.shiftX a.shiftY a.psi) (fun _ q => kickSimple q N (invFact N) a.kn a.ks 1 w) false p =
      { p with
        px := p.px + (kickCoords (p.x - a.x0) (p.y - a.y0) p.chi N (invFact N) (effN a) (effS a) 1 w).1
        py := p.py + (kickCoords (p.x - a.x0) (p.y - a.y0) p.chi N (invFact N) (effN a) (effS a) 1 w).2 } := by
  have hc := Real.sin_sq_add_cos_sq a.psi
  have hf := field_eff a N hN p.x p.y
  have main : misalignExit (displaced a.shiftX a.shiftY a.psi) false
      (kickSimple (misalignEntry (displaced a.shiftX a.shiftY a.psi) false p) N (invFact N) a.kn a.ks 1 w) =
      { p with
        px := p.px + (kickCoords (p.x - a.x0) (p.y - a.y0) p.chi N (invFact N) (effN a) (effS a) 1 w).1
        py := p.py + (kickCoords (p.x - a.x0) (p.y - a.y0) p.chi N (invFact N) (effN a) (effS a) 1 w).2 } := by
    rw [entry_displaced, exit_displaced, kickCoords_field, hf]
    obtain ⟨e1, e2, e3, e4, e5, e6, e7, e8, e9, e10, e11, e12, e13, e14, e15⟩ :=
      sRotate_coords (xyShift p a.shiftX a.shiftY) a.psi
    set q := sRotate (xyShift p a.shiftX a.shiftY) a.psi with hq
    generalize hr : kickSimple q N (invFact N) a.kn a.ks 1 w = r
    have r1 : r.px = q.px + -(w * p.chi * 1 * (field a.kn a.ks N q.x q.y).re) := by
      rw [← hr]; simp only [kickSimple, kickCoords_field, e14]; rfl
    have r2 : r.py = q.py + w * p.chi * 1 * (field a.kn a.ks N q.x q.y).im := by
      rw [← hr]; simp only [kickSimple, kickCoords_field, e14]; rfl
    have r3 : r.x = q.x ∧ r.y = q.y ∧ r.zeta = q.zeta ∧ r.s = q.s ∧ r.delta = q.delta ∧ r.ptau = q.ptau
        ∧ r.rpp = q.rpp ∧ r.rvv = q.rvv ∧ r.beta0 = q.beta0 ∧ r.chi = q.chi ∧ r.spinX = q.spinX
        ∧ r.spinY = q.spinY ∧ r.spinZ = q.spinZ := by
      rw [← hr]; exact ⟨rfl, rfl, rfl, rfl, rfl, rfl, rfl, rfl, rfl, rfl, rfl, rfl, rfl⟩
    obtain ⟨c1, c2, c3, c4, c5, c6, c7, c8, c9, c10, c11, c12, c13⟩ := r3
    obtain ⟨d1, d2, d3, d4, d5, d6, d7, d8, d9, d10, d11, d12, d13, d14, d15⟩ := sRotate_coords r (-a.psi)
    simp only [Real.cos_neg, Real.sin_neg] at d1 d2 d3 d4 d5 d6
    have e1' : q.x = Real.cos a.psi * (p.x - a.shiftX) + Real.sin a.psi * (p.y - a.shiftY) := e1
    have e2' : q.y = -Real.sin a.psi * (p.x - a.shiftX) + Real.cos a.psi * (p.y - a.shiftY) := e2
    rw [← e1', ← e2']
    simp only [xyShift] at e3 e4 e5 e6 e7 e8 e9 e10 e11 e12 e13 e14 e15
    unfold xyShift
    ext
    · simp only [d1, c1, c2, e1', e2']; linear_combination (p.x - a.shiftX) * hc
    · simp only [d3, r1, r2, e3, e4, Complex.mul_re]; linear_combination p.px * hc
    · simp only [d2, c1, c2, e1', e2']; linear_combination (p.y - a.shiftY) * hc
    · simp only [d4, r1, r2, e3, e4, Complex.mul_im]; linear_combination p.py * hc
    · simp only [d7, c3, e7]
    · simp only [d8, c4, e8]
    · simp only [d9, c5, e9]
    · simp only [d10, c6, e10]
    · simp only [d11, c7, e11]
    · simp only [d12, c8, e12]
    · simp only [d13, c9, e13]
    · simp only [d14, c10, e14]
    · simp only [d5, c11, c12, e5, e6]; linear_combination p.spinX * hc
    · simp only [d6, c11, c12, e5, e6]; linear_combination p.spinY * hc
    · simp only [d15, c13, e15]
  unfold trackPlaced
  split_ifs with h1 h2
  · exact main
  · simp at h2
  · rw [← main, entry_displaced, exit_displaced]
    simp only [active, displaced] at h1
    push Not at h1
    obtain ⟨hx, hy, -, -, -, ht, -⟩ := h1
    rw [hx, hy, ht]
    simp [xyShift, sRotate]

/-- A quadrupole displaced by 1 mm in a place where the orbit is 2 mm: the hypotheses are met and the dipole is not zero. -/
example : (⟨2, fun n => if n = 1 then 1 else 0, fun _ => 0, 1, 0, 0, 2, 0⟩ : FeedArgs).order = 1 + 1
    ∧ out ⟨2, fun n => if n = 1 then 1 else 0, fun _ => 0, 1, 0, 0, 2, 0⟩ 0 = 1 := by
  refine ⟨rfl, ?_⟩
  simp [out, bTilde, Finset.sum_range_succ]
  norm_num

end

end Verif.Rdt
