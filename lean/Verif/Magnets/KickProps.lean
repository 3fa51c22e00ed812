import Verif.Magnets.Kick
import Mathlib.Data.Complex.Basic
import Mathlib.Algebra.BigOperators.Group.Finset.Basic
import Mathlib.Tactic.Ring
import Mathlib.Tactic.FieldSimp
import Mathlib.Tactic.Linarith
import Mathlib.Tactic.NormNum

/-!
# C58: the kick of a magnet is the field of its multipoles
-/

namespace Verif.Magnets

open Frames

noncomputable section

/-- The complex field `By + i Bx` (in units of the magnetic rigidity, integrated) of the normal components `kn` and the skew
components `ks` up to order `N`: the sum of `(kn_n + i ks_n) (x + i y)^n / n!`. -/
def field (kn ks : ℕ → ℝ) (N : ℕ) (x y : ℝ) : ℂ :=
  ∑ n ∈ Finset.range (N + 1), (⟨kn n, ks n⟩ : ℂ) * (⟨x, y⟩ : ℂ) ^ n / (n.factorial : ℂ)

theorem invFact_succ (i : ℕ) : invFact (i + 1) * ((i : ℝ) + 1) = invFact i := by
  unfold invFact
  rw [Nat.factorial_succ]
  push_cast
  have h1 : (i.factorial : ℝ) ≠ 0 := by exact_mod_cast Nat.factorial_ne_zero i
  have h2 : (i : ℝ) + 1 ≠ 0 := by positivity
  field_simp

theorem horner_spec (chi x y factor : ℝ) (knl ksl : ℕ → ℝ) : ∀ (i : ℕ) (re im : ℝ),
    let r := horner chi x y factor knl ksl i (invFact i) re im
    (⟨r.1, r.2⟩ : ℂ) = ((chi * factor : ℝ) : ℂ) * (∑ n ∈ Finset.range i, (⟨knl n, ksl n⟩ : ℂ) * (⟨x, y⟩ : ℂ) ^ n / (n.factorial : ℂ))
      + (⟨x, y⟩ : ℂ) ^ i * ⟨re, im⟩
  | 0, re, im => by simp [horner]
  | i + 1, re, im => by
    intro r
    have ih := horner_spec chi x y factor knl ksl i (chi * knl i * factor * invFact i + (re * x - im * y))
      (chi * ksl i * factor * invFact i + (re * y + im * x))
    have hr : r = horner chi x y factor knl ksl i (invFact i) (chi * knl i * factor * invFact i + (re * x - im * y))
        (chi * ksl i * factor * invFact i + (re * y + im * x)) := by
      show horner chi x y factor knl ksl (i + 1) (invFact (i + 1)) re im = _
      rw [horner]
      simp only [invFact_succ]
    rw [hr]
    refine ih.trans ?_
    rw [Finset.sum_range_succ, pow_succ]
    have e : (⟨chi * knl i * factor * invFact i + (re * x - im * y), chi * ksl i * factor * invFact i + (re * y + im * x)⟩ : ℂ)
        = ((chi * factor : ℝ) : ℂ) * (⟨knl i, ksl i⟩ : ℂ) / (i.factorial : ℂ) + ⟨x, y⟩ * ⟨re, im⟩ := by
      have h1 : ((i.factorial : ℂ))⁻¹ = ((invFact i : ℝ) : ℂ) := by
        unfold invFact
        push_cast
        rw [one_div]
      rw [div_eq_mul_inv, h1]
      apply Complex.ext
      · simp; ring
      · simp; ring
    rw [e]
    ring

theorem kickCoords_field (x y chi factor w : ℝ) (N : ℕ) (knl ksl : ℕ → ℝ) :
    kickCoords x y chi N (invFact N) knl ksl factor w =
      (-(w * chi * factor * (field knl ksl N x y).re), w * chi * factor * (field knl ksl N x y).im) := by
  have h := horner_spec chi x y factor knl ksl N (chi * knl N * factor * invFact N) (chi * ksl N * factor * invFact N)
  have e : ((chi * factor : ℝ) : ℂ) * (∑ n ∈ Finset.range N, (⟨knl n, ksl n⟩ : ℂ) * (⟨x, y⟩ : ℂ) ^ n / (n.factorial : ℂ))
      + (⟨x, y⟩ : ℂ) ^ N * ⟨chi * knl N * factor * invFact N, chi * ksl N * factor * invFact N⟩
      = ((chi * factor : ℝ) : ℂ) * field knl ksl N x y := by
    unfold field
    rw [Finset.sum_range_succ, mul_add]
    congr 1
    have h1 : ((N.factorial : ℂ))⁻¹ = ((invFact N : ℝ) : ℂ) := by
      unfold invFact
      push_cast
      rw [one_div]
    have h2 : (⟨chi * knl N * factor * invFact N, chi * ksl N * factor * invFact N⟩ : ℂ)
        = ((chi * factor : ℝ) : ℂ) * ⟨knl N, ksl N⟩ * ((invFact N : ℝ) : ℂ) := by
      apply Complex.ext
      · rw [Complex.re_mul_ofReal, Complex.re_ofReal_mul]; ring
      · rw [Complex.im_mul_ofReal, Complex.im_ofReal_mul]; ring
    rw [h2, div_eq_mul_inv, h1]
    ring
  simp only [e] at h
  have hre := congrArg Complex.re h
  have him := congrArg Complex.im h
  simp only [Complex.re_ofReal_mul, Complex.im_ofReal_mul] at hre him
  unfold kickCoords
  simp only
  rw [hre, him]
  ext <;> simp <;> ring

/-- The whole field of a magnet body: the arrays `knl`, `ksl` and the relative ones, scaled, and the main components. -/
def bodyField (a : KickArgs) (x y : ℝ) : ℂ :=
  (a.factor : ℂ) * field a.knl a.ksl a.order x y + ((a.factor * a.relRef : ℝ) : ℂ) * field a.knlRel a.kslRel a.orderRel x y +
    ((a.length : ℝ) : ℂ) * (⟨a.k0, a.k0s⟩ + ⟨a.k1, a.k1s⟩ * ⟨x, y⟩ + ⟨a.k2, a.k2s⟩ * ⟨x, y⟩ ^ 2 / 2 + ⟨a.k3, a.k3s⟩ * ⟨x, y⟩ ^ 3 / 6)

/-- The force in the horizontal plane of a body with curvature. -/
def forceX (a : KickArgs) (p : Part) : ℝ :=
  -(p.chi * (bodyField a p.x p.y).re) + (if a.rotFrame then (a.h * a.length + a.hxl) * (1 + p.delta) else 0)
    - p.chi * hTot a * (a.k0h * a.length + k0lMult a) * p.x
    - p.chi * hTot a * (a.k1h * a.length + k1lMult a) * (p.x ^ 2 - p.y ^ 2 / 2)

def forceY (a : KickArgs) (p : Part) : ℝ :=
  p.chi * (bodyField a p.x p.y).im + p.chi * hTot a * (a.k1h * a.length + k1lMult a) * (p.x * p.y)

def forceZ (a : KickArgs) (p : Part) : ℝ := if a.rotFrame then -((a.h * a.length + a.hxl) * p.x / p.rvv) else 0

theorem mainArr_field (n0 n1 n2 n3 s0 s1 s2 s3 l x y : ℝ) :
    field (mainArr n0 n1 n2 n3 l) (mainArr s0 s1 s2 s3 l) 3 x y =
      ((l : ℝ) : ℂ) * (⟨n0, s0⟩ + ⟨n1, s1⟩ * ⟨x, y⟩ + ⟨n2, s2⟩ * ⟨x, y⟩ ^ 2 / 2 + ⟨n3, s3⟩ * ⟨x, y⟩ ^ 3 / 6) := by
  have e : ∀ k s : ℝ, (⟨k * l, s * l⟩ : ℂ) = (l : ℂ) * ⟨k, s⟩ := by
    intro k s
    apply Complex.ext <;> simp <;> ring
  unfold field
  simp only [Finset.sum_range_succ, Finset.sum_range_zero, mainArr, e, Nat.factorial]
  push_cast
  ring

/-- C58: one kick with weight `w` adds `w` times the force to the momenta and touches nothing but the momenta and, in the rotated
frame, `zeta`. -/
theorem C58_kick (a : KickArgs) (w : ℝ) (p : Part) :
    magnetKick a w p = { p with px := p.px + w * forceX a p, py := p.py + w * forceY a p, zeta := p.zeta + w * forceZ a p } := by
  have h3 : (1 : ℝ) / (3 * 2) = invFact 3 := by
    unfold invFact
    norm_num [Nat.factorial]
  unfold magnetKick
  rw [h3]
  simp only [kickSimple, kickCoords_field, mainArr_field, curvature]
  ext <;> simp only [forceX, forceY, forceZ, bodyField, Complex.add_re, Complex.add_im, Complex.re_ofReal_mul, Complex.im_ofReal_mul]
  · split <;> ring
  · ring
  · split <;> ring

/-- The integrated normal component of order `n` of the two arrays together, each read up to its own order. -/
def normalTotal (a : KickArgs) (n : ℕ) : ℝ :=
  a.factor * ((if n ≤ a.order then a.knl n else 0) + a.relRef * (if n ≤ a.orderRel then a.knlRel n else 0))

/-- The terms of `forceX` and `forceY` due to the curvature use the total dipole and quadrupole of the arrays, and the total bending angle
of the frame divided by the length. -/
theorem C58_terms (a : KickArgs) : k0lMult a = normalTotal a 0 ∧ k1lMult a = normalTotal a 1 ∧
    (a.length ≠ 0 → hTot a * a.length = a.h * a.length + a.hxl) ∧ (a.length = 0 → hTot a = a.h) := by
  refine ⟨?_, ?_, fun h => ?_, fun h => ?_⟩
  · simp only [k0lMult, normalTotal, Nat.zero_le, if_true]
    ring
  · simp only [k1lMult, normalTotal]
    by_cases c : 1 ≤ a.order <;> by_cases c' : 1 ≤ a.orderRel <;> simp only [c, c', if_true, if_false] <;> ring
  · simp only [hTot, h, ne_eq, not_false_eq_true, if_true]
    field_simp
  · simp [hTot, h]

/-- Kicks with the same arguments add up, in any number and order. -/
theorem C58_add (a : KickArgs) (w1 w2 : ℝ) (p : Part) : magnetKick a w2 (magnetKick a w1 p) = magnetKick a (w1 + w2) p := by
  rw [C58_kick a w1 p, C58_kick, C58_kick]
  ext <;> simp only [forceX, forceY, forceZ] <;> ring

theorem magnetKick_zero (a : KickArgs) (p : Part) : magnetKick a 0 p = p := by
  rw [C58_kick]
  ext <;> simp

/-- A kick is undone by the kick with the opposite weight. -/
theorem C58_undo (a : KickArgs) (w : ℝ) (p : Part) : magnetKick a (-w) (magnetKick a w p) = p := by
  rw [C58_add, add_neg_cancel, magnetKick_zero]

/-- The field depends on the strengths of each order only through their sum: two sets of arrays, whatever their orders, act as the
arrays of the sums. -/
theorem C58_superpose (kn ks kn' ks' : ℕ → ℝ) (N N' M : ℕ) (hN : N ≤ M) (hN' : N' ≤ M) (x y : ℝ) :
    field kn ks N x y + field kn' ks' N' x y =
      field (fun n => (if n ≤ N then kn n else 0) + (if n ≤ N' then kn' n else 0))
        (fun n => (if n ≤ N then ks n else 0) + (if n ≤ N' then ks' n else 0)) M x y := by
  have ext : ∀ (kn ks : ℕ → ℝ) (N : ℕ), N ≤ M →
      field kn ks N x y = field (fun n => if n ≤ N then kn n else 0) (fun n => if n ≤ N then ks n else 0) M x y := by
    intro kn ks N hN
    unfold field
    have : Finset.range (M + 1) = Finset.range (N + 1) ∪ Finset.Ico (N + 1) (M + 1) := by
      ext n
      simp only [Finset.mem_range, Finset.mem_union, Finset.mem_Ico]
      omega
    rw [this, Finset.sum_union]
    · rw [Finset.sum_eq_zero (s := Finset.Ico (N + 1) (M + 1)), add_zero]
      · apply Finset.sum_congr rfl
        intro n hn
        have : n ≤ N := by simpa [Nat.lt_succ_iff] using hn
        simp [this]
      · intro n hn
        have : ¬ n ≤ N := by
          simp only [Finset.mem_Ico] at hn
          omega
        have h0 : (⟨0, 0⟩ : ℂ) = 0 := rfl
        simp [this, h0]
    · rw [Finset.disjoint_left]
      intro n h1 h2
      simp only [Finset.mem_range, Finset.mem_Ico] at h1 h2
      omega
  rw [ext kn ks N hN, ext kn' ks' N' hN']
  unfold field
  rw [← Finset.sum_add_distrib]
  apply Finset.sum_congr rfl
  intro n _
  have : ∀ a b c d : ℝ, (⟨a + b, c + d⟩ : ℂ) = ⟨a, c⟩ + ⟨b, d⟩ := fun a b c d => by apply Complex.ext <;> simp
  rw [this]
  ring

/-- The fields of low orders written out: dipole, quadrupole, sextupole. -/
theorem C58_low_orders (kn ks : ℕ → ℝ) (x y : ℝ) :
    field kn ks 2 x y = ⟨kn 0 + (kn 1 * x - ks 1 * y) + (kn 2 * (x ^ 2 - y ^ 2) - 2 * ks 2 * x * y) / 2,
      ks 0 + (ks 1 * x + kn 1 * y) + (ks 2 * (x ^ 2 - y ^ 2) + 2 * kn 2 * x * y) / 2⟩ := by
  unfold field
  simp only [Finset.sum_range_succ, Finset.sum_range_zero, Nat.factorial]
  apply Complex.ext
  · simp [pow_two]; ring
  · simp [pow_two]; ring

/-- A normal quadrupole of integrated strength 2 at `x = 1, y = 3` kicks by `(-2, 6)`. -/
example : kickCoords 1 3 1 1 (invFact 1) (fun n => if n = 1 then 2 else 0) (fun _ => 0) 1 1 = (-2, 6) := by
  simp [kickCoords, horner, invFact, Nat.factorial]
  norm_num

end

end Verif.Magnets
