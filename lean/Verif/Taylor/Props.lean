import Verif.Taylor.Model
import Verif.Twiss.Matrices
import Mathlib.Algebra.Order.BigOperators.Group.Finset

/-!
# Taylor maps: the map of a line, and changes of coordinates
-/

namespace Verif.Taylor

open Verif.Twiss Matrix

/-! ## The map of a part of a line -/

/-- Expansion around an orbit: what a second order map is meant to be. -/
def expansion (RR : Mat) (TT : Tensor) (coIn coOut z : Vec) : Vec := fun i =>
  coOut i + ∑ j, RR i j * (z j - coIn j) + ∑ j, ∑ k, TT i j k * (z j - coIn j) * (z k - coIn k)

/-- Feed-down: the coefficients of the element are those of the expansion around the orbit. -/
theorem fromMatrices_apply (RR : Mat) {TT : Tensor} (hT : ∀ i j k, TT i j k = TT i k j)
    (coIn coOut : Vec) (a b : ℝ) (z : Vec) :
    (fromMatrices RR TT coIn coOut a b).apply z = expansion RR TT coIn coOut z := by
  funext i
  simp only [Second.apply, fromMatrices, expansion, Pi.add_apply, Pi.sub_apply, Matrix.mulVec,
    dotProduct]
  have e1 : ∑ j, (RR i j - 2 * ∑ k, TT i j k * coIn k) * z j
      = ∑ j, RR i j * z j - 2 * ∑ j, ∑ k, TT i j k * coIn k * z j := by
    rw [Finset.mul_sum, ← Finset.sum_sub_distrib]
    refine Finset.sum_congr rfl fun j _ => ?_
    rw [← Finset.sum_mul]
    ring
  have e2 : ∑ j, (∑ k, TT i j k * coIn k) * coIn j = ∑ j, ∑ k, TT i j k * coIn j * coIn k := by
    refine Finset.sum_congr rfl fun j _ => ?_
    rw [Finset.sum_mul]
    exact Finset.sum_congr rfl fun k _ => by ring
  have e3 : ∑ j, RR i j * (z j - coIn j) = ∑ j, RR i j * z j - ∑ j, RR i j * coIn j := by
    rw [← Finset.sum_sub_distrib]
    exact Finset.sum_congr rfl fun j _ => by ring
  have e4 : ∑ j, ∑ k, TT i j k * (z j - coIn j) * (z k - coIn k)
      = ∑ j, ∑ k, TT i j k * z j * z k - ∑ j, ∑ k, TT i j k * coIn k * z j
        - ∑ j, ∑ k, TT i j k * coIn j * z k + ∑ j, ∑ k, TT i j k * coIn j * coIn k := by
    simp only [← Finset.sum_sub_distrib, ← Finset.sum_add_distrib]
    exact Finset.sum_congr rfl fun j _ => Finset.sum_congr rfl fun k _ => by ring
  have e5 : ∑ j, ∑ k, TT i j k * coIn j * z k = ∑ j, ∑ k, TT i j k * coIn k * z j := by
    rw [Finset.sum_comm]
    exact Finset.sum_congr rfl fun j _ => Finset.sum_congr rfl fun k _ => by rw [hT i k j]
  rw [e1, e2, e3, e4, e5]
  ring

/-- **C99.** The map made from any line takes the orbit at its start to the orbit at its end, whatever
the matrices are. -/
theorem C99_orbit (stepsAt : Vec → Steps) (hi lo : Fin 6 → ℝ) (f : Vec → Vec) (coIn coOut : Vec)
    (a b : ℝ) : (fromLine stepsAt hi lo f coIn coOut a b).apply coIn = coOut := by
  funext i
  simp only [Second.apply, fromLine, fromMatrices, Pi.add_apply, Pi.sub_apply, Matrix.mulVec,
    dotProduct]
  generalize finiteR (stepsAt coIn) f coIn = RR
  generalize finiteT stepsAt hi lo f coIn = TT
  have e1 : ∑ j, (RR i j - 2 * ∑ k, TT i j k * coIn k) * coIn j
      = ∑ j, RR i j * coIn j - 2 * ∑ j, (∑ k, TT i j k * coIn k) * coIn j := by
    rw [Finset.mul_sum, ← Finset.sum_sub_distrib]
    exact Finset.sum_congr rfl fun j _ => by ring
  have e2 : ∑ j, (∑ k, TT i j k * coIn k) * coIn j = ∑ j, ∑ k, TT i j k * coIn j * coIn k := by
    refine Finset.sum_congr rfl fun j _ => ?_
    rw [Finset.sum_mul]
    exact Finset.sum_congr rfl fun k _ => by ring
  rw [e1, e2]
  ring

/-- **C99.** If the matrices are the first and second order of a line around its orbit, and the line is
of second order, then the map gives the same coordinates as the line, for every particle (also far
from the orbit). -/
theorem C99_exact {f : Vec → Vec} {c : Vec} {A : Mat} {T : Tensor} (hf : SecondOrder f c A T)
    (co : Vec) (a b : ℝ) (z : Vec) :
    (fromMatrices (around A T co) T co (f co) a b).apply z = f z := by
  have hT := hf.1
  rw [fromMatrices_apply _ hT]
  funext i
  simp only [expansion, hf.2, around]
  have e1 : ∑ j, (A i j + 2 * ∑ k, T i j k * co k) * (z j - co j)
      = ∑ j, A i j * z j - ∑ j, A i j * co j + 2 * ∑ j, ∑ k, T i j k * co k * z j
        - 2 * ∑ j, ∑ k, T i j k * co j * co k := by
    rw [Finset.mul_sum, Finset.mul_sum, ← Finset.sum_sub_distrib, ← Finset.sum_add_distrib,
      ← Finset.sum_sub_distrib]
    refine Finset.sum_congr rfl fun j _ => ?_
    have a1 : ∑ k, T i j k * co k * z j = (∑ k, T i j k * co k) * z j := by rw [Finset.sum_mul]
    have a2 : ∑ k, T i j k * co j * co k = (∑ k, T i j k * co k) * co j := by
      rw [Finset.sum_mul]
      exact Finset.sum_congr rfl fun k _ => by ring
    rw [a1, a2]
    ring
  have e4 : ∑ j, ∑ k, T i j k * (z j - co j) * (z k - co k)
      = ∑ j, ∑ k, T i j k * z j * z k - ∑ j, ∑ k, T i j k * co k * z j
        - ∑ j, ∑ k, T i j k * co j * z k + ∑ j, ∑ k, T i j k * co j * co k := by
    simp only [← Finset.sum_sub_distrib, ← Finset.sum_add_distrib]
    exact Finset.sum_congr rfl fun j _ => Finset.sum_congr rfl fun k _ => by ring
  have e5 : ∑ j, ∑ k, T i j k * co j * z k = ∑ j, ∑ k, T i j k * co k * z j := by
    rw [Finset.sum_comm]
    exact Finset.sum_congr rfl fun j _ => Finset.sum_congr rfl fun k _ => by rw [hT i k j]
  rw [e1, e4, e5]
  ring

/-- **C99.** With the matrices which the line measures by tracking: for every line of second order
whose coordinates do not contain the square of `pzeta`, every orbit and all steps. -/
theorem C99_from_line_partial (stepsAt : Vec → Steps) (h : ∀ p, (stepsAt p).Proper)
    (same : ∀ p q : Vec, p 5 = q 5 → stepsAt p = stepsAt q) {hi lo : Fin 6 → ℝ}
    (hl : ∀ k, hi k ≠ lo k) {f : Vec → Vec} {c : Vec} {A : Mat} {T : Tensor}
    (hf : SecondOrder f c A T) (h55 : ∀ i, T i 5 5 = 0) (co : Vec) (a b : ℝ) (z : Vec) :
    (fromLine stepsAt hi lo f co (f co) a b).apply z = f z := by
  have eR : finiteR (stepsAt co) f co = around A T co := by
    ext i j
    rw [finiteR_secondOrder _ (h co) hf]
    by_cases hj : j = 5
    · subst hj
      rw [h55, zero_mul, add_zero]
    · rw [(stepsAt co).opposite hj, mul_zero, add_zero]
  have eT : finiteT stepsAt hi lo f co = T := by
    funext i j k
    by_cases hjk : j = 5 ∧ k = 5
    · obtain ⟨rfl, rfl⟩ := hjk
      have n : (co + Pi.single 5 (hi 5) : Vec) 5 - (co + Pi.single 5 (lo 5) : Vec) 5 ≠ 0 := by
        simpa using sub_ne_zero.mpr (hl 5)
      simp only [finiteT]
      rw [finiteR_secondOrder _ (h _) hf, finiteR_secondOrder _ (h _) hf, h55, zero_mul, zero_mul,
        add_zero, add_zero]
      have e : around A T (co + Pi.single 5 (hi 5)) i 5 - around A T (co + Pi.single 5 (lo 5)) i 5
          = 2 * T i 5 5 * ((co + Pi.single 5 (hi 5) : Vec) 5 - (co + Pi.single 5 (lo 5) : Vec) 5) := by
        simp only [around, Pi.add_apply, mul_add, Finset.sum_add_distrib]
        simp [Pi.single_apply]
        ring
      rw [e, h55]
      simp
    · exact C97_T_matrix_partial stepsAt h same hl hf co i j k hjk
  rw [fromLine, eR, eT]
  exact C99_exact hf co a b z

/-- **C99.** Tracking: the six coordinates are those of the map, the energy variables describe the new
`pzeta`, and `s` advances by the length. -/
theorem C99_track (el : Second) (p : Part) (hb : p.beta0 ≠ 0) :
    (el.track p).z = el.apply p.z ∧ (el.track p).s = p.s + el.length
      ∧ (el.track p).beta0 = p.beta0 := by
  refine ⟨?_, rfl, rfl⟩
  funext i
  fin_cases i <;> simp [Second.track, Part.z, hb]

/-- **C99.** The length of the map is the length of the part of the line if the end is after the
start; when the part goes over the end of the line it is too short by the length of the line: the
particle is left with a negative step of `s`. -/
theorem C99_wrap_violated :
    ∃ (stepsAt : Vec → Steps) (hi lo : Fin 6 → ℝ) (f : Vec → Vec) (co : Vec) (sStart sEnd lineLength : ℝ),
      0 ≤ sEnd ∧ sEnd < sStart ∧ sStart < lineLength ∧
      ∀ p : Part, ((fromLine stepsAt hi lo f co (f co) sStart sEnd).track p).s
        ≠ p.s + (lineLength - sStart + sEnd) ∧
        ((fromLine stepsAt hi lo f co (f co) sStart sEnd).track p).s < p.s := by
  refine ⟨fun _ => ⟨fun _ => 1, 1, -1⟩, 1, 0, id, 0, 8, 1, 10, by norm_num, by norm_num, by norm_num,
    fun p => ?_⟩
  simp only [Second.track, fromLine, fromMatrices]
  constructor
  · intro h
    linarith
  · linarith

/-- A sextupole-like line meets the hypotheses of `C99_from_line_partial`. -/
example : SecondOrder (fun z i => z i + (if i = 1 then z 0 * z 0 else 0)) 0 1
      (fun i j k => if i = 1 ∧ j = 0 ∧ k = 0 then 1 else 0)
    ∧ (∀ i : Fin 6, (if i = 1 ∧ (5 : Fin 6) = 0 ∧ (5 : Fin 6) = 0 then (1 : ℝ) else 0) = 0) := by
  refine ⟨⟨?_, ?_⟩, ?_⟩
  · intro i j k
    have : (i = 1 ∧ j = 0 ∧ k = 0) ↔ (i = 1 ∧ k = 0 ∧ j = 0) := by tauto
    simp only [this]
  · intro z i
    by_cases hi : i = 1
    · subst hi
      simp [Fin.sum_univ_six, Matrix.one_apply]
    · simp [hi, Matrix.one_apply]
  · intro i
    simp

/-! ## First order maps -/

/-- The second order map with the same action: `zeta = beta0 tau` and `pzeta = ptau / beta0`. -/
noncomputable def First.second (el : First) (beta0 : ℝ) : Second :=
  let d : Vec := ![1, 1, 1, 1, beta0, beta0⁻¹]
  { k := fun i => d i * el.m0 i, R := fun i j => d i * el.m1 i j / d j, T := fun _ _ _ => 0
    length := el.length }

/-- **C100.** First and second order maps agree: a first order map given in `(tau, ptau)` acts as the
second order map with the coefficients converted to `(zeta, pzeta)`. -/
theorem C100_first_second (el : First) (p : Part) (hb : p.beta0 ≠ 0) :
    el.track p = (el.second p.beta0).track p := by
  simp only [First.track, Second.track, Second.apply, First.second, Part.z, Fin.sum_univ_six]
  have hb' : p.beta0 * (p.beta0)⁻¹ = 1 := mul_inv_cancel₀ hb
  congr 1 <;> simp <;> field_simp <;> ring

/-- **C100.** A first order map with a symplectic matrix in `(x, px, y, py, tau, ptau)` is a symplectic
map of `(x, px, y, py, zeta, pzeta)`. -/
theorem C100_symplectic (el : First) (h : Symplectic el.m1) {beta0 : ℝ} (hb : beta0 ≠ 0) :
    Symplectic (el.second beta0).R := by
  have e : (el.second beta0).R = Matrix.diagonal ![1, 1, 1, 1, beta0, beta0⁻¹] * el.m1
      * Matrix.diagonal ![1, 1, 1, 1, beta0⁻¹, beta0] := by
    ext i j
    rw [Matrix.mul_diagonal, Matrix.diagonal_mul]
    fin_cases j <;> simp [First.second, div_eq_mul_inv]
  rw [e]
  refine Symplectic.mul (Symplectic.mul ?_ h) ?_
  · intro z w
    simp only [form, Matrix.mulVec_diagonal]
    simp
    field_simp
  · intro z w
    simp only [form, Matrix.mulVec_diagonal]
    simp
    field_simp

/-! ## Scaled coordinates -/

/-- **C101.** Reflections: with factors ±1 the new map is the old one in the reflected coordinates. -/
theorem C101_reflect_partial (el : Second) {σ : Vec} (h : ∀ i, σ i = 1 ∨ σ i = -1) (z : Vec) :
    (el.scale σ).apply (fun i => σ i * z i) = fun i => σ i * el.apply z i := by
  have sq : ∀ i, σ i * σ i = 1 := fun i => by rcases h i with e | e <;> rw [e] <;> norm_num
  funext i
  simp only [Second.apply, Second.scale]
  rw [mul_add, mul_add, Finset.mul_sum, Finset.mul_sum, mul_comm (el.k i)]
  congr 1
  · congr 1
    refine Finset.sum_congr rfl fun j _ => ?_
    linear_combination el.R i j * σ i * z j * sq j
  · refine Finset.sum_congr rfl fun j _ => ?_
    rw [Finset.mul_sum]
    refine Finset.sum_congr rfl fun k _ => ?_
    linear_combination el.T i j k * σ i * z j * z k * (σ k * σ k) * sq j
      + el.T i j k * σ i * z j * z k * sq k

/-- **C101.** Reflecting twice gives the map back. -/
theorem C101_twice (el : Second) {σ : Vec} (h : ∀ i, σ i = 1 ∨ σ i = -1) :
    (el.scale σ).scale σ = el := by
  have sq : ∀ i, σ i * σ i = 1 := fun i => by rcases h i with e | e <;> rw [e] <;> norm_num
  obtain ⟨k, R, T, len⟩ := el
  have e : ∀ {k k' : Vec} {R R' : Mat} {T T' : Tensor}, k = k' → R = R' → T = T' →
      (⟨k, R, T, len⟩ : Second) = ⟨k', R', T', len⟩ := by
    rintro _ _ _ _ _ _ rfl rfl rfl; rfl
  refine e ?_ ?_ ?_
  · funext i; show k i * σ i * σ i = k i; linear_combination k i * sq i
  · funext i j; show R i j * σ i * σ j * σ i * σ j = R i j; linear_combination R i j * σ j * σ j * sq i + R i j * sq j
  · funext i j l
    show T i j l * σ i * σ j * σ l * σ i * σ j * σ l = T i j l
    linear_combination T i j l * (σ j * σ j) * (σ l * σ l) * sq i + T i j l * (σ l * σ l) * sq j
      + T i j l * sq l

/-- **C101.** Other factors do not give the map in scaled coordinates: the identity becomes a
magnification of `x` by four when `x` is scaled by two. -/
theorem C101_scale_violated :
    ∃ (el : Second) (σ z : Vec), (∀ i, 0 < σ i) ∧ (∀ z, el.apply z = z)
      ∧ (el.scale σ).apply (fun i => σ i * z i) ≠ fun i => σ i * el.apply z i := by
  refine ⟨⟨0, 1, fun _ _ _ => 0, 0⟩, fun i => if i = 0 then 2 else 1, fun _ => 1, ?_, ?_, ?_⟩
  · intro i
    dsimp only
    split_ifs <;> norm_num
  · intro z
    funext i
    simp [Second.apply, Matrix.one_apply]
  · intro h
    have := congrFun h 0
    simp [Second.apply, Second.scale, Fin.sum_univ_six, Matrix.one_apply] at this
    norm_num at this

end Verif.Taylor
