import Verif.Twiss.Functions
import Mathlib.Analysis.Calculus.FDeriv.Comp
import Mathlib.Analysis.Calculus.FDeriv.Add
import Mathlib.Analysis.Calculus.FDeriv.Pi
import Mathlib.Analysis.Calculus.Deriv.Comp
import Mathlib.Analysis.Calculus.Deriv.Prod
import Mathlib.Analysis.Calculus.Deriv.Mul
import Mathlib.Analysis.Calculus.Deriv.Add

/-! # Transfer matrices by finite differences; slip factor -/

namespace Verif.Twiss

open Matrix

theorem Steps.width (st : Steps) (j : Fin 6) : st.high j - st.low j = 2 * st.dd j := by
  fin_cases j <;> simp [Steps.high, Steps.low, Steps.dd] <;> ring

/-- All particles of the stencil are different. -/
def Steps.Proper (st : Steps) : Prop := ∀ j, st.dd j ≠ 0

/-- **C97.** For a map of the form `z ↦ A z + b` the R matrix measured by tracking is `A`: for any
orbit and any size of the steps. -/
theorem C97_affine (st : Steps) (h : st.Proper) {f : Vec → Vec} {A : Mat} (hf : Affine f A)
    (co : Vec) : finiteR st f co = A := by
  ext i j
  have e : f (co + Pi.single j (st.high j)) i - f (co + Pi.single j (st.low j)) i
      = A i j * (2 * st.dd j) := by
    have := congrFun (hf (co + Pi.single j (st.high j)) (co + Pi.single j (st.low j))) i
    rw [Pi.sub_apply] at this
    rw [this, add_sub_add_left_eq_sub, Matrix.mulVec_sub, Pi.sub_apply, Matrix.mulVec_single,
      Matrix.mulVec_single]
    simp only [Pi.smul_apply, Matrix.col_apply, MulOpposite.smul_eq_mul_unop, MulOpposite.unop_op]
    rw [← st.width]
    ring
  rw [finiteR, e]
  have := h j
  field_simp

example (b co : Vec) : finiteR ⟨fun _ => 1e-6, 1e-5, -1.1e-5⟩ (fun z => exQuad *ᵥ z + b) co = exQuad := by
  apply C97_affine
  · intro j
    fin_cases j <;> simp [Steps.dd] <;> norm_num
  · intro z w
    rw [Matrix.mulVec_sub, add_sub_add_right_eq_sub]

/-- Maps with a second order: `f z = c + A z + T z z`. -/
def SecondOrder (f : Vec → Vec) (c : Vec) (A : Mat) (T : Fin 6 → Fin 6 → Fin 6 → ℝ) : Prop :=
  (∀ i j k, T i j k = T i k j)
    ∧ ∀ z i, f z i = c i + ∑ j, A i j * z j + ∑ j, ∑ k, T i j k * z j * z k

/-- First order of `SecondOrder` maps around `z`. -/
def around (A : Mat) (T : Fin 6 → Fin 6 → Fin 6 → ℝ) (z : Vec) : Mat := fun i j =>
  A i j + 2 * ∑ k, T i j k * z k

theorem secondOrder_step {f : Vec → Vec} {c : Vec} {A : Mat} {T : Fin 6 → Fin 6 → Fin 6 → ℝ}
    (h : SecondOrder f c A T) (z : Vec) (j : Fin 6) (t : ℝ) (i : Fin 6) :
    f (z + Pi.single j t) i = f z i + around A T z i j * t + T i j j * t ^ 2 := by
  obtain ⟨hs, hf⟩ := h
  rw [hf, hf, around]
  have e1 : ∑ m, A i m * (z + Pi.single j t : Vec) m = ∑ m, A i m * z m + A i j * t := by
    simp only [Pi.add_apply, mul_add, Finset.sum_add_distrib]
    congr 1
    rw [Finset.sum_eq_single j]
    · simp
    · intro b _ hb; simp [Pi.single_eq_of_ne hb]
    · intro hb; exact absurd (Finset.mem_univ j) hb
  have e2 : ∑ m, ∑ k, T i m k * (z + Pi.single j t : Vec) m * (z + Pi.single j t : Vec) k
      = ∑ m, ∑ k, T i m k * z m * z k + 2 * (∑ k, T i j k * z k) * t + T i j j * t ^ 2 := by
    have inner : ∀ m (u : ℝ), ∑ k, T i m k * u * (z + Pi.single j t : Vec) k
        = ∑ k, T i m k * u * z k + T i m j * u * t := by
      intro m u
      simp only [Pi.add_apply, mul_add, Finset.sum_add_distrib]
      congr 1
      rw [Finset.sum_eq_single j]
      · simp
      · intro b _ hb; simp [Pi.single_eq_of_ne hb]
      · intro hb; exact absurd (Finset.mem_univ j) hb
    simp only [inner]
    simp only [Pi.add_apply, mul_add, add_mul, Finset.sum_add_distrib]
    have o1 : ∑ m, ∑ k, T i m k * (Pi.single j t : Vec) m * z k = (∑ k, T i j k * z k) * t := by
      rw [Finset.sum_eq_single j]
      · simp only [Pi.single_eq_same, Finset.sum_mul]
        exact Finset.sum_congr rfl fun k _ => by ring
      · intro b _ hb; simp [Pi.single_eq_of_ne hb]
      · intro hb; exact absurd (Finset.mem_univ j) hb
    have o2 : ∑ m, T i m j * z m * t = (∑ k, T i j k * z k) * t := by
      rw [Finset.sum_mul]
      exact Finset.sum_congr rfl fun k _ => by rw [hs i k j]
    have o3 : ∑ m, T i m j * (Pi.single j t : Vec) m * t = T i j j * t ^ 2 := by
      rw [Finset.sum_eq_single j]
      · simp only [Pi.single_eq_same]; ring
      · intro b _ hb; simp [Pi.single_eq_of_ne hb]
      · intro hb; exact absurd (Finset.mem_univ j) hb
    rw [o1, o2, o3]
    ring
  rw [e1, e2]
  ring

/-- The R matrix measured on a second order map: in the column of `pzeta` the two steps are not
opposite (they are opposite in `delta`), which leaves an error. -/
theorem finiteR_secondOrder (st : Steps) (h : st.Proper) {f : Vec → Vec} {c : Vec} {A : Mat}
    {T : Fin 6 → Fin 6 → Fin 6 → ℝ} (hf : SecondOrder f c A T) (co : Vec) (i j : Fin 6) :
    finiteR st f co i j = around A T co i j + T i j j * (st.high j + st.low j) := by
  rw [finiteR, secondOrder_step hf, secondOrder_step hf]
  have w := st.width j
  have n := h j
  have e : f co i + around A T co i j * st.high j + T i j j * st.high j ^ 2
        - (f co i + around A T co i j * st.low j + T i j j * st.low j ^ 2)
      = (around A T co i j + T i j j * (st.high j + st.low j)) * (st.high j - st.low j) := by ring
  rw [e, w]
  field_simp

theorem Steps.opposite (st : Steps) {j : Fin 6} (hj : j ≠ 5) : st.high j + st.low j = 0 := by
  fin_cases j <;> simp [Steps.high, Steps.low] at hj ⊢

/-- **C97.** With sextupole-like second orders the columns of `x, px, y, py, zeta` of the measured R
matrix are still exact around any orbit. -/
theorem C97_second_order (st : Steps) (h : st.Proper) {f : Vec → Vec} {c : Vec} {A : Mat}
    {T : Fin 6 → Fin 6 → Fin 6 → ℝ} (hf : SecondOrder f c A T) (co : Vec) (i j : Fin 6)
    (hj : j ≠ 5) : finiteR st f co i j = around A T co i j := by
  rw [finiteR_secondOrder st h hf, st.opposite hj, mul_zero, add_zero]

/-- **C97.** The column of `pzeta` is not exact on second order maps: a map with `zeta' = zeta + pzeta²`
shows an entry which depends on the asymmetry of the two steps. -/
theorem C97_pzeta_violated :
    ∃ (st : Steps) (f : Vec → Vec) (c : Vec) (A : Mat) (T : Fin 6 → Fin 6 → Fin 6 → ℝ),
      st.Proper ∧ SecondOrder f c A T ∧ finiteR st f 0 4 5 ≠ around A T 0 4 5 := by
  refine ⟨⟨fun _ => 1, 1, -2⟩, fun z i => if i = 4 then z 5 * z 5 else 0, 0, 0,
    fun i j k => if i = 4 ∧ j = 5 ∧ k = 5 then 1 else 0, ?_, ⟨?_, ?_⟩, ?_⟩
  · intro j
    fin_cases j <;> simp [Steps.dd]
    norm_num
  · intro i j k
    have : (i = 4 ∧ j = 5 ∧ k = 5) ↔ (i = 4 ∧ k = 5 ∧ j = 5) := by tauto
    simp only [this]
  · intro z i
    by_cases hi : i = 4 <;> simp [hi, Fin.sum_univ_six]
  · simp [finiteR, around, Steps.high, Steps.low, Steps.dd]
    norm_num

theorem sum_single (g : Fin 6 → ℝ) (k : Fin 6) (t : ℝ) :
    ∑ m, g m * (Pi.single k t : Vec) m = g k * t := by
  rw [Finset.sum_eq_single k]
  · simp
  · intro b _ hb; simp [Pi.single_eq_of_ne hb]
  · intro hb; exact absurd (Finset.mem_univ k) hb

theorem around_add (A : Mat) (T : Fin 6 → Fin 6 → Fin 6 → ℝ) (co : Vec) (i j k : Fin 6) (t : ℝ) :
    around A T (co + Pi.single k t) i j = around A T co i j + 2 * T i j k * t := by
  have : ∑ m, T i j m * (co + Pi.single k t : Vec) m = ∑ m, T i j m * co m + T i j k * t := by
    simp only [Pi.add_apply, mul_add, Finset.sum_add_distrib, sum_single]
  rw [around, around, this]
  ring

theorem T_entry (T' u v a b t : ℝ) (n : u - v ≠ 0) (h1 : a = T' + 2 * t * u) (h2 : b = T' + 2 * t * v) :
    (1 / 2) * (a - b) / (u - v) = t := by
  have e : (1 / 2) * (a - b) = t * (u - v) := by rw [h1, h2]; ring
  rw [e, mul_div_assoc, div_self n, mul_one]

/-- **C97.** The T matrix of a second order map is found exactly, for every orbit and all steps, apart
from the entries `(i, 5, 5)`. -/
theorem C97_T_matrix_partial (stepsAt : Vec → Steps) (h : ∀ p, (stepsAt p).Proper)
    (same : ∀ p q : Vec, p 5 = q 5 → stepsAt p = stepsAt q) {hi lo : Fin 6 → ℝ}
    (hl : ∀ k, hi k ≠ lo k) {f : Vec → Vec} {c : Vec} {A : Mat} {T : Fin 6 → Fin 6 → Fin 6 → ℝ}
    (hf : SecondOrder f c A T) (co : Vec) (i j k : Fin 6) (hjk : ¬ (j = 5 ∧ k = 5)) :
    finiteT stepsAt hi lo f co i j k = T i j k := by
  have w : ∀ t : ℝ, (co + Pi.single k t : Vec) k = co k + t := fun t => by
    rw [Pi.add_apply, Pi.single_eq_same]
  have n : (co + Pi.single k (hi k) : Vec) k - (co + Pi.single k (lo k) : Vec) k ≠ 0 := by
    rw [w, w, add_sub_add_left_eq_sub]
    exact sub_ne_zero.mpr (hl k)
  obtain ⟨a, ha⟩ : ∃ a, ∀ t, t = hi k ∨ t = lo k →
      T i j j * ((stepsAt (co + Pi.single k t)).high j + (stepsAt (co + Pi.single k t)).low j)
        = a := by
    by_cases hj : j = 5
    · have hk : (5 : Fin 6) ≠ k := fun e => hjk ⟨hj, e.symm⟩
      refine ⟨T i j j * ((stepsAt co).high j + (stepsAt co).low j), fun t _ => ?_⟩
      have e : stepsAt (co + Pi.single k t) = stepsAt co :=
        same _ _ (by rw [Pi.add_apply, Pi.single_eq_of_ne hk, add_zero])
      rw [e]
    · exact ⟨0, fun t _ => by rw [Steps.opposite _ hj, mul_zero]⟩
  unfold finiteT
  refine T_entry (around A T co i j - 2 * T i j k * co k + a) _ _ _ _ _ n ?_ ?_
  · rw [finiteR_secondOrder _ (h _) hf, around_add, ha _ (Or.inl rfl), w]
    ring
  · rw [finiteR_secondOrder _ (h _) hf, around_add, ha _ (Or.inr rfl), w]
    ring

example : ∀ k : Fin 6, (fun _ => (1e-6 : ℝ)) k ≠ (fun _ => (-1e-6 : ℝ)) k := by
  intro k; norm_num

/-- **C97.** For any differentiable map the measured R matrix tends to its derivative when the steps
tend to zero. -/
theorem C97_limit {f : Vec → Vec} {co : Vec} {D : Vec →L[ℝ] Vec} (hf : HasFDerivAt f D co)
    (i j : Fin 6) (ε : ℝ) (hε : 0 < ε) :
    ∃ δ > 0, ∀ st : Steps, 0 < st.high j → st.high j < δ → st.low j < 0 → -δ < st.low j →
      |finiteR st f co i j - D (Pi.single j 1) i| < ε := by
  have hline : HasDerivAt (fun t : ℝ => f (co + Pi.single j t) i) (D (Pi.single j 1) i) 0 := by
    have h1 : HasDerivAt (fun t : ℝ => co + t • (Pi.single j (1 : ℝ) : Vec)) (Pi.single j 1) 0 := by
      have := ((hasDerivAt_id (0 : ℝ)).smul_const (Pi.single j (1 : ℝ) : Vec)).const_add co
      simpa using this
    have h2 : HasFDerivAt f D (co + (0 : ℝ) • (Pi.single j (1 : ℝ) : Vec)) := by simpa using hf
    have h3 := h2.comp_hasDerivAt (0 : ℝ) h1
    have h4 := (hasDerivAt_pi.mp h3) i
    have e : (fun t : ℝ => f (co + Pi.single j t) i)
        = fun t : ℝ => (f ∘ fun t : ℝ => co + t • (Pi.single j (1 : ℝ) : Vec)) t i := by
      funext t
      simp only [Function.comp_apply]
      congr 2
      rw [← Pi.single_smul]
      simp
    rw [e]
    exact h4
  rw [hasDerivAt_iff_isLittleO_nhds_zero] at hline
  have hb := (Asymptotics.isLittleO_iff.mp hline) (half_pos hε)
  rw [Metric.eventually_nhds_iff] at hb
  obtain ⟨δ, hδ, hb⟩ := hb
  refine ⟨δ, hδ, fun st h0 h1 l0 l1 => ?_⟩
  have wd : 0 < st.high j - st.low j := by linarith
  have ba := hb (y := st.high j) (by rw [Real.dist_eq, sub_zero, abs_of_pos h0]; exact h1)
  have bb := hb (y := st.low j) (by rw [Real.dist_eq, sub_zero, abs_of_neg l0]; linarith)
  simp only [zero_add, Real.norm_eq_abs, smul_eq_mul, abs_of_pos h0] at ba
  simp only [zero_add, Real.norm_eq_abs, smul_eq_mul, abs_of_neg l0] at bb
  rw [finiteR, ← st.width]
  generalize st.high j = a at *
  generalize st.low j = b at *
  generalize f (co + Pi.single j a) i = fa at *
  generalize f (co + Pi.single j b) i = fb at *
  generalize f (co + Pi.single j 0) i = f0 at *
  generalize D (Pi.single j 1) i = d at *
  have e : (fa - fb) / (a - b) - d = ((fa - f0 - a * d) - (fb - f0 - b * d)) / (a - b) := by
    field_simp
    ring
  rw [e, abs_div, abs_of_pos wd, div_lt_iff₀ wd]
  calc |fa - f0 - a * d - (fb - f0 - b * d)| ≤ |fa - f0 - a * d| + |fb - f0 - b * d| := abs_sub _ _
    _ ≤ ε / 2 * a + ε / 2 * -b := add_le_add ba bb
    _ < ε * (a - b) := by nlinarith

/-! Slip factor -/

/-- Unit vector of `zeta`. -/
def ez (t : ℝ) : Vec := ![0, 0, 0, 0, t, 0]

theorem ez_smul (a t : ℝ) : a • ez t = ez (a * t) := by
  funext i
  fin_cases i <;> simp [ez]

/-- **C98.** 6d method: the reported slip is the one of the definition (a particle with one unit of
`pzeta` which comes back after one turn with all coordinates unchanged except `zeta`), and no other
number is. -/
theorem C98_slip_6d {R : Mat} (hR : IsUnit (R - 1).det) {dz : ℝ} (hdz : dz ≠ 0)
    (h5 : ((R - 1)⁻¹ *ᵥ ez 1) 5 ≠ 0) (η : ℝ) : IsSlip R η ↔ η = slip6d R dz := by
  have lin : (R - 1)⁻¹ *ᵥ ![0, 0, 0, 0, dz, 0] = dz • ((R - 1)⁻¹ *ᵥ ez 1) := by
    rw [← Matrix.mulVec_smul, ez_smul, mul_one]; rfl
  have val : slip6d R dz = 1 / ((R - 1)⁻¹ *ᵥ ez 1) 5 := by
    rw [slip6d, lin, Pi.smul_apply, smul_eq_mul]
    field_simp
  rw [val]
  constructor
  · rintro ⟨z, z5, hz⟩
    have hz : (R - 1) *ᵥ z = ez η := by
      rw [Matrix.sub_mulVec, Matrix.one_mulVec, hz]
      exact add_sub_cancel_left _ _
    have hz : z = η • ((R - 1)⁻¹ *ᵥ ez 1) := by
      rw [← Matrix.mulVec_smul, ez_smul, mul_one, ← hz, Matrix.mulVec_mulVec,
        Matrix.nonsing_inv_mul _ hR, Matrix.one_mulVec]
    have := congrFun hz 5
    rw [z5, Pi.smul_apply, smul_eq_mul] at this
    field_simp
    exact this.symm
  · rintro rfl
    refine ⟨(1 / ((R - 1)⁻¹ *ᵥ ez 1) 5) • ((R - 1)⁻¹ *ᵥ ez 1), ?_, ?_⟩
    · rw [Pi.smul_apply, smul_eq_mul]
      field_simp
    · generalize 1 / ((R - 1)⁻¹ *ᵥ ez 1) 5 = η
      have : (R - 1) *ᵥ (η • ((R - 1)⁻¹ *ᵥ ez 1)) = ez η := by
        rw [Matrix.mulVec_smul, Matrix.mulVec_mulVec, Matrix.mul_nonsing_inv _ hR,
          Matrix.one_mulVec, ez_smul, mul_one]
      rw [Matrix.sub_mulVec, Matrix.one_mulVec] at this
      exact eq_add_of_sub_eq' this

/-- No RF: `pzeta` is conserved and nothing depends on `zeta`. -/
def NoRf (R : Mat) : Prop := (∀ z : Vec, (R *ᵥ z) 5 = z 5) ∧ ∀ t, R *ᵥ ez t = ez t

theorem slipMat_mulVec (R : Mat) (z : Vec) : slipMat R *ᵥ z
    = ![(R *ᵥ z - z) 0, (R *ᵥ z - z) 1, (R *ᵥ z - z) 2, (R *ᵥ z - z) 3, z 4, z 5] := by
  have h : ∀ i : Fin 6, (R *ᵥ z - z) i = ((R - 1) *ᵥ z) i := fun i => by
    rw [Matrix.sub_mulVec, Matrix.one_mulVec]
  simp only [h]
  funext i
  fin_cases i <;> simp [slipMat, Matrix.mulVec, dotProduct, Fin.sum_univ_six]

/-- **C98.** 4d method: for a ring without RF the reported slip is the one of the definition. -/
theorem C98_slip_4d {R : Mat} (hR : IsUnit (slipMat R).det) (hrf : NoRf R) {delta : ℝ}
    (hd : delta ≠ 0) (η : ℝ) : IsSlip R η ↔ η = slip4d R delta := by
  obtain ⟨h5, h4⟩ := hrf
  generalize hx : (slipMat R)⁻¹ *ᵥ ![0, 0, 0, 0, 0, delta] = xx
  have hs : slip4d R delta = ((R *ᵥ xx) 4 - xx 4) / delta := by rw [← hx]; rfl
  have hx : slipMat R *ᵥ xx = ![0, 0, 0, 0, 0, delta] := by
    rw [← hx, Matrix.mulVec_mulVec, Matrix.mul_nonsing_inv _ hR, Matrix.one_mulVec]
  have key : ∀ z : Vec, z 5 = 1 → R *ᵥ z = z + ![0, 0, 0, 0, η, 0] → delta • (z - ez (z 4)) = xx := by
    intro z z5 hz
    have e : slipMat R *ᵥ (delta • (z - ez (z 4))) = ![0, 0, 0, 0, 0, delta] := by
      have hz' : R *ᵥ (z - ez (z 4)) - (z - ez (z 4)) = ez η := by
        rw [Matrix.mulVec_sub, hz, h4]
        funext i
        fin_cases i <;> simp [ez]
      rw [Matrix.mulVec_smul, slipMat_mulVec, hz']
      funext i
      fin_cases i <;> simp [ez, z5]
    have := congrArg ((slipMat R)⁻¹ *ᵥ ·) (e.trans hx.symm)
    simpa only [Matrix.mulVec_mulVec, Matrix.nonsing_inv_mul _ hR, Matrix.one_mulVec] using this
  rw [slipMat_mulVec] at hx
  have c := congrFun hx
  have c0 := c 0
  have c1 := c 1
  have c2 := c 2
  have c3 := c 3
  have c4 := c 4
  have c5 := c 5
  simp at c0 c1 c2 c3 c4 c5
  constructor
  · rintro ⟨z, z5, hz⟩
    have e := key z z5 hz
    rw [hs, ← e, Matrix.mulVec_smul, Matrix.mulVec_sub, hz, h4]
    simp [ez]
    rw [← mul_sub]
    field_simp
    ring
  · rintro rfl
    refine ⟨(1 / delta) • xx, ?_, ?_⟩
    · simp [c5, hd]
    · rw [Matrix.mulVec_smul]
      have := h5 xx
      funext i
      fin_cases i <;> simp [hs]
      · left; linarith
      · left; linarith
      · left; linarith
      · left; linarith
      · field_simp
        ring
      · left; exact this

/-- Thin cavity. -/
def cavity (k : ℝ) : Mat :=
  !![1, 0, 0, 0, 0, 0; 0, 1, 0, 0, 0, 0; 0, 0, 1, 0, 0, 0; 0, 0, 0, 1, 0, 0; 0, 0, 0, 0, 1, 0;
     0, 0, 0, 0, k, 1]

theorem cavity_mulVec (k : ℝ) (z : Vec) : cavity k *ᵥ z
    = ![z 0, z 1, z 2, z 3, z 4, k * z 4 + z 5] := by
  funext i
  fin_cases i <;> simp [cavity, Matrix.mulVec, dotProduct, Fin.sum_univ_six]

/-- **C98.** The two methods agree: with one cavity anywhere in the ring, of any strength, the 6d
method gives the slip which the 4d method gives without the cavity. -/
theorem C98_methods {A B : Mat} (hA : NoRf A) (hB : NoRf B) (k : ℝ)
    (h4 : IsUnit (slipMat (A * B)).det) (h6 : IsUnit (A * cavity k * B - 1).det)
    (h5 : ((A * cavity k * B - 1)⁻¹ *ᵥ ez 1) 5 ≠ 0) {dz delta : ℝ} (hdz : dz ≠ 0)
    (hd : delta ≠ 0) :
    slip6d (A * cavity k * B) dz = slip4d (A * B) delta := by
  have hAB : NoRf (A * B) := by
    refine ⟨fun z => ?_, fun t => ?_⟩
    · rw [← Matrix.mulVec_mulVec, hA.1, hB.1]
    · rw [← Matrix.mulVec_mulVec, hB.2, hA.2]
  obtain ⟨z, z5, hz⟩ := (C98_slip_4d h4 hAB hd _).mpr rfl
  symm
  apply (C98_slip_6d h6 hdz h5 _).mp
  refine ⟨z - ez ((B *ᵥ z) 4), by simp [ez, z5], ?_⟩
  have e : cavity k *ᵥ (B *ᵥ (z - ez ((B *ᵥ z) 4))) = B *ᵥ (z - ez ((B *ᵥ z) 4)) := by
    rw [cavity_mulVec, Matrix.mulVec_sub, hB.2]
    funext i
    fin_cases i <;> simp [ez]
  rw [← Matrix.mulVec_mulVec, ← Matrix.mulVec_mulVec, e, Matrix.mulVec_mulVec, Matrix.mulVec_sub, hz,
    hAB.2]
  abel

/-- A ring with a quarter of a turn of phase advance in both planes. -/
def exRing : Mat :=
  !![0, 1, 0, 0, 0, 0; -1, 0, 0, 0, 0, 0; 0, 0, 0, 1, 0, 0; 0, 0, -1, 0, 0, 0; 0, 0, 0, 0, 1, -2;
     0, 0, 0, 0, 0, 1]

theorem exRing_mulVec (z : Vec) : exRing *ᵥ z = ![z 1, -z 0, z 3, -z 2, z 4 - 2 * z 5, z 5] := by
  funext i
  fin_cases i <;> simp [exRing, Matrix.mulVec, dotProduct, Fin.sum_univ_six]
  ring

theorem exRing_noRf : NoRf exRing := by
  refine ⟨fun z => ?_, fun t => ?_⟩
  · rw [exRing_mulVec]; simp
  · rw [exRing_mulVec]
    funext i
    fin_cases i <;> simp [ez]

theorem exRing_4d : IsUnit (slipMat exRing).det := by
  apply Matrix.isUnit_det_of_right_inverse (B := !![-1/2, -1/2, 0, 0, 0, 0; 1/2, -1/2, 0, 0, 0, 0;
    0, 0, -1/2, -1/2, 0, 0; 0, 0, 1/2, -1/2, 0, 0; 0, 0, 0, 0, 1, 0; 0, 0, 0, 0, 0, 1])
  ext i j
  fin_cases i <;> fin_cases j <;>
    simp [slipMat, exRing, Matrix.mul_apply, Fin.sum_univ_six] <;> norm_num

theorem exRing_cav : exRing * cavity 1 * 1
    = !![0, 1, 0, 0, 0, 0; -1, 0, 0, 0, 0, 0; 0, 0, 0, 1, 0, 0; 0, 0, -1, 0, 0, 0; 0, 0, 0, 0, -1, -2;
         0, 0, 0, 0, 1, 1] := by
  rw [Matrix.mul_one]
  ext i j
  fin_cases i <;> fin_cases j <;>
    simp [exRing, cavity, Matrix.mul_apply, Fin.sum_univ_six] <;> norm_num

theorem exRing_inv : (exRing * cavity 1 * 1 - 1)
    * !![-1/2, -1/2, 0, 0, 0, 0; 1/2, -1/2, 0, 0, 0, 0; 0, 0, -1/2, -1/2, 0, 0;
         0, 0, 1/2, -1/2, 0, 0; 0, 0, 0, 0, 0, 1; 0, 0, 0, 0, -1/2, -1] = 1 := by
  rw [exRing_cav]
  ext i j
  fin_cases i <;> fin_cases j <;> simp [Matrix.mul_apply, Fin.sum_univ_six] <;> norm_num

/-- The hypotheses of the theorems on the slip factor are met. -/
example : slip6d (exRing * cavity 1 * 1) 1e-3 = slip4d (exRing * 1) 1e-3 := by
  have n1 : NoRf 1 := ⟨fun z => by rw [Matrix.one_mulVec], fun t => by rw [Matrix.one_mulVec]⟩
  apply C98_methods exRing_noRf n1 1
  · rw [Matrix.mul_one]; exact exRing_4d
  · exact Matrix.isUnit_det_of_right_inverse exRing_inv
  · rw [Matrix.inv_eq_right_inv exRing_inv]
    simp [ez, Matrix.mulVec, dotProduct, Fin.sum_univ_six]
  · norm_num
  · norm_num

end Verif.Twiss
