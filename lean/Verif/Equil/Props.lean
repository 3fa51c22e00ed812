import Verif.Equil.Model
import Mathlib.Analysis.SpecificLimits.Basic
import Mathlib.Analysis.Complex.Polynomial.Basic
import Mathlib.LinearAlgebra.Matrix.Charpoly.Eigs

/-!
# Damping and equilibrium with radiation: properties (C132, C133)
-/

namespace Verif.Equil

open Matrix Classical

noncomputable section

/-! ## C132: damping -/

theorem total_add (f g : Row → ℝ) (rows : List Row) : total (fun r => f r + g r) rows = total f rows + total g rows := by
  induction rows with
  | nil => simp [total]
  | cons r rs ih =>
    simp only [total, List.map_cons, List.sum_cons] at ih ⊢
    rw [ih]; ring

/-- **C132, Robinson.**  The damping partition numbers from the radiation integrals add up to four. -/
theorem C132_partition (rows : List Row) : jx rows + jy rows + jz rows = 4 := by
  unfold jx jy jz i4
  rw [total_add]
  unfold i4x i4y
  ring

/-- **C132, rates.**  The damping rates are the partition numbers times the relative energy loss in half a turn, per revolution of a particle with the velocity of light. -/
theorem C132_rates (p : Ref) (rows : List Row) (h2 : i2 rows ≠ 0) (hE : p.energy0 ≠ 0) :
    dampX p rows = jx rows * (radLoss p rows / (2 * p.energy0)) * (p.clight / p.lineLength)
      ∧ dampY p rows = jy rows * (radLoss p rows / (2 * p.energy0)) * (p.clight / p.lineLength)
      ∧ dampZ p rows = jz rows * (radLoss p rows / (2 * p.energy0)) * (p.clight / p.lineLength) := by
  refine ⟨?_, ?_, ?_⟩
  · unfold dampX jx radLoss
    field_simp
  · unfold dampY jy radLoss
    field_simp
  · unfold dampZ jz radLoss
    field_simp

/-- **C132, determinant.**  The damping constants from the eigenvalues add up to half the logarithm of the contraction of phase space in the elements, whatever the
elements are. -/
theorem C132_determinant (Rs : List (Matrix (Fin 6) (Fin 6) ℝ)) (l1 l2 l3 : ℂ) (hdet : ∀ R ∈ Rs, R.det ≠ 0)
    (hroots : (Rs.prod.map Complex.ofReal).charpoly.roots = {l1, (starRingEnd ℂ) l1, l2, (starRingEnd ℂ) l2, l3, (starRingEnd ℂ) l3}) :
    dampingTurns l1 + dampingTurns l2 + dampingTurns l3 = -(Rs.map fun R => Real.log |R.det|).sum / 2 := by
  have hprod : Rs.prod.det = (Rs.map fun R => R.det).prod := by
    have := map_list_prod (Matrix.detMonoidHom (n := Fin 6) (R := ℝ)) Rs
    simpa [Matrix.coe_detMonoidHom] using this
  have hne : Rs.prod.det ≠ 0 := by
    rw [hprod]
    apply List.prod_ne_zero
    intro h0
    obtain ⟨R, hR, h0⟩ := List.mem_map.mp h0
    exact hdet R hR h0
  have hlog : (Rs.map fun R => Real.log |R.det|).sum = Real.log |Rs.prod.det| := by
    rw [hprod]
    clear hroots hprod hne
    induction Rs with
    | nil => simp
    | cons R Rs ih =>
      have h1 := hdet R List.mem_cons_self
      have h2 : (Rs.map fun R => R.det).prod ≠ 0 := by
        apply List.prod_ne_zero
        intro h0
        obtain ⟨R, hR, h0⟩ := List.mem_map.mp h0
        exact hdet R (List.mem_cons_of_mem _ hR) h0
      simp only [List.map_cons, List.sum_cons, List.prod_cons]
      rw [ih fun R hR => hdet R (List.mem_cons_of_mem _ hR), abs_mul, Real.log_mul (abs_ne_zero.mpr h1) (abs_ne_zero.mpr h2)]
  have hd : ((Rs.prod.det : ℝ) : ℂ) = l1 * (starRingEnd ℂ) l1 * (l2 * (starRingEnd ℂ) l2) * (l3 * (starRingEnd ℂ) l3) := by
    have h := Matrix.det_eq_prod_roots_charpoly (Rs.prod.map Complex.ofReal)
    rw [hroots] at h
    have hm : (Rs.prod.map Complex.ofReal).det = ((Rs.prod.det : ℝ) : ℂ) := (RingHom.map_det Complex.ofRealHom Rs.prod).symm
    rw [hm] at h
    rw [h]
    simp only [Multiset.insert_eq_cons, Multiset.prod_cons, Multiset.prod_singleton]
    ring
  have hr : |Rs.prod.det| = ‖l1‖ ^ 2 * ‖l2‖ ^ 2 * ‖l3‖ ^ 2 := by
    have : ‖((Rs.prod.det : ℝ) : ℂ)‖ = ‖l1‖ ^ 2 * ‖l2‖ ^ 2 * ‖l3‖ ^ 2 := by
      rw [hd]
      simp only [norm_mul, RCLike.norm_conj]
      ring
    rwa [Complex.norm_real, Real.norm_eq_abs] at this
  have hpos : ‖l1‖ ^ 2 * ‖l2‖ ^ 2 * ‖l3‖ ^ 2 ≠ 0 := by rw [← hr]; exact abs_ne_zero.mpr hne
  have n1 : ‖l1‖ ≠ 0 := fun h => hpos (by rw [h]; ring)
  have n2 : ‖l2‖ ≠ 0 := fun h => hpos (by rw [h]; ring)
  have n3 : ‖l3‖ ≠ 0 := fun h => hpos (by rw [h]; ring)
  rw [hlog, hr, Real.log_mul (by positivity) (by positivity), Real.log_mul (by positivity) (by positivity), Real.log_pow, Real.log_pow, Real.log_pow]
  unfold dampingTurns
  push_cast
  ring

/-- Energy which the cavities give and energy which is radiated, element by element. -/
structure Step where
  rf : ℝ
  radiated : ℝ

/-- Relative energies along the ring. -/
def along (e : ℝ) : List Step → List ℝ
  | [] => [e]
  | s :: l => e :: along (e + s.rf - s.radiated) l

theorem diffs_along (e : ℝ) (l : List Step) : diffs (along e l) = l.map fun s => s.rf - s.radiated := by
  induction l generalizing e with
  | nil => rfl
  | cons s l ih =>
    have h : ∀ e', along e' l = e' :: (along e' l).tail := by intro e'; cases l <;> rfl
    simp only [along, List.map_cons]
    rw [h, diffs, ← h, ih]
    congr 1
    ring

/-- **C132, energy loss.**  If cavities do not decelerate and elements which radiate are not cavities, the reported energy loss is the radiated energy. -/
theorem C132_loss_partial (e p0c : ℝ) (l : List Step) (h : ∀ s ∈ l, (s.radiated = 0 ∧ 0 ≤ s.rf) ∨ (s.rf = 0 ∧ 0 ≤ s.radiated)) :
    energyLoss (along e l) p0c = (l.map fun s => s.radiated).sum * p0c := by
  unfold energyLoss
  rw [diffs_along]
  congr 1
  induction l with
  | nil => simp
  | cons s l ih =>
    have ih := ih fun a ha => h a (List.mem_cons_of_mem _ ha)
    simp only [List.map_cons, List.sum_cons, List.filter_cons]
    rcases h s List.mem_cons_self with ⟨h1, h2⟩ | ⟨h1, h2⟩
    · rw [if_neg (by simp [h1, h2]), ih, h1, zero_add]
    · rcases lt_or_eq_of_le h2 with h3 | h3
      · rw [if_pos (by simp [h1, h3]), List.sum_cons, neg_add, ih, h1]; ring
      · rw [if_neg (by simp [h1, ← h3]), ih, ← h3, zero_add]

/-- **C132, violated: decelerating cavities.**  A ring in which one cavity gives 2, another takes 1, and 1 is radiated: the reported loss is 2. -/
theorem C132_loss_violated : energyLoss (along 0 [⟨2, 0⟩, ⟨-1, 0⟩, ⟨0, 1⟩]) 1 = 2 ∧ ([⟨2, 0⟩, ⟨-1, 0⟩, ⟨0, 1⟩] : List Step).map (fun s => s.radiated) = [0, 0, 1] := by
  constructor
  · unfold energyLoss
    rw [diffs_along]
    norm_num [List.filter_cons]
  · rfl

/-- Curly H is not negative. -/
theorem C132_curly (bet alf gam d dp : ℝ) (hb : 0 < bet) (hg : bet * gam - alf ^ 2 = 1) : 0 ≤ curlyH bet alf gam d dp := by
  have : bet * curlyH bet alf gam d dp = (bet * dp + alf * d) ^ 2 + d ^ 2 := by
    unfold curlyH
    linear_combination d ^ 2 * hg
  by_contra hneg
  have := mul_neg_of_pos_of_neg hb (not_le.mp hneg)
  nlinarith [sq_nonneg (bet * dp + alf * d), sq_nonneg d]

/-- Relations between the constants: mass in kg and in eV, classical radius in terms of the charge is not needed. -/
structure Consistent (p : Ref) : Prop where
  mass : p.mass0 * p.qe = p.massKg * p.clight ^ 2
  energy : p.energy0 * p.qe = p.massKg * p.clight ^ 2 * p.gamma0
  massPos : 0 < p.massKg
  clight : 0 < p.clight
  gamma : 0 < p.gamma0
  hbar : 0 < p.hbar
  qe : 0 < p.qe
  r0 : 0 < p.r0
  length : 0 < p.lineLength
  charge : p.q ≠ 0

/-- **C132, power.**  The mean number of photons times their mean energy is the power of an accelerated charge. -/
theorem C132_power (p : Ref) (hp : Consistent p) (h : ℝ) :
    nDot p h * eAve p h = 2 / 3 * p.r0 * p.massKg * p.clight ^ 3 * p.gamma0 ^ 4 * h ^ 2 := by
  have hq : |p.q| ≠ 0 := abs_ne_zero.mpr hp.charge
  have h3 : √3 * √3 = 3 := Real.mul_self_sqrt (by norm_num)
  have hm := hp.massPos.ne'
  have hh := hp.hbar.ne'
  unfold nDot eAve eCrit fieldT
  field_simp
  rw [Real.sq_sqrt (by norm_num)]
  ring

/-- **C132, emittances agree.**  With the damping of the radiation integrals, and amplitudes given by curly H, the emittance from the kicks is the one from the radiation
integrals. -/
theorem C132_emittance (p : Ref) (hp : Consistent p) (rows : List Row) (hi : i2 rows - i4x rows ≠ 0) :
    kickEmitX p (p.r0 / 3 * p.gamma0 ^ 3 * (i2 rows - i4x rows)) (fun r => r.hx) rows = radEmitX p rows := by
  have hq : |p.q| ≠ 0 := abs_ne_zero.mpr hp.charge
  have hm := hp.massPos.ne'
  have hh := hp.hbar.ne'
  have hc := hp.clight.ne'
  have hg := hp.gamma.ne'
  have hr := hp.r0.ne'
  have hqe := hp.qe.ne'
  have h3 : √3 ≠ 0 := by positivity
  have h33 : √3 ^ 2 = 3 := Real.sq_sqrt (by norm_num)
  have kick : ∀ h, nDotKick p h = 55 / (24 * √3) * p.r0 * p.hbar / p.massKg * p.gamma0 ^ 5 * h ^ 3 := by
    intro h
    unfold nDotKick nDot eCrit fieldT
    field_simp
    rw [h33]; ring
  have hmass : p.mass0 = p.massKg * p.clight ^ 2 / p.qe := by rw [eq_div_iff hqe]; exact hp.mass
  have hsum : (rows.map fun r => r.hx * nDotKick p r.kappa * r.length).sum = 55 / (24 * √3) * p.r0 * p.hbar / p.massKg * p.gamma0 ^ 5 * i5x rows := by
    unfold i5x
    clear hi
    induction rows with
    | nil => simp [total]
    | cons r rs ih =>
      simp only [total, List.map_cons, List.sum_cons] at ih ⊢
      have hk : 0 ≤ r.kappa := Real.sqrt_nonneg _
      rw [ih, kick, abs_of_nonneg (by positivity)]
      ring
  unfold kickEmitX radEmitX
  rw [hsum, hmass]
  field_simp
  ring

/-! ## C133: equilibrium covariance matrix -/

variable {n : ℕ}

/-- What the linear normal form gives: `B` has the eigenvectors of the turn `R` as columns. -/
structure Eigen (R B : Matrix (Fin n) (Fin n) ℂ) (lam : Fin n → ℂ) : Prop where
  unit : IsUnit B.det
  eigen : R * B = B * diagonal lam
  away : ∀ i j, lam i * lam j ≠ 1

theorem Eigen.turn {R B : Matrix (Fin n) (Fin n) ℂ} {lam : Fin n → ℂ} (h : Eigen R B lam) : R = B * diagonal lam * B⁻¹ := by
  rw [← h.eigen, Matrix.mul_assoc, mul_nonsing_inv _ h.unit, Matrix.mul_one]

/-- Covariance in normalized coordinates: its elements are multiplied by the products of the eigenvalues in a turn. -/
theorem norm_turn {R B : Matrix (Fin n) (Fin n) ℂ} {lam : Fin n → ℂ} (h : Eigen R B lam) (S : Matrix (Fin n) (Fin n) ℂ) (i j : Fin n) :
    normD B (R * S * Rᵀ) i j = lam i * lam j * normD B S i j := by
  have e : normD B (R * S * Rᵀ) = diagonal lam * normD B S * diagonal lam := by
    unfold normD
    rw [h.turn]
    simp only [transpose_mul, diagonal_transpose]
    calc B⁻¹ * (B * diagonal lam * B⁻¹ * S * ((B⁻¹)ᵀ * (diagonal lam * Bᵀ))) * (B⁻¹)ᵀ
        = (B⁻¹ * B) * diagonal lam * (B⁻¹ * S * (B⁻¹)ᵀ) * diagonal lam * (Bᵀ * (B⁻¹)ᵀ) := by simp only [Matrix.mul_assoc]
      _ = _ := by
        rw [nonsing_inv_mul _ h.unit, ← transpose_mul, nonsing_inv_mul _ h.unit, transpose_one, Matrix.mul_one, Matrix.one_mul]
  rw [e, Matrix.mul_assoc, diagonal_mul, mul_diagonal]
  ring

theorem normD_add (B S T : Matrix (Fin n) (Fin n) ℂ) : normD B (S + T) = normD B S + normD B T := by
  unfold normD
  rw [Matrix.mul_add, Matrix.add_mul]

theorem normD_inj {B S T : Matrix (Fin n) (Fin n) ℂ} (hB : IsUnit B.det) (h : normD B S = normD B T) : S = T := by
  have e : ∀ X, B * normD B X * Bᵀ = X := by
    intro X
    unfold normD
    calc B * (B⁻¹ * X * (B⁻¹)ᵀ) * Bᵀ = (B * B⁻¹) * X * ((B⁻¹)ᵀ * Bᵀ) := by simp only [Matrix.mul_assoc]
      _ = X := by rw [mul_nonsing_inv _ hB, ← transpose_mul, mul_nonsing_inv _ hB, transpose_one, Matrix.mul_one, Matrix.one_mul]
  rw [← e S, ← e T, h]

theorem normD_back {B : Matrix (Fin n) (Fin n) ℂ} (hB : IsUnit B.det) (N : Matrix (Fin n) (Fin n) ℂ) : normD B (B * N * Bᵀ) = N := by
  unfold normD
  calc B⁻¹ * (B * N * Bᵀ) * (B⁻¹)ᵀ = (B⁻¹ * B) * N * (Bᵀ * (B⁻¹)ᵀ) := by simp only [Matrix.mul_assoc]
    _ = N := by rw [nonsing_inv_mul _ hB, ← transpose_mul, nonsing_inv_mul _ hB, transpose_one, Matrix.mul_one, Matrix.one_mul]

/-- Without taking real parts, the formula gives the only matrix which does not change in a turn with the diffusion of the turn added at its end. -/
theorem stationary_iff {R B D : Matrix (Fin n) (Fin n) ℂ} {lam : Fin n → ℂ} (h : Eigen R B lam) (S : Matrix (Fin n) (Fin n) ℂ) :
    R * S * Rᵀ + D = S ↔ S = B * sigmaNorm (normD B D) lam * Bᵀ := by
  have key : R * S * Rᵀ + D = S ↔ ∀ i j, normD B S i j = normD B D i j / (1 - lam i * lam j) := by
    constructor
    · intro hs i j
      have := congrFun (congrFun (congrArg (normD B) hs) i) j
      rw [normD_add, Matrix.add_apply, norm_turn h] at this
      rw [eq_div_iff (sub_ne_zero.mpr (h.away i j).symm)]
      linear_combination -this
    · intro hs
      apply normD_inj h.unit
      ext i j
      rw [normD_add, Matrix.add_apply, norm_turn h, hs]
      field_simp [sub_ne_zero.mpr (h.away i j).symm]
      ring
  rw [key]
  constructor
  · intro hs
    apply normD_inj h.unit
    rw [normD_back h.unit]
    ext i j
    exact hs i j
  · rintro rfl i j
    rw [normD_back h.unit]
    rfl

theorem realPart_eq {M : Matrix (Fin n) (Fin n) ℂ} (h : ∀ i j, (M i j).im = 0) : realPart M = M := by
  ext i j
  simp only [realPart, map_apply]
  exact Complex.ext rfl (by simp [h i j])

/-- **C133, covariance matrix.**  For real matrices, if the diffusion in normalized coordinates happens to be real, the reported matrix is the only one which does not
change in a turn with the diffusion of the turn added at its end. -/
theorem C133_covariance_partial {R B D : Matrix (Fin n) (Fin n) ℂ} {lam : Fin n → ℂ} (h : Eigen R B lam) (hR : ∀ i j, (starRingEnd ℂ) (R i j) = R i j)
    (hD : ∀ i j, (starRingEnd ℂ) (D i j) = D i j) (hE : ∀ i j, (normD B D i j).im = 0) (S : Matrix (Fin n) (Fin n) ℂ) :
    R * S * Rᵀ + D = S ↔ S = sigmaStart B D lam := by
  rw [stationary_iff h]
  have hX : R * (B * sigmaNorm (normD B D) lam * Bᵀ) * Rᵀ + D = B * sigmaNorm (normD B D) lam * Bᵀ := (stationary_iff h _).mpr rfl
  set X := B * sigmaNorm (normD B D) lam * Bᵀ
  -- the conjugate is a solution, too
  have hc : R * X.map (starRingEnd ℂ) * Rᵀ + D = X.map (starRingEnd ℂ) := by
    have e1 : R.map (starRingEnd ℂ) = R := by ext i j; exact hR i j
    have e2 : D.map (starRingEnd ℂ) = D := by ext i j; exact hD i j
    have e3 : Rᵀ.map (starRingEnd ℂ) = Rᵀ := by ext i j; exact hR j i
    have := congrArg (fun M : Matrix (Fin n) (Fin n) ℂ => M.map (starRingEnd ℂ)) hX
    simp only [Matrix.map_add _ (map_add (starRingEnd ℂ)), Matrix.map_mul] at this
    rw [e1, e2, e3] at this
    exact this
  have hXc : X.map (starRingEnd ℂ) = X := (stationary_iff h _).mp hc
  have hXr : realPart X = X := realPart_eq fun i j => by
    have := congrFun (congrFun hXc i) j
    rw [map_apply] at this
    exact Complex.conj_eq_iff_im.mp this
  unfold sigmaStart
  rw [realPart_eq hE, hXr]

/-- Covariance matrices from turn to turn. -/
def turns (R D S : Matrix (Fin n) (Fin n) ℂ) : ℕ → Matrix (Fin n) (Fin n) ℂ
  | 0 => S
  | k + 1 => R * turns R D S k * Rᵀ + D

/-- **C133, emittances.**  Starting with any beam, the amplitude of a damped mode goes to the reported emittance, when the diffusion of a turn is added at its end.  The
second column of the mode is the conjugate of the first. -/
theorem C133_emittance {R B D : Matrix (Fin n) (Fin n) ℂ} {lam : Fin n → ℂ} (h : Eigen R B lam) (i j : Fin n) (hl : lam j = (starRingEnd ℂ) (lam i)) (hd : ‖lam i‖ < 1)
    (hB : ∀ a, B⁻¹ j a = (starRingEnd ℂ) (B⁻¹ i a)) (hD : ∀ a b, (starRingEnd ℂ) (D a b) = D a b) (hDs : Dᵀ = D) (S : Matrix (Fin n) (Fin n) ℂ) :
    Filter.Tendsto (fun k => normD B (turns R D S k) i j) Filter.atTop (nhds ((eqEmit B D lam i j : ℝ) : ℂ)) := by
  have hll : lam i * lam j = ((‖lam i‖ ^ 2 : ℝ) : ℂ) := by rw [hl, Complex.mul_conj, Complex.normSq_eq_norm_sq]
  have hq1 : ‖lam i‖ ^ 2 < 1 := by nlinarith [norm_nonneg (lam i)]
  have hne : (1 : ℂ) - ((‖lam i‖ ^ 2 : ℝ) : ℂ) ≠ 0 := by
    rw [← Complex.ofReal_one, ← Complex.ofReal_sub]
    exact Complex.ofReal_ne_zero.mpr (by linarith)
  have hre : normD B D i j = (((normD B D i j).re : ℝ) : ℂ) := by
    have : (starRingEnd ℂ) (normD B D i j) = normD B D i j := by
      unfold normD
      simp only [mul_apply, transpose_apply, map_sum, map_mul]
      simp only [hB, Complex.conj_conj, hD, Finset.sum_mul]
      rw [Finset.sum_comm]
      refine Finset.sum_congr rfl fun a _ => Finset.sum_congr rfl fun b _ => ?_
      have := congrFun (congrFun hDs a) b
      rw [transpose_apply] at this
      rw [this]; ring
    exact (Complex.conj_eq_iff_re.mp this).symm
  have hrec : ∀ k, normD B (turns R D S k) i j - ((eqEmit B D lam i j : ℝ) : ℂ) = ((‖lam i‖ ^ 2 : ℝ) : ℂ) ^ k * (normD B S i j - ((eqEmit B D lam i j : ℝ) : ℂ)) := by
    intro k
    induction k with
    | zero => simp [turns]
    | succ k ih =>
      show normD B (R * turns R D S k * Rᵀ + D) i j - _ = _
      rw [normD_add, Matrix.add_apply, norm_turn h, hll, hre, pow_succ _ k]
      have he : ((eqEmit B D lam i j : ℝ) : ℂ) * (1 - ((‖lam i‖ ^ 2 : ℝ) : ℂ)) = (((normD B D i j).re : ℝ) : ℂ) := by
        unfold eqEmit
        rw [Complex.ofReal_div, Complex.ofReal_sub, Complex.ofReal_one]
        field_simp
      generalize ((‖lam i‖ ^ 2 : ℝ) : ℂ) = q at ih he ⊢
      linear_combination q * ih - he
  have hpow : Filter.Tendsto (fun k : ℕ => ((‖lam i‖ ^ 2 : ℝ) : ℂ) ^ k) Filter.atTop (nhds 0) := by
    apply tendsto_pow_atTop_nhds_zero_of_norm_lt_one
    rw [Complex.norm_real, Real.norm_eq_abs, abs_of_nonneg (by positivity)]
    exact hq1
  have := (hpow.mul_const (normD B S i j - ((eqEmit B D lam i j : ℝ) : ℂ))).add_const ((eqEmit B D lam i j : ℝ) : ℂ)
  rw [zero_mul, zero_add] at this
  refine this.congr fun k => ?_
  rw [← hrec k]
  ring

/-- **C133, violated: kicks in the turn.**  The diffusion is collected at the start of the turn, that is before the motion through the ring: a beam which does not change
is one with `R (S + D) Rᵀ = S`.  Its emittance is smaller than the reported one, by the square of the eigenvalue. -/
theorem C133_order_violated {R B D : Matrix (Fin n) (Fin n) ℂ} {lam : Fin n → ℂ} (h : Eigen R B lam) (i j : Fin n) (hl : lam j = (starRingEnd ℂ) (lam i))
    (hd : ‖lam i‖ < 1) (S : Matrix (Fin n) (Fin n) ℂ) (hS : R * (S + D) * Rᵀ = S) : (normD B S i j).re = ‖lam i‖ ^ 2 * eqEmit B D lam i j := by
  have hll : lam i * lam j = ((‖lam i‖ ^ 2 : ℝ) : ℂ) := by rw [hl, Complex.mul_conj, Complex.normSq_eq_norm_sq]
  have e := congrFun (congrFun (congrArg (normD B) hS) i) j
  rw [norm_turn h, normD_add, Matrix.add_apply, hll] at e
  have er := congrArg Complex.re e
  rw [Complex.re_ofReal_mul, Complex.add_re] at er
  unfold eqEmit
  have hq1 : ‖lam i‖ ^ 2 < 1 := by nlinarith [norm_nonneg (lam i)]
  have hne : 1 - ‖lam i‖ ^ 2 ≠ 0 := by linarith
  rw [mul_div_assoc', eq_div_iff hne]
  linear_combination -er

/-- **C133, violated: end of the ring.**  The reported matrix is carried along the ring without the diffusion: at the end of the ring it is smaller than at the start by
all of the diffusion of the turn. -/
theorem C133_period_violated {R B D : Matrix (Fin n) (Fin n) ℂ} {lam : Fin n → ℂ} (h : Eigen R B lam) (hR : ∀ i j, (starRingEnd ℂ) (R i j) = R i j)
    (hD : ∀ i j, (starRingEnd ℂ) (D i j) = D i j) (hE : ∀ i j, (normD B D i j).im = 0) : sigmaAt R (sigmaStart B D lam) = sigmaStart B D lam - D := by
  have := (C133_covariance_partial h hR hD hE _).mpr rfl
  unfold sigmaAt
  exact eq_sub_of_add_eq this

/-- Eigenvectors of rotations in a plane. -/
def rotB : Matrix (Fin 2) (Fin 2) ℂ := !![1, 1; Complex.I, -Complex.I]

/-- A turn by a right angle with damping by a half. -/
def rotR : Matrix (Fin 2) (Fin 2) ℂ := !![0, 1 / 2; -1 / 2, 0]

def rotLam : Fin 2 → ℂ := ![Complex.I / 2, -Complex.I / 2]

/-- Kicks which change position and momentum together, as at a place with dispersion. -/
def rotD : Matrix (Fin 2) (Fin 2) ℂ := !![1, 1; 1, 1]

theorem rot_inv : rotB⁻¹ = !![1 / 2, -Complex.I / 2; 1 / 2, Complex.I / 2] := by
  apply inv_eq_right_inv
  ext i j
  fin_cases i <;> fin_cases j <;> simp [rotB, Matrix.mul_apply, Fin.sum_univ_two] <;> ring_nf <;> simp <;> norm_num

theorem rot_eigen : Eigen rotR rotB rotLam := by
  refine ⟨?_, ?_, ?_⟩
  · rw [rotB, det_fin_two_of]
    apply Ne.isUnit
    intro h
    have := congrArg Complex.im h
    simp at this
    norm_num at this
  · ext i j
    fin_cases i <;> fin_cases j <;> simp [rotB, rotR, rotLam, Matrix.mul_apply, Fin.sum_univ_two, diagonal] <;> ring_nf <;> simp <;> norm_num
  · intro i j h
    have h1 := congrArg Complex.re h
    fin_cases i <;> fin_cases j <;> simp [rotLam] at h1 <;> norm_num at h1

/-- **C133, violated: imaginary parts.**  Diffusion in normalized coordinates is complex in general, but only its real part is used: the reported matrix changes in a turn
with the diffusion of the turn. -/
theorem C133_real_violated : Eigen rotR rotB rotLam ∧ rotR * sigmaStart rotB rotD rotLam * rotRᵀ + rotD ≠ sigmaStart rotB rotD rotLam := by
  refine ⟨rot_eigen, fun h => ?_⟩
  have hE : realPart (normD rotB rotD) = !![0, 1 / 2; 1 / 2, 0] := by
    unfold normD realPart
    rw [rot_inv]
    ext i j
    fin_cases i <;> fin_cases j <;> simp [rotD, Matrix.mul_apply, Fin.sum_univ_two, Matrix.vecMul, dotProduct] <;> norm_num
  have hS : sigmaStart rotB rotD rotLam = !![4 / 3, 0; 0, 4 / 3] := by
    unfold sigmaStart
    rw [hE]
    have : sigmaNorm !![0, 1 / 2; 1 / 2, 0] rotLam = !![0, 2 / 3; 2 / 3, 0] := by
      ext i j
      fin_cases i <;> fin_cases j <;> simp [sigmaNorm, rotLam] <;> ring_nf <;> simp <;> norm_num
    rw [this]
    ext i j
    fin_cases i <;> fin_cases j <;> simp [realPart, rotB, Matrix.mul_apply, Fin.sum_univ_two, Matrix.vecMul, dotProduct] <;> norm_num
  rw [hS] at h
  have := congrFun (congrFun h 0) 1
  simp [rotR, rotD, Matrix.mul_apply, Fin.sum_univ_two, Matrix.vecMul, dotProduct] at this

/-- **C133, violated: slopes taken for momenta.**  The matrix at the start is in positions and slopes (`T` changes momenta to slopes), but it is reported, and carried
along the ring, as if it were in positions and momenta: the reported value is `R T S Tᵀ Rᵀ` for a beam `S`, and differs from `R S Rᵀ` already at the start for a reference
which is off momentum. -/
theorem C133_slopes_violated : ∃ (T S : Matrix (Fin 2) (Fin 2) ℂ), T = !![1, 0; 0, 1 - 1 / 100] ∧ S = 1 ∧ sigmaAt 1 (T * S * Tᵀ) ≠ sigmaAt 1 S := by
  refine ⟨_, _, rfl, rfl, fun h => ?_⟩
  have := congrFun (congrFun h 1) 1
  simp [sigmaAt, Matrix.mul_apply, Fin.sum_univ_two, Matrix.vecMul, dotProduct] at this
  norm_num at this

/-- The hypotheses of the theorems on equilibrium hold for the rotation with damping and a kick of the momentum. -/
example : Eigen rotR rotB rotLam ∧ (∀ i j, (starRingEnd ℂ) (rotR i j) = rotR i j) ∧ ‖rotLam 0‖ < 1 ∧ rotLam 1 = (starRingEnd ℂ) (rotLam 0)
    ∧ ∀ a, rotB⁻¹ 1 a = (starRingEnd ℂ) (rotB⁻¹ 0 a) := by
  refine ⟨rot_eigen, ?_, ?_, ?_, ?_⟩
  · intro i j
    fin_cases i <;> fin_cases j <;> simp [rotR, map_ofNat]
  · simp [rotLam]
    norm_num
  · simp [rotLam, map_ofNat]
  · intro a
    rw [rot_inv]
    fin_cases a <;> simp [map_ofNat]

end

end Verif.Equil
