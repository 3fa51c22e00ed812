import Verif.Twiss.Modes
import Verif.Twiss.Dispersion

/-! # The linear normal form of the one-turn matrix -/

namespace Verif.Twiss

open Matrix

/-! ## The symplectic form on complex vectors -/

/-- `aᵀ S b` for complex vectors. -/
noncomputable def sform (a b : CVec) : ℂ :=
  a 0 * b 1 - a 1 * b 0 + (a 2 * b 3 - a 3 * b 2) + (a 4 * b 5 - a 5 * b 4)

theorem sform_act {M : Mat} (h : Symplectic M) (a b : CVec) : sform (act M a) (act M b) = sform a b := by
  have hs := (symplectic_iff M).mp h
  have e : ∀ j k, M 0 j * M 1 k - M 1 j * M 0 k + (M 2 j * M 3 k - M 3 j * M 2 k)
      + (M 4 j * M 5 k - M 5 j * M 4 k) = S j k := by
    intro j k
    have := congrFun (congrFun hs j) k
    rw [← this]
    simp [Matrix.mul_apply, Fin.sum_univ_six, S]
    ring
  have e' : ∀ j k, (M 0 j : ℂ) * M 1 k - M 1 j * M 0 k + (M 2 j * M 3 k - M 3 j * M 2 k)
      + (M 4 j * M 5 k - M 5 j * M 4 k) = (S j k : ℂ) := by
    intro j k
    rw [← e j k]
    push_cast
    ring
  have l : sform (act M a) (act M b) = ∑ j, ∑ k, (S j k : ℂ) * a j * b k := by
    simp only [← e', sform, act, Finset.sum_mul_sum, ← Finset.sum_sub_distrib,
      ← Finset.sum_add_distrib]
    exact Finset.sum_congr rfl fun j _ => Finset.sum_congr rfl fun k _ => by ring
  rw [l]
  simp [Fin.sum_univ_six, S, sform]
  ring

theorem sform_smul (c d : ℂ) (a b : CVec) :
    sform (fun i => c * a i) (fun i => d * b i) = c * d * sform a b := by
  simp only [sform]; ring

theorem sform_conj (a : CVec) :
    sform (fun i => starRingEnd ℂ (a i)) a = ⟨0, 2 * pairNorm a⟩ := by
  apply Complex.ext
  · simp [sform]
    ring
  · simp [sform, pairNorm, dotProduct, Matrix.mulVec, S, Fin.sum_univ_six]
    ring

theorem pairNorm_conj (a : CVec) : pairNorm (fun i => starRingEnd ℂ (a i)) = -pairNorm a := by
  simp [pairNorm, dotProduct, Matrix.mulVec, S, Fin.sum_univ_six]
  ring

theorem pairNorm_smul (c : ℂ) (a : CVec) :
    pairNorm (fun i => a i * c) = ‖c‖ ^ 2 * pairNorm a := by
  rw [← Complex.normSq_eq_norm_sq, Complex.normSq_apply]
  simp [pairNorm, dotProduct, Matrix.mulVec, S, Fin.sum_univ_six]
  ring

namespace Stable

variable {M : Mat} {v : Fin 6 → CVec} {w : Fin 6 → ℂ} {cj : Fin 6 → Fin 6}

theorem w_mul (h : Stable M v w cj) (i : Fin 6) : w i * w (cj i) = 1 := by
  rw [h.conj_w, Complex.mul_conj, Complex.normSq_eq_norm_sq, h.unit]
  simp

/-- Eigenvectors of different pairs are orthogonal. -/
theorem orth (h : Stable M v w cj) {i j : Fin 6} (hij : j ≠ cj i) : sform (v i) (v j) = 0 := by
  have e := sform_act h.symplectic (v i) (v j)
  rw [h.eigen, h.eigen, sform_smul] at e
  have : (w i * w j - 1) * sform (v i) (v j) = 0 := by linear_combination e
  rcases mul_eq_zero.mp this with h1 | h1
  · exfalso
    apply hij
    apply h.distinct
    have n : w i ≠ 0 := by
      intro h0
      have := h.unit i
      rw [h0, norm_zero] at this
      exact zero_ne_one this
    have h2 := h.w_mul i
    apply mul_left_cancel₀ n
    rw [h2]
    linear_combination h1
  · exact h1

theorem span (h : Stable M v w cj) (z : CVec) : ∃ c : Fin 6 → ℂ, ∀ i, ∑ j, c j * v j i = z i := by
  let A : Matrix (Fin 6) (Fin 6) ℂ := fun i j => v j i
  have hinj : Function.Injective A.mulVec := by
    intro c d hcd
    have : c - d = 0 := by
      apply h.indep
      intro i
      have := congrFun hcd i
      simp only [Matrix.mulVec, dotProduct, A] at this
      have e : ∑ j, (c - d) j * v j i = ∑ j, v j i * c j - ∑ j, v j i * d j := by
        rw [← Finset.sum_sub_distrib]
        exact Finset.sum_congr rfl fun j _ => by rw [Pi.sub_apply]; ring
      rw [e, this, sub_self]
    exact sub_eq_zero.mp this
  have hu : IsUnit A := Matrix.mulVec_injective_iff_isUnit.mp hinj
  have hs := Matrix.mulVec_surjective_iff_isUnit.mpr hu
  obtain ⟨c, hc⟩ := hs z
  refine ⟨c, fun i => ?_⟩
  rw [← hc]
  simp only [Matrix.mulVec, dotProduct, A]
  exact Finset.sum_congr rfl fun j _ => mul_comm _ _

theorem pairNorm_ne (h : Stable M v w cj) (i : Fin 6) : pairNorm (v i) ≠ 0 := by
  intro h0
  have z : ∀ j, sform (v j) (v i) = 0 := by
    intro j
    by_cases hj : i = cj j
    · have e : v j = fun k => starRingEnd ℂ (v i k) := by
        funext k
        rw [hj, h.conj_v, Complex.conj_conj]
      rw [e, sform_conj, h0]
      simp
      rfl
    · exact h.orth hj
  have lin : ∀ z' : CVec, sform z' (v i) = 0 := by
    intro z'
    obtain ⟨c, hc⟩ := h.span z'
    have : z' = fun k => ∑ j, c j * v j k := funext fun k => (hc k).symm
    have e : sform z' (v i) = ∑ j, c j * sform (v j) (v i) := by
      rw [this]
      simp only [sform, Fin.sum_univ_six]
      ring
    rw [e]
    simp [z]
  have vz : v i = 0 := by
    funext k
    have l0 := lin (Pi.single 1 1)
    have l1 := lin (Pi.single 0 1)
    have l2 := lin (Pi.single 3 1)
    have l3 := lin (Pi.single 2 1)
    have l4 := lin (Pi.single 5 1)
    have l5 := lin (Pi.single 4 1)
    simp [sform] at l0 l1 l2 l3 l4 l5
    fin_cases k <;> assumption
  have := h.indep (Pi.single i 1) (fun k => by
    rw [Finset.sum_eq_single i]
    · simp [vz]
    · intro b _ hb; simp [Pi.single_eq_of_ne hb]
    · intro hb; exact absurd (Finset.mem_univ i) hb)
  have := congrFun this i
  simp at this

/-- Of each pair the mode with positive norm is taken. -/
theorem select (h : Stable M v w cj) (a : Fin 6) :
    (selectMode v (a, cj a) = a ∨ selectMode v (a, cj a) = cj a)
      ∧ 0 < pairNorm (v (selectMode v (a, cj a))) := by
  unfold selectMode
  by_cases ha : pairNorm (v a) > 0
  · simp only [ha, if_true]
    exact ⟨Or.inl trivial, trivial⟩
  · simp only [ha, if_false]
    refine ⟨Or.inr trivial, ?_⟩
    have e : v (cj a) = fun k => starRingEnd ℂ (v a k) := funext fun k => h.conj_v a k
    rw [e, pairNorm_conj]
    have := h.pairNorm_ne a
    have := lt_of_le_of_ne (not_lt.mp ha) this
    linarith

end Stable

/-- A choice of one mode of each pair, with positive norm. -/
structure Chosen (v : Fin 6 → CVec) (cj : Fin 6 → Fin 6) (m : Fin 3 → Fin 6) : Prop where
  inj : Function.Injective m
  sep : ∀ i j, m i ≠ cj (m j)
  pos : ∀ k, 0 < pairNorm (v (m k))

theorem Chosen.perm {v : Fin 6 → CVec} {cj : Fin 6 → Fin 6} {m : Fin 3 → Fin 6} (h : Chosen v cj m)
    {σ : Fin 3 → Fin 3} (hσ : Function.Injective σ) : Chosen v cj (m ∘ σ) :=
  ⟨h.inj.comp hσ, fun i j => h.sep (σ i) (σ j), fun k => h.pos (σ k)⟩

theorem chosen_order {v : Fin 6 → CVec} {cj : Fin 6 → Fin 6} {m : Fin 3 → Fin 6} (h : Chosen v cj m) :
    Chosen v cj (orderModes v m)
      ∧ (∀ k, ‖v (orderModes v m k) 5‖ ≤ ‖v (orderModes v m 2) 5‖)
      ∧ ‖v (orderModes v m 0) 2‖ ≤ ‖v (orderModes v m 1) 2‖ := by
  have s02 : Chosen v cj ![m 2, m 1, m 0] := by
    have := h.perm (σ := ![2, 1, 0]) (by decide)
    convert this using 1
    funext k; fin_cases k <;> rfl
  have step1 : ∃ m1, (if ‖v (m 2) 5‖ < ‖v (m 0) 5‖ then ![m 2, m 1, m 0] else m) = m1
      ∧ Chosen v cj m1 ∧ ‖v (m1 0) 5‖ ≤ ‖v (m1 2) 5‖ := by
    split
    · rename_i hc
      exact ⟨_, rfl, s02, hc.le⟩
    · rename_i hc
      exact ⟨_, rfl, h, not_lt.mp hc⟩
  obtain ⟨m1, e1, h1, o1⟩ := step1
  have step2 : ∃ m2, (if ‖v (m1 2) 5‖ < ‖v (m1 1) 5‖ then ![m1 0, m1 2, m1 1] else m1) = m2
      ∧ Chosen v cj m2 ∧ ‖v (m2 0) 5‖ ≤ ‖v (m2 2) 5‖ ∧ ‖v (m2 1) 5‖ ≤ ‖v (m2 2) 5‖ := by
    split
    · rename_i hc
      refine ⟨_, rfl, ?_, ?_, ?_⟩
      · have := h1.perm (σ := ![0, 2, 1]) (by decide)
        convert this using 1
        funext k; fin_cases k <;> rfl
      · exact o1.trans hc.le
      · exact hc.le
    · rename_i hc
      exact ⟨_, rfl, h1, o1, not_lt.mp hc⟩
  obtain ⟨m2, e2, h2, o2, o3⟩ := step2
  have step3 : ∃ m3, (if ‖v (m2 1) 2‖ < ‖v (m2 0) 2‖ then ![m2 1, m2 0, m2 2] else m2) = m3
      ∧ Chosen v cj m3 ∧ ‖v (m3 0) 5‖ ≤ ‖v (m3 2) 5‖ ∧ ‖v (m3 1) 5‖ ≤ ‖v (m3 2) 5‖
      ∧ ‖v (m3 0) 2‖ ≤ ‖v (m3 1) 2‖ := by
    split
    · rename_i hc
      refine ⟨_, rfl, ?_, ?_, ?_, ?_⟩
      · have := h2.perm (σ := ![1, 0, 2]) (by decide)
        convert this using 1
        funext k; fin_cases k <;> rfl
      · exact o3
      · exact o2
      · exact hc.le
    · rename_i hc
      exact ⟨_, rfl, h2, o2, o3, not_lt.mp hc⟩
  obtain ⟨m3, e3, h3, o4, o5, o6⟩ := step3
  have e : orderModes v m = m3 := by
    unfold orderModes
    simp only [e1, e2, e3]
  rw [e]
  refine ⟨h3, ?_, o6⟩
  intro k
  fin_cases k
  · exact o4
  · exact o5
  · exact le_refl _

theorem inj3 {x y z : Fin 6} (h1 : x ≠ y) (h2 : x ≠ z) (h3 : y ≠ z) :
    Function.Injective ![x, y, z] := by
  intro i j hij
  fin_cases i <;> fin_cases j <;> simp at hij ⊢
  · exact h1 hij
  · exact h2 hij
  · exact h1 hij.symm
  · exact h3 hij
  · exact h2 hij.symm
  · exact h3 hij.symm

theorem sep3 {x y z : Fin 6} {cj : Fin 6 → Fin 6} (inv : ∀ a, cj (cj a) = a) (ne : ∀ a, cj a ≠ a)
    (xy : y ≠ cj x) (xz : z ≠ cj x) (yz : z ≠ cj y) (i j : Fin 3) :
    (![x, y, z] : Fin 3 → Fin 6) i ≠ cj ((![x, y, z] : Fin 3 → Fin 6) j) := by
  have flipc : ∀ p q : Fin 6, p ≠ cj q → q ≠ cj p := fun p q hpq e => hpq (by rw [e, inv])
  fin_cases i <;> fin_cases j
  · exact (ne x).symm
  · exact flipc _ _ xy
  · exact flipc _ _ xz
  · exact xy
  · exact (ne y).symm
  · exact flipc _ _ yz
  · exact xz
  · exact yz
  · exact (ne z).symm

theorem sortModes_spec {M : Mat} {v : Fin 6 → CVec} {w : Fin 6 → ℂ} {cj : Fin 6 → Fin 6}
    (h : Stable M v w cj) :
    Chosen v cj (sortModes v w)
      ∧ (∀ k, ‖v (sortModes v w k) 5‖ ≤ ‖v (sortModes v w 2) 5‖)
      ∧ ‖v (sortModes v w 0) 2‖ ≤ ‖v (sortModes v w 1) 2‖ := by
  obtain ⟨a, b, c, hc, ba, ba', ca, ca', cb, cb'⟩ := conjModes_spec h
  unfold sortModes
  rw [hc]
  apply chosen_order
  obtain ⟨sa, pa⟩ := h.select a
  obtain ⟨sb, pb⟩ := h.select b
  obtain ⟨sc, pc⟩ := h.select c
  simp only [List.getD_cons_zero, List.getD_cons_succ]
  generalize selectMode v (a, cj a) = x at *
  generalize selectMode v (b, cj b) = y at *
  generalize selectMode v (c, cj c) = z at *
  have inv := h.invol
  have ne := h.conj_ne
  have key : ∀ p q : Fin 6, p ≠ q → p ≠ cj q → ∀ x y : Fin 6, (x = p ∨ x = cj p) → (y = q ∨ y = cj q) →
      x ≠ y ∧ x ≠ cj y := by
    intro p q h1 h2 x y hx hy
    have h3 : cj p ≠ q := fun e => h2 (by rw [← e, inv])
    have h4 : cj p ≠ cj q := fun e => h1 (by rw [← inv p, e, inv])
    rcases hx with rfl | rfl <;> rcases hy with rfl | rfl
    · exact ⟨h1, h2⟩
    · exact ⟨h2, by rw [inv]; exact h1⟩
    · exact ⟨h3, h4⟩
    · exact ⟨h4, by rw [inv]; exact h3⟩
  have xy := key b a ba ba' y x sb sa
  have xz := key c a ca ca' z x sc sa
  have yz := key c b cb cb' z y sc sb
  refine ⟨inj3 xy.1.symm xz.1.symm yz.1.symm, sep3 inv ne xy.2 xz.2 yz.2, ?_⟩
  intro k
  fin_cases k
  · exact pa
  · exact pb
  · exact pc

/-! ## The W matrix -/

theorem norm_phase (θ : ℝ) : ‖Complex.exp (-(Complex.I * (θ : ℂ)))‖ = 1 := by
  have : -(Complex.I * (θ : ℂ)) = ((-θ : ℝ) : ℂ) * Complex.I := by push_cast; ring
  rw [this, Complex.norm_exp_ofReal_mul_I]

theorem pairNorm_turned (v : Fin 6 → CVec) (m : Fin 3 → Fin 6) (k : Fin 3) :
    pairNorm (turned v m k) = pairNorm (v (m k)) := by
  unfold turned
  rw [pairNorm_smul, norm_phase]
  simp

theorem turned_re (v : Fin 6 → CVec) (m : Fin 3 → Fin 6) (k : Fin 3) :
    turned v m k (reCol k) = (‖v (m k) (reCol k)‖ : ℂ) := by
  unfold turned
  generalize v (m k) (reCol k) = z
  have h := Complex.norm_mul_exp_arg_mul_I z
  conv_lhs => rw [← h]
  rw [mul_assoc, ← Complex.exp_add]
  have : (((‖z‖ : ℂ) * Complex.exp (z.arg * Complex.I)).arg : ℂ) = z.arg := by rw [h]
  rw [this]
  have e : (z.arg : ℂ) * Complex.I + -(Complex.I * (z.arg : ℂ)) = 0 := by ring
  rw [e, Complex.exp_zero, mul_one]

/-- Modes which are orthogonal with unit norm form a symplectic matrix. -/
theorem symplectic_ofModes {u : Fin 3 → CVec} (h1 : ∀ k, pairNorm (u k) = 1)
    (h2 : ∀ i j, i ≠ j → sform (u i) (u j) = 0)
    (h3 : ∀ i j, i ≠ j → sform (fun a => starRingEnd ℂ (u i a)) (u j) = 0) :
    Symplectic (ofModes u) := by
  rw [symplectic_iff]
  have n : ∀ k, (u k 0).re * (u k 1).im - (u k 1).re * (u k 0).im + ((u k 2).re * (u k 3).im
      - (u k 3).re * (u k 2).im) + ((u k 4).re * (u k 5).im - (u k 5).re * (u k 4).im) = 1 := by
    intro k
    rw [← h1 k]
    simp [pairNorm, dotProduct, Matrix.mulVec, S, Fin.sum_univ_six]
    ring
  have r : ∀ i j, i ≠ j → ∀ f g : ℂ → ℝ, (f = Complex.re ∨ f = Complex.im) →
      (g = Complex.re ∨ g = Complex.im) →
      f (u i 0) * g (u j 1) - f (u i 1) * g (u j 0) + (f (u i 2) * g (u j 3)
      - f (u i 3) * g (u j 2)) + (f (u i 4) * g (u j 5) - f (u i 5) * g (u j 4)) = 0 := by
    intro i j hij f g hf hg
    have a := h2 i j hij
    have b := h3 i j hij
    have ar := congrArg Complex.re a
    have ai := congrArg Complex.im a
    have br := congrArg Complex.re b
    have bi := congrArg Complex.im b
    simp [sform] at ar ai br bi
    rcases hf with rfl | rfl <;> rcases hg with rfl | rfl <;> linarith
  have s : ∀ k, ∀ f : ℂ → ℝ, f (u k 0) * f (u k 1) - f (u k 1) * f (u k 0) + (f (u k 2) * f (u k 3)
      - f (u k 3) * f (u k 2)) + (f (u k 4) * f (u k 5) - f (u k 5) * f (u k 4)) = 0 := by
    intro k f; ring
  have e : ∀ (W : Mat) i j, (Wᵀ * S * W) i j = W 0 i * W 1 j - W 1 i * W 0 j
      + (W 2 i * W 3 j - W 3 i * W 2 j) + (W 4 i * W 5 j - W 5 i * W 4 j) := by
    intro W i j
    simp [Matrix.mul_apply, Fin.sum_univ_six, S]
    ring
  have c0 : ∀ a, ofModes u a 0 = (u 0 a).re := fun _ => rfl
  have c1 : ∀ a, ofModes u a 1 = (u 0 a).im := fun _ => rfl
  have c2 : ∀ a, ofModes u a 2 = (u 1 a).re := fun _ => rfl
  have c3 : ∀ a, ofModes u a 3 = (u 1 a).im := fun _ => rfl
  have c4 : ∀ a, ofModes u a 4 = (u 2 a).re := fun _ => rfl
  have c5 : ∀ a, ofModes u a 5 = (u 2 a).im := fun _ => rfl
  ext i j
  rw [e]
  fin_cases i <;> fin_cases j <;>
    simp only [Fin.isValue, Fin.zero_eta, Fin.mk_one, Fin.reduceFinMk, c0, c1, c2, c3, c4, c5, S,
      Matrix.of_apply, Matrix.cons_val]
  · exact s 0 Complex.re
  · exact n 0
  · exact r 0 1 (by decide) _ _ (Or.inl rfl) (Or.inl rfl)
  · exact r 0 1 (by decide) _ _ (Or.inl rfl) (Or.inr rfl)
  · exact r 0 2 (by decide) _ _ (Or.inl rfl) (Or.inl rfl)
  · exact r 0 2 (by decide) _ _ (Or.inl rfl) (Or.inr rfl)
  · linarith [n 0]
  · exact s 0 Complex.im
  · exact r 0 1 (by decide) _ _ (Or.inr rfl) (Or.inl rfl)
  · exact r 0 1 (by decide) _ _ (Or.inr rfl) (Or.inr rfl)
  · exact r 0 2 (by decide) _ _ (Or.inr rfl) (Or.inl rfl)
  · exact r 0 2 (by decide) _ _ (Or.inr rfl) (Or.inr rfl)
  · exact r 1 0 (by decide) _ _ (Or.inl rfl) (Or.inl rfl)
  · exact r 1 0 (by decide) _ _ (Or.inl rfl) (Or.inr rfl)
  · exact s 1 Complex.re
  · exact n 1
  · exact r 1 2 (by decide) _ _ (Or.inl rfl) (Or.inl rfl)
  · exact r 1 2 (by decide) _ _ (Or.inl rfl) (Or.inr rfl)
  · exact r 1 0 (by decide) _ _ (Or.inr rfl) (Or.inl rfl)
  · exact r 1 0 (by decide) _ _ (Or.inr rfl) (Or.inr rfl)
  · linarith [n 1]
  · exact s 1 Complex.im
  · exact r 1 2 (by decide) _ _ (Or.inr rfl) (Or.inl rfl)
  · exact r 1 2 (by decide) _ _ (Or.inr rfl) (Or.inr rfl)
  · exact r 2 0 (by decide) _ _ (Or.inl rfl) (Or.inl rfl)
  · exact r 2 0 (by decide) _ _ (Or.inl rfl) (Or.inr rfl)
  · exact r 2 1 (by decide) _ _ (Or.inl rfl) (Or.inl rfl)
  · exact r 2 1 (by decide) _ _ (Or.inl rfl) (Or.inr rfl)
  · exact s 2 Complex.re
  · exact n 2
  · exact r 2 0 (by decide) _ _ (Or.inr rfl) (Or.inl rfl)
  · exact r 2 0 (by decide) _ _ (Or.inr rfl) (Or.inr rfl)
  · exact r 2 1 (by decide) _ _ (Or.inr rfl) (Or.inl rfl)
  · exact r 2 1 (by decide) _ _ (Or.inr rfl) (Or.inr rfl)
  · linarith [n 2]
  · exact s 2 Complex.im

/-- Norm of the modes before normalisation. -/
theorem nInvSq_false (v : Fin 6 → CVec) (m : Fin 3 → Fin 6) (k : Fin 3) :
    nInvSq v m false k = pairNorm (v (m k)) := by
  simp [nInvSq, pairNorm_turned]

/-- The normalised mode. -/
noncomputable def unitMode (v : Fin 6 → CVec) (m : Fin 3 → Fin 6) (k : Fin 3) : CVec := fun i =>
  turned v m k i * ((1 / √ (pairNorm (v (m k))) : ℝ) : ℂ)

/-- Factor between eigenvector and normalised mode. -/
noncomputable def unitFactor (v : Fin 6 → CVec) (m : Fin 3 → Fin 6) (k : Fin 3) : ℂ :=
  Complex.exp (-(Complex.I * ((v (m k) (reCol k)).arg : ℂ))) * ((1 / √ (pairNorm (v (m k))) : ℝ) : ℂ)

theorem unitMode_eq (v : Fin 6 → CVec) (m : Fin 3 → Fin 6) (k : Fin 3) :
    unitMode v m k = fun i => unitFactor v m k * v (m k) i := by
  funext i
  simp only [unitMode, turned, unitFactor]
  ring

theorem unitMode_norm {v : Fin 6 → CVec} {m : Fin 3 → Fin 6} {k : Fin 3} (h : 0 < pairNorm (v (m k))) :
    pairNorm (unitMode v m k) = 1 := by
  unfold unitMode
  rw [pairNorm_smul, pairNorm_turned, Complex.norm_real, Real.norm_eq_abs, sq_abs, div_pow, one_pow,
    Real.sq_sqrt h.le]
  field_simp

theorem unitModes_symplectic {M : Mat} {v : Fin 6 → CVec} {w : Fin 6 → ℂ} {cj : Fin 6 → Fin 6}
    (h : Stable M v w cj) {m : Fin 3 → Fin 6} (hc : Chosen v cj m) :
    Symplectic (ofModes (unitMode v m)) := by
  apply symplectic_ofModes
  · exact fun k => unitMode_norm (hc.pos k)
  · intro i j hij
    rw [unitMode_eq, unitMode_eq, sform_smul, h.orth, mul_zero]
    exact hc.sep j i
  · intro i j hij
    have e : (fun a => starRingEnd ℂ (unitMode v m i a))
        = fun a => starRingEnd ℂ (unitFactor v m i) * v (cj (m i)) a := by
      funext a
      rw [unitMode_eq, h.conj_v, map_mul]
    rw [e, unitMode_eq, sform_smul, h.orth, mul_zero]
    rw [h.invol]
    exact fun e => hij (hc.inj e).symm

theorem act_smul (M : Mat) (c : ℂ) (a : CVec) : act M (fun i => c * a i) = fun i => c * act M a i := by
  funext i
  simp only [act, Finset.mul_sum]
  exact Finset.sum_congr rfl fun j _ => by ring

theorem unitModes_eigen {M : Mat} {v : Fin 6 → CVec} {w : Fin 6 → ℂ} {cj : Fin 6 → Fin 6}
    (h : Stable M v w cj) {m : Fin 3 → Fin 6} (_hc : Chosen v cj m) :
    M * ofModes (unitMode v m) = ofModes (unitMode v m) * blockRot fun k => (w (m k)).arg := by
  apply mode_ext
  intro k
  rw [mode_mul, mode_blockRot, mode_ofModes, unitMode_eq, act_smul, h.eigen]
  funext i
  have e : Complex.exp (Complex.I * ((w (m k)).arg : ℂ)) = w (m k) := by
    have := Complex.norm_mul_exp_arg_mul_I (w (m k))
    rw [h.unit, Complex.ofReal_one, one_mul] at this
    rw [mul_comm]
    exact this
  rw [e]
  ring

theorem unitModes_phase (v : Fin 6 → CVec) (m : Fin 3 → Fin 6) (k : Fin 3) :
    ofModes (unitMode v m) (reCol k) (imCol k) = 0
      ∧ 0 ≤ ofModes (unitMode v m) (reCol k) (reCol k) := by
  have e : unitMode v m k (reCol k)
      = ((‖v (m k) (reCol k)‖ * (1 / √ (pairNorm (v (m k)))) : ℝ) : ℂ) := by
    unfold unitMode
    rw [turned_re]
    push_cast
    rfl
  have hr : ofModes (unitMode v m) (reCol k) (reCol k) = (unitMode v m k (reCol k)).re := by
    fin_cases k <;> rfl
  have hi : ofModes (unitMode v m) (reCol k) (imCol k) = (unitMode v m k (reCol k)).im := by
    fin_cases k <;> rfl
  rw [hr, hi, e, Complex.ofReal_im, Complex.ofReal_re]
  exact ⟨rfl, by positivity⟩

theorem flush_close (W : Mat) (i j : Fin 6) :
    |flush W i j - W i j| < 1e-14 ∧ (flush W i j = 0 ∨ flush W i j = W i j) := by
  unfold flush
  split
  · rename_i h
    rw [zero_sub, abs_neg]
    exact ⟨h, Or.inl rfl⟩
  · rw [sub_self, abs_zero]
    exact ⟨by norm_num, Or.inr rfl⟩

/-- **C94.** The linear normal form of a stable machine: `M W = W R` with a symplectic `W`, `R` made of
the rotations by the phases of the eigenvalues, `W` in the Courant-Snyder phase (`W[0,1] = W[2,3] =
W[4,5] = 0` with `W[0,0], W[2,2], W[4,4] ≥ 0`), the third mode being the one with the largest `pzeta`
and the second one the one with larger `y`.  The returned `W` is this one up to entries smaller
than 1e-14, which are set to zero. -/
theorem C94_normal_form {M : Mat} {v : Fin 6 → CVec} {w : Fin 6 → ℂ} {cj : Fin 6 → Fin 6}
    (h : Stable M v w cj) :
    ∃ (nf : NormalForm) (W : Mat) (m : Fin 3 → Fin 6),
      normalForm v w false = some nf
      ∧ Symplectic W
      ∧ M * W = W * nf.R
      ∧ nf.R = blockRot (fun k => (w (m k)).arg)
      ∧ nf.eigenvalues = (fun k => w (m k))
      ∧ (∀ k, W (reCol k) (imCol k) = 0 ∧ 0 ≤ W (reCol k) (reCol k))
      ∧ (∀ k, ‖v (m k) 5‖ ≤ ‖v (m 2) 5‖) ∧ ‖v (m 0) 2‖ ≤ ‖v (m 1) 2‖
      ∧ (∀ i j, |nf.W i j - W i j| < 1e-14 ∧ (nf.W i j = 0 ∨ nf.W i j = W i j))
      ∧ nf.invW = nf.W⁻¹ := by
  obtain ⟨hc, o1, o2⟩ := sortModes_spec h
  have hn : ∀ k, nInvSq v (sortModes v w) false k = pairNorm (v (sortModes v w k)) :=
    fun k => nInvSq_false v _ k
  have hbuild : buildW v (sortModes v w) false = some (ofModes (unitMode v (sortModes v w))) := by
    unfold buildW
    have hp : ∀ k, nInvSq v (sortModes v w) false k > 0 := fun k => by rw [hn]; exact hc.pos k
    rw [if_pos hp]
    simp only [hn]
    rfl
  have hform : normalForm v w false = some
      { W := flush (ofModes (unitMode v (sortModes v w)))
        invW := (flush (ofModes (unitMode v (sortModes v w))))⁻¹
        R := blockRot fun k => (w (sortModes v w k)).arg
        eigenvalues := fun k => w (sortModes v w k) } := by
    simp only [normalForm, hbuild, Option.map_some]
  refine ⟨_, ofModes (unitMode v (sortModes v w)), sortModes v w, hform, ?_, ?_, rfl, rfl, ?_, o1, o2,
    ?_, rfl⟩
  · exact unitModes_symplectic h hc
  · exact unitModes_eigen h hc
  · exact fun k => unitModes_phase v _ k
  · exact flush_close _

end Verif.Twiss
