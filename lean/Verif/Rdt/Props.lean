import Verif.Rdt.Lemmas

/-! # C107: resonance driving terms are first-order perturbation theory of the tracking -/

namespace Verif.Rdt

open Finset Complex Verif.Magnets

noncomputable section

/-! ## The terms of the Hamiltonian are the kicks of the magnets -/

/-- What the keys of one order drive. -/
theorem order_x (w : Row) (hbx : 0 ≤ w.betx) (hby : 0 ≤ w.bety) {Ix Iy : ℝ} (hx : 0 ≤ Ix) (hy : 0 ≤ Iy) (phx phy : ℝ)
    (m : ℕ) :
    -2 * I * ∑ k ∈ keysOf (m + 1), termX (hl w k) k Ix Iy phx phy =
      I * (Real.sqrt w.betx : ℂ) * ((((⟨w.knl m, w.ksl m⟩ : ℂ) * (⟨pos w.betx Ix phx, pos w.bety Iy phy⟩ : ℂ) ^ m
        / (m.factorial : ℂ)).re : ℝ) : ℂ) := by
  rw [sum_keys_p m _ (fun k hk => by unfold termX; rw [if_neg (by simpa using hk)]), sum_keysOf]
  simp only [termX_succ _ _ _ _ _ hx hy]
  -- the binomials
  have hz : (⟨pos w.betx Ix phx, pos w.bety Iy phy⟩ : ℂ) = ((pos w.betx Ix phx : ℝ) : ℂ) + ((pos w.bety Iy phy : ℝ) : ℂ) * I := by
    apply Complex.ext <;> simp
  rw [mul_div_assoc, hz, binomial, Finset.mul_sum _ _ (⟨w.knl m, w.ksl m⟩ : ℂ), Complex.re_sum, Complex.ofReal_sum, Finset.mul_sum,
    Finset.mul_sum]
  apply Finset.sum_congr rfl
  rintro ⟨k, l⟩ hkl
  rw [mem_antidiagonal] at hkl
  simp only at hkl ⊢
  have hre : (((⟨w.knl m, w.ksl m⟩ : ℂ) * (((pos w.betx Ix phx : ℝ) : ℂ) ^ k / (k.factorial : ℂ) *
      ((((pos w.bety Iy phy : ℝ) : ℂ) * I) ^ l / (l.factorial : ℂ)))).re : ℝ)
      = ((⟨w.knl m, w.ksl m⟩ : ℂ) * I ^ l).re * (pos w.betx Ix phx ^ k / k.factorial * (pos w.bety Iy phy ^ l / l.factorial)) := by
    rw [← Complex.re_mul_ofReal]; congr 1; push_cast; rw [mul_pow]; ring
  rw [hre]
  push_cast
  rw [← omega_re]
  have px : (pos w.betx Ix phx : ℂ) = (Real.sqrt w.betx : ℂ) * ((ampBar Ix phx + amp Ix phx) / 2) := by
    rw [amp_add]; unfold pos; push_cast; ring
  have py : (pos w.bety Iy phy : ℂ) = (Real.sqrt w.bety : ℂ) * ((ampBar Iy phy + amp Iy phy) / 2) := by
    rw [amp_add]; unfold pos; push_cast; ring
  have two := two_binomials (amp Ix phx) (ampBar Ix phx) (amp Iy phy) (ampBar Iy phy) k l
  rw [px, py]
  simp only [mul_pow, div_pow]
  have rhs : I * (Real.sqrt w.betx : ℂ) * ((((w.knl m : ℂ) * omega l + I * (w.ksl m : ℂ) * omega (l + 1)) * I ^ l) *
      ((Real.sqrt w.betx : ℂ) ^ k * ((ampBar Ix phx + amp Ix phx) ^ k / 2 ^ k) / (k.factorial : ℂ) *
        ((Real.sqrt w.bety : ℂ) ^ l * ((ampBar Iy phy + amp Iy phy) ^ l / 2 ^ l) / (l.factorial : ℂ))))
      = (I * (Real.sqrt w.betx : ℂ) * (((w.knl m : ℂ) * omega l + I * (w.ksl m : ℂ) * omega (l + 1)) * I ^ l)
          * ((Real.sqrt w.betx : ℂ) ^ k / 2 ^ k * ((Real.sqrt w.bety : ℂ) ^ l / 2 ^ l)))
        * (((ampBar Ix phx + amp Ix phx) ^ k / (k.factorial : ℂ)) * ((ampBar Iy phy + amp Iy phy) ^ l / (l.factorial : ℂ))) := by
    ring
  rw [rhs, ← two, Finset.mul_sum, Finset.mul_sum]
  apply Finset.sum_congr rfl
  rintro ⟨p, q⟩ hpq
  rw [mem_antidiagonal] at hpq
  rw [Finset.mul_sum, Finset.mul_sum]
  apply Finset.sum_congr rfl
  rintro ⟨r, t⟩ hrt
  rw [mem_antidiagonal] at hrt
  simp only at hpq hrt ⊢
  have hn : (⟨p + 1, q, r, t⟩ : Key).n = m + 1 := by unfold Key.n; simp only; omega
  unfold hl
  rw [hn]
  simp only [Nat.add_sub_cancel]
  rw [betPow hbx, betPow hby, hrt, Nat.factorial_succ]
  have e1 : p + 1 + q = k + 1 := by omega
  rw [e1]
  have e2 : m + 1 = k + l + 1 := by omega
  rw [e2]
  have f1 : ((p : ℂ) + 1) ≠ 0 := by exact_mod_cast Nat.succ_ne_zero p
  have f2 : (p.factorial : ℂ) ≠ 0 := by exact_mod_cast Nat.factorial_ne_zero _
  have f3 : (q.factorial : ℂ) ≠ 0 := by exact_mod_cast Nat.factorial_ne_zero _
  have f4 : (r.factorial : ℂ) ≠ 0 := by exact_mod_cast Nat.factorial_ne_zero _
  have f5 : (t.factorial : ℂ) ≠ 0 := by exact_mod_cast Nat.factorial_ne_zero _
  push_cast
  field_simp
  ring

theorem order_y (w : Row) (hbx : 0 ≤ w.betx) (hby : 0 ≤ w.bety) {Ix Iy : ℝ} (hx : 0 ≤ Ix) (hy : 0 ≤ Iy) (phx phy : ℝ)
    (m : ℕ) :
    -2 * I * ∑ k ∈ keysOf (m + 1), termY (hl w k) k Ix Iy phx phy =
      -I * (Real.sqrt w.bety : ℂ) * ((((⟨w.knl m, w.ksl m⟩ : ℂ) * (⟨pos w.betx Ix phx, pos w.bety Iy phy⟩ : ℂ) ^ m
        / (m.factorial : ℂ)).im : ℝ) : ℂ) := by
  rw [sum_keys_r m _ (fun k hk => by unfold termY; rw [if_neg (by simpa using hk)]), sum_keysOf]
  simp only [termY_succ _ _ _ _ _ hx hy]
  have hz : (⟨pos w.betx Ix phx, pos w.bety Iy phy⟩ : ℂ) = ((pos w.betx Ix phx : ℝ) : ℂ) + ((pos w.bety Iy phy : ℝ) : ℂ) * I := by
    apply Complex.ext <;> simp
  rw [mul_div_assoc, hz, binomial, Finset.mul_sum _ _ (⟨w.knl m, w.ksl m⟩ : ℂ), Complex.im_sum, Complex.ofReal_sum, Finset.mul_sum,
    Finset.mul_sum]
  apply Finset.sum_congr rfl
  rintro ⟨k, l⟩ hkl
  rw [mem_antidiagonal] at hkl
  simp only at hkl ⊢
  have hre : (((⟨w.knl m, w.ksl m⟩ : ℂ) * (((pos w.betx Ix phx : ℝ) : ℂ) ^ k / (k.factorial : ℂ) *
      ((((pos w.bety Iy phy : ℝ) : ℂ) * I) ^ l / (l.factorial : ℂ)))).im : ℝ)
      = -(((⟨w.knl m, w.ksl m⟩ : ℂ) * I ^ (l + 1)).re * (pos w.betx Ix phx ^ k / k.factorial * (pos w.bety Iy phy ^ l / l.factorial))) := by
    rw [pow_succ, ← mul_assoc _ (I ^ l) I, Complex.mul_I_re, neg_mul, neg_neg, ← Complex.im_mul_ofReal]
    congr 1; push_cast; rw [mul_pow]; ring
  rw [hre]
  push_cast
  rw [← omega_re]
  have px : (pos w.betx Ix phx : ℂ) = (Real.sqrt w.betx : ℂ) * ((ampBar Ix phx + amp Ix phx) / 2) := by
    rw [amp_add]; unfold pos; push_cast; ring
  have py : (pos w.bety Iy phy : ℂ) = (Real.sqrt w.bety : ℂ) * ((ampBar Iy phy + amp Iy phy) / 2) := by
    rw [amp_add]; unfold pos; push_cast; ring
  have two := two_binomials (amp Ix phx) (ampBar Ix phx) (amp Iy phy) (ampBar Iy phy) k l
  rw [px, py]
  simp only [mul_pow, div_pow]
  have rhs : -I * (Real.sqrt w.bety : ℂ) * -((((w.knl m : ℂ) * omega (l + 1) + I * (w.ksl m : ℂ) * omega (l + 1 + 1)) * I ^ (l + 1)) *
      ((Real.sqrt w.betx : ℂ) ^ k * ((ampBar Ix phx + amp Ix phx) ^ k / 2 ^ k) / (k.factorial : ℂ) *
        ((Real.sqrt w.bety : ℂ) ^ l * ((ampBar Iy phy + amp Iy phy) ^ l / 2 ^ l) / (l.factorial : ℂ))))
      = (I * (Real.sqrt w.bety : ℂ) * (((w.knl m : ℂ) * omega (l + 1) + I * (w.ksl m : ℂ) * omega (l + 1 + 1)) * I ^ (l + 1))
          * ((Real.sqrt w.betx : ℂ) ^ k / 2 ^ k * ((Real.sqrt w.bety : ℂ) ^ l / 2 ^ l)))
        * (((ampBar Ix phx + amp Ix phx) ^ k / (k.factorial : ℂ)) * ((ampBar Iy phy + amp Iy phy) ^ l / (l.factorial : ℂ))) := by
    ring
  rw [rhs, ← two, Finset.mul_sum, Finset.mul_sum]
  apply Finset.sum_congr rfl
  rintro ⟨p, q⟩ hpq
  rw [mem_antidiagonal] at hpq
  rw [Finset.mul_sum, Finset.mul_sum]
  apply Finset.sum_congr rfl
  rintro ⟨r, t⟩ hrt
  rw [mem_antidiagonal] at hrt
  simp only at hpq hrt ⊢
  have hn : (⟨p, q, r + 1, t⟩ : Key).n = m + 1 := by unfold Key.n; simp only; omega
  unfold hl
  rw [hn]
  simp only [Nat.add_sub_cancel]
  rw [betPow hbx, betPow hby, hpq, Nat.factorial_succ]
  have e1 : r + 1 + t = l + 1 := by omega
  rw [e1]
  have e2 : m + 1 = k + l + 1 := by omega
  rw [e2]
  have f1 : ((r : ℂ) + 1) ≠ 0 := by exact_mod_cast Nat.succ_ne_zero r
  have f2 : (p.factorial : ℂ) ≠ 0 := by exact_mod_cast Nat.factorial_ne_zero _
  have f3 : (q.factorial : ℂ) ≠ 0 := by exact_mod_cast Nat.factorial_ne_zero _
  have f4 : (r.factorial : ℂ) ≠ 0 := by exact_mod_cast Nat.factorial_ne_zero _
  have f5 : (t.factorial : ℂ) ≠ 0 := by exact_mod_cast Nat.factorial_ne_zero _
  push_cast
  field_simp
  ring

theorem sum_keysUpTo (M : ℕ) (g : Key → ℂ) : ∑ k ∈ keysUpTo M, g k = ∑ m ∈ range (M + 1), ∑ k ∈ keysOf (m + 1), g k := by
  unfold keysUpTo
  rw [Finset.sum_biUnion]
  intro a _ b _ hab
  rw [Function.onFun, Finset.disjoint_left]
  intro k h1 h2
  rw [mem_keysOf] at h1 h2
  omega

/-- **C107.**  The terms `h_pqrt` of all keys together are the kick of the magnet. -/
theorem C107_kick (w : Row) (hbx : 0 ≤ w.betx) (hby : 0 ≤ w.bety) {Ix Iy : ℝ} (hx : 0 ≤ Ix) (hy : 0 ≤ Iy) (phx phy : ℝ)
    (M : ℕ) :
    -2 * I * ∑ k ∈ keysUpTo M, termX (hl w k) k Ix Iy phx phy
        = kickX w M (pos w.betx Ix phx) (pos w.bety Iy phy)
    ∧ -2 * I * ∑ k ∈ keysUpTo M, termY (hl w k) k Ix Iy phx phy
        = kickY w M (pos w.betx Ix phx) (pos w.bety Iy phy) := by
  unfold kickX kickY
  rw [kickCoords_field]
  unfold field
  rw [Complex.re_sum, Complex.im_sum]
  constructor
  · rw [sum_keysUpTo, Finset.mul_sum]
    simp only [order_x w hbx hby hx hy]
    rw [← Finset.mul_sum]; push_cast; ring
  · rw [sum_keysUpTo, Finset.mul_sum]
    simp only [order_y w hbx hby hx hy]
    rw [← Finset.mul_sum]; push_cast; ring

/-! ## Propagation of the driving terms along the ring -/

section
variable {L : ℕ} {rows : ℕ → Row} {qx qy : ℝ}

/-- Phase advance of a key for given phase advances. -/
def adv (k : Key) (dx dy : ℝ) : ℂ := exp (I * 2 * Real.pi * (((k.p : ℂ) - k.q) * dx + ((k.r : ℂ) - k.t) * dy))

theorem adv_add (k : Key) (a b c d : ℝ) : adv k (a + b) (c + d) = adv k a c * adv k b d := by
  unfold adv; rw [← Complex.exp_add]; congr 1; push_cast; ring

theorem adv_zero (k : Key) : adv k 0 0 = 1 := by simp [adv]

theorem expObs_eq (w : Row) (k : Key) : expObs w k = adv k w.mux w.muy := rfl

theorem integrand_eq (w : Row) (k : Key) : integrand w k = hl w k * adv k (-w.mux) (-w.muy) := by
  unfold integrand adv; push_cast; rfl

theorem integrandM1_eq (w : Row) (k : Key) :
    integrandM1 qx qy w k = hl w k * adv k (-w.mux) (-w.muy) * adv k qx qy := by
  rw [mul_assoc, ← adv_add]; unfold integrandM1 adv; push_cast; rfl

theorem adv_neg (k : Key) (a b : ℝ) : adv k a b * adv k (-a) (-b) = 1 := by
  rw [← adv_add]; simp [adv_zero]

/-- The sum over the last turn. -/
theorem window (k : Key) {i : ℕ} (hi : i < L) :
    cumsum L rows qx qy k (i + L) - cumsum L rows qx qy k i =
      ∑ l ∈ range (i + 1), integrand (rows l) k + adv k qx qy * ∑ l ∈ Ico (i + 1) L, integrand (rows l) k := by
  unfold cumsum
  have h1 : ∑ l ∈ range (i + L + 1), twoTurns L rows qx qy k l
      = ∑ l ∈ range L, twoTurns L rows qx qy k l + ∑ l ∈ range (i + 1), integrand (rows l) k := by
    rw [show i + L + 1 = L + (i + 1) by ring, Finset.sum_range_add]
    congr 1
    apply Finset.sum_congr rfl
    intro l _
    unfold twoTurns
    rw [if_neg (by omega), Nat.add_sub_cancel_left]
  have h2 : ∑ l ∈ range L, twoTurns L rows qx qy k l = ∑ l ∈ range (i + 1), twoTurns L rows qx qy k l
      + ∑ l ∈ Ico (i + 1) L, twoTurns L rows qx qy k l :=
    (Finset.sum_range_add_sum_Ico _ (by omega)).symm
  have h3 : ∑ l ∈ Ico (i + 1) L, twoTurns L rows qx qy k l = adv k qx qy * ∑ l ∈ Ico (i + 1) L, integrand (rows l) k := by
    rw [Finset.mul_sum]
    apply Finset.sum_congr rfl
    intro l hl
    rw [Finset.mem_Ico] at hl
    unfold twoTurns
    rw [if_pos hl.2, integrandM1_eq, integrand_eq]; ring
  rw [h1, h2, h3]; ring

theorem denominator_eq (k : Key) : denominator qx qy k = 1 - adv k qx qy := rfl

/-- **C107.**  From a row to the next the driving term turns with the phase advance and gets the term of the magnet. -/
theorem C107_next (k : Key) (hd : denominator qx qy k ≠ 0) {i : ℕ} (hi : i + 1 < L) :
    f L rows qx qy k (i + 1) = adv k ((rows (i + 1)).mux - (rows i).mux) ((rows (i + 1)).muy - (rows i).muy)
      * f L rows qx qy k i + hl (rows (i + 1)) k := by
  unfold f fOpen
  rw [window k hi, window k (show i < L by omega), expObs_eq, expObs_eq]
  have e1 : ∑ l ∈ range (i + 1 + 1), integrand (rows l) k
      = ∑ l ∈ range (i + 1), integrand (rows l) k + integrand (rows (i + 1)) k := Finset.sum_range_succ _ _
  have e2 : ∑ l ∈ Ico (i + 1) L, integrand (rows l) k
      = integrand (rows (i + 1)) k + ∑ l ∈ Ico (i + 1 + 1) L, integrand (rows l) k :=
    Finset.sum_eq_sum_Ico_succ_bot (by omega) _
  have e3 : adv k ((rows (i + 1)).mux - (rows i).mux) ((rows (i + 1)).muy - (rows i).muy)
      * adv k (rows i).mux (rows i).muy = adv k (rows (i + 1)).mux (rows (i + 1)).muy := by
    rw [← adv_add]; congr 1 <;> ring
  have e4 : integrand (rows (i + 1)) k * adv k (rows (i + 1)).mux (rows (i + 1)).muy = hl (rows (i + 1)) k := by
    rw [integrand_eq, mul_assoc, mul_comm (adv k (-_) _), adv_neg, mul_one]
  rw [e1, e2]
  rw [denominator_eq] at hd ⊢
  rw [mul_div_assoc', div_add' _ _ _ hd, div_left_inj' hd]
  rw [← e4, ← e3]; ring

/-- **C107.**  And from the end of the ring to the start of the next turn. -/
theorem C107_close (k : Key) (hd : denominator qx qy k ≠ 0) (hL : 0 < L) :
    f L rows qx qy k 0 = adv k (qx + (rows 0).mux - (rows (L - 1)).mux) (qy + (rows 0).muy - (rows (L - 1)).muy)
      * f L rows qx qy k (L - 1) + hl (rows 0) k := by
  unfold f fOpen
  rw [window k hL, window k (show L - 1 < L by omega), expObs_eq, expObs_eq]
  have e0 : L - 1 + 1 = L := by omega
  have e1 : ∑ l ∈ range (L - 1 + 1), integrand (rows l) k
      = integrand (rows 0) k + ∑ l ∈ Ico (0 + 1) L, integrand (rows l) k := by
    rw [e0, Finset.range_eq_Ico]; exact Finset.sum_eq_sum_Ico_succ_bot hL _
  have e2 : ∑ l ∈ Ico (L - 1 + 1) L, integrand (rows l) k = 0 := by rw [e0]; simp
  have e3 : adv k (qx + (rows 0).mux - (rows (L - 1)).mux) (qy + (rows 0).muy - (rows (L - 1)).muy)
      * adv k (rows (L - 1)).mux (rows (L - 1)).muy = adv k qx qy * adv k (rows 0).mux (rows 0).muy := by
    rw [← adv_add, ← adv_add]; congr 1 <;> ring
  have e4 : integrand (rows 0) k * adv k (rows 0).mux (rows 0).muy = hl (rows 0) k := by
    rw [integrand_eq, mul_assoc, mul_comm (adv k (-_) _), adv_neg, mul_one]
  rw [e1, e2, Finset.sum_range_one]
  rw [denominator_eq] at hd ⊢
  rw [mul_div_assoc', div_add' _ _ _ hd, div_left_inj' hd, ← e4]
  linear_combination -(integrand (rows 0) k + ∑ l ∈ Ico (0 + 1) L, integrand (rows l) k) * e3

/-- **C107.**  Off resonance these two laws determine the driving terms. -/
theorem C107_unique (k : Key) (hd : denominator qx qy k ≠ 0) (hL : 0 < L) (g : ℕ → ℂ)
    (h1 : ∀ i, i + 1 < L → g (i + 1) = adv k ((rows (i + 1)).mux - (rows i).mux) ((rows (i + 1)).muy - (rows i).muy)
      * g i + hl (rows (i + 1)) k)
    (h2 : g 0 = adv k (qx + (rows 0).mux - (rows (L - 1)).mux) (qy + (rows 0).muy - (rows (L - 1)).muy)
      * g (L - 1) + hl (rows 0) k) : ∀ i, i < L → g i = f L rows qx qy k i := by
  have diff : ∀ i, i < L → g i - f L rows qx qy k i
      = adv k ((rows i).mux - (rows 0).mux) ((rows i).muy - (rows 0).muy) * (g 0 - f L rows qx qy k 0) := by
    intro i
    induction i with
    | zero => intro _; simp [adv_zero]
    | succ i ih =>
      intro hi
      rw [h1 i hi, C107_next k hd hi]
      have e : adv k ((rows (i + 1)).mux - (rows 0).mux) ((rows (i + 1)).muy - (rows 0).muy)
          = adv k ((rows (i + 1)).mux - (rows i).mux) ((rows (i + 1)).muy - (rows i).muy)
            * adv k ((rows i).mux - (rows 0).mux) ((rows i).muy - (rows 0).muy) := by
        rw [← adv_add]; congr 1 <;> ring
      rw [e, mul_assoc, ← ih (by omega)]; ring
  have h0 : g 0 - f L rows qx qy k 0 = 0 := by
    have ha := diff (L - 1) (by omega)
    have hb : g 0 - f L rows qx qy k 0
        = adv k (qx + (rows 0).mux - (rows (L - 1)).mux) (qy + (rows 0).muy - (rows (L - 1)).muy)
          * (g (L - 1) - f L rows qx qy k (L - 1)) := by
      conv_lhs => rw [h2, C107_close k hd hL]
      ring
    rw [ha, ← mul_assoc, ← adv_add] at hb
    have e : adv k (qx + (rows 0).mux - (rows (L - 1)).mux + ((rows (L - 1)).mux - (rows 0).mux))
        (qy + (rows 0).muy - (rows (L - 1)).muy + ((rows (L - 1)).muy - (rows 0).muy)) = adv k qx qy := by
      congr 1 <;> ring
    rw [e] at hb
    rw [denominator_eq] at hd
    have : (1 - adv k qx qy) * (g 0 - f L rows qx qy k 0) = 0 := by linear_combination hb
    exact (mul_eq_zero.mp this).resolve_left hd
  intro i hi
  have := diff i hi
  rw [h0, mul_zero] at this
  exact sub_eq_zero.mp this

/-! ## The motion -/

theorem termX_linear (a v w : ℂ) (k : Key) (Ix Iy phx phy : ℝ) :
    termX (a * v + w) k Ix Iy phx phy = a * termX v k Ix Iy phx phy + termX w k Ix Iy phx phy := by
  unfold termX; split_ifs <;> ring

theorem termY_linear (a v w : ℂ) (k : Key) (Ix Iy phx phy : ℝ) :
    termY (a * v + w) k Ix Iy phx phy = a * termY v k Ix Iy phx phy + termY w k Ix Iy phx phy := by
  unfold termY; split_ifs <;> ring

/-- A term at later phases. -/
theorem termX_adv (v : ℂ) (k : Key) (Ix Iy phx phy dx dy : ℝ) :
    adv k dx dy * termX v k Ix Iy (phx + 2 * Real.pi * dx) (phy + 2 * Real.pi * dy)
      = exp (I * 2 * Real.pi * dx) * termX v k Ix Iy phx phy := by
  unfold termX adv
  split_ifs
  · have e : exp (I * 2 * Real.pi * (((k.p : ℂ) - k.q) * dx + ((k.r : ℂ) - k.t) * dy))
        * exp (I * ((1 - (k.p : ℂ) + k.q) * ((phx + 2 * Real.pi * dx : ℝ) : ℂ) + ((k.t : ℂ) - k.r) * ((phy + 2 * Real.pi * dy : ℝ) : ℂ)))
        = exp (I * 2 * Real.pi * dx) * exp (I * ((1 - (k.p : ℂ) + k.q) * phx + ((k.t : ℂ) - k.r) * phy)) := by
      rw [← Complex.exp_add, ← Complex.exp_add]; congr 1; push_cast; ring
    linear_combination (k.p * v * (((2 * Ix) ^ (((k.p : ℝ) + k.q - 1) / 2) * (2 * Iy) ^ (((k.r : ℝ) + k.t) / 2) : ℝ) : ℂ)) * e
  · simp

theorem termY_adv (v : ℂ) (k : Key) (Ix Iy phx phy dx dy : ℝ) :
    adv k dx dy * termY v k Ix Iy (phx + 2 * Real.pi * dx) (phy + 2 * Real.pi * dy)
      = exp (I * 2 * Real.pi * dy) * termY v k Ix Iy phx phy := by
  unfold termY adv
  split_ifs
  · have e : exp (I * 2 * Real.pi * (((k.p : ℂ) - k.q) * dx + ((k.r : ℂ) - k.t) * dy))
        * exp (I * (((k.q : ℂ) - k.p) * ((phx + 2 * Real.pi * dx : ℝ) : ℂ) + (1 - (k.r : ℂ) + k.t) * ((phy + 2 * Real.pi * dy : ℝ) : ℂ)))
        = exp (I * 2 * Real.pi * dy) * exp (I * (((k.q : ℂ) - k.p) * phx + (1 - (k.r : ℂ) + k.t) * phy)) := by
      rw [← Complex.exp_add, ← Complex.exp_add]; congr 1; push_cast; ring
    linear_combination (k.r * v * (((2 * Ix) ^ (((k.p : ℝ) + k.q) / 2) * (2 * Iy) ^ (((k.r : ℝ) + k.t - 1) / 2) : ℝ) : ℂ)) * e
  · simp

variable (D : Finset Key) (Ix Iy psix psiy : ℝ)

theorem devX_eq (i N : ℕ) : devX D L rows qx qy Ix Iy psix psiy i N =
    -2 * I * ∑ k ∈ D, termX (f L rows qx qy k i) k Ix Iy (phase qx (2 * Real.pi * (rows i).mux + psix) N)
      (phase qy (2 * Real.pi * (rows i).muy + psiy) N) := by
  unfold devX hxMinus; ring

theorem devY_eq (i N : ℕ) : devY D L rows qx qy Ix Iy psix psiy i N =
    -2 * I * ∑ k ∈ D, termY (f L rows qx qy k i) k Ix Iy (phase qx (2 * Real.pi * (rows i).mux + psix) N)
      (phase qy (2 * Real.pi * (rows i).muy + psiy) N) := by
  unfold devY hyMinus; ring

/-- One step of the motion, for a set of keys. -/
theorem step (i N j K : ℕ) (dx dy : ℝ)
    (hf : ∀ k ∈ D, f L rows qx qy k j = adv k dx dy * f L rows qx qy k i + hl (rows j) k)
    (hx : phase qx (2 * Real.pi * (rows j).mux + psix) K = phase qx (2 * Real.pi * (rows i).mux + psix) N + 2 * Real.pi * dx)
    (hy : phase qy (2 * Real.pi * (rows j).muy + psiy) K = phase qy (2 * Real.pi * (rows i).muy + psiy) N + 2 * Real.pi * dy) :
    devX D L rows qx qy Ix Iy psix psiy j K = exp (I * 2 * Real.pi * dx) * devX D L rows qx qy Ix Iy psix psiy i N
      + -2 * I * ∑ k ∈ D, termX (hl (rows j) k) k Ix Iy (phase qx (2 * Real.pi * (rows j).mux + psix) K)
          (phase qy (2 * Real.pi * (rows j).muy + psiy) K)
    ∧ devY D L rows qx qy Ix Iy psix psiy j K = exp (I * 2 * Real.pi * dy) * devY D L rows qx qy Ix Iy psix psiy i N
      + -2 * I * ∑ k ∈ D, termY (hl (rows j) k) k Ix Iy (phase qx (2 * Real.pi * (rows j).mux + psix) K)
          (phase qy (2 * Real.pi * (rows j).muy + psiy) K) := by
  rw [devX_eq, devX_eq, devY_eq, devY_eq]
  constructor
  · have e : ∀ k ∈ D, termX (f L rows qx qy k j) k Ix Iy (phase qx (2 * Real.pi * (rows j).mux + psix) K)
          (phase qy (2 * Real.pi * (rows j).muy + psiy) K)
        = exp (I * 2 * Real.pi * dx) * termX (f L rows qx qy k i) k Ix Iy (phase qx (2 * Real.pi * (rows i).mux + psix) N)
          (phase qy (2 * Real.pi * (rows i).muy + psiy) N)
        + termX (hl (rows j) k) k Ix Iy (phase qx (2 * Real.pi * (rows j).mux + psix) K)
          (phase qy (2 * Real.pi * (rows j).muy + psiy) K) := by
      intro k hk
      rw [hf k hk, termX_linear, hx, hy, termX_adv]
    rw [Finset.sum_congr rfl e, Finset.sum_add_distrib, ← Finset.mul_sum]; ring
  · have e : ∀ k ∈ D, termY (f L rows qx qy k j) k Ix Iy (phase qx (2 * Real.pi * (rows j).mux + psix) K)
          (phase qy (2 * Real.pi * (rows j).muy + psiy) K)
        = exp (I * 2 * Real.pi * dy) * termY (f L rows qx qy k i) k Ix Iy (phase qx (2 * Real.pi * (rows i).mux + psix) N)
          (phase qy (2 * Real.pi * (rows i).muy + psiy) N)
        + termY (hl (rows j) k) k Ix Iy (phase qx (2 * Real.pi * (rows j).mux + psix) K)
          (phase qy (2 * Real.pi * (rows j).muy + psiy) K) := by
      intro k hk
      rw [hf k hk, termY_linear, hx, hy, termY_adv]
    rw [Finset.sum_congr rfl e, Finset.sum_add_distrib, ← Finset.mul_sum]; ring

/-- The terms which change the tunes: a real factor, along the phase. -/
theorem diag_real (w : Row) (Ix Iy : ℝ) (k : Key) (hk : k.Diag) : ∃ a b : ℝ, ∀ phx phy : ℝ,
    termX (hl w k) k Ix Iy phx phy = a * exp (I * phx) ∧ termY (hl w k) k Ix Iy phx phy = b * exp (I * phy) := by
  obtain ⟨p, q, r, t⟩ := k
  obtain ⟨h1, h2⟩ := hk
  simp only at h1 h2
  subst h1 h2
  have hh : ∃ c : ℝ, hl w ⟨p, p, r, r⟩ = c := by
    have o1 : omega (r + r) = 1 := by unfold omega; rw [if_pos (by omega)]
    have o2 : omega (r + r + 1) = 0 := by unfold omega; rw [if_neg (by omega)]
    have o3 : (I : ℂ) ^ (r + r) = (((-1) ^ r : ℝ) : ℂ) := by
      rw [← two_mul, pow_mul, I_sq]; push_cast; rfl
    refine ⟨-(w.knl ((⟨p, p, r, r⟩ : Key).n - 1) / ((p.factorial : ℝ) * p.factorial * r.factorial * r.factorial)
      / 2 ^ (⟨p, p, r, r⟩ : Key).n * (-1) ^ r * w.betx ^ (((p : ℝ) + p) / 2) * w.bety ^ (((r : ℝ) + r) / 2)), ?_⟩
    unfold hl
    simp only [o1, o2, o3]
    push_cast
    ring
  obtain ⟨c, hc⟩ := hh
  refine ⟨if p ≠ 0 then p * c * ((2 * Ix) ^ (((p : ℝ) + p - 1) / 2) * (2 * Iy) ^ (((r : ℝ) + r) / 2)) else 0,
    if r ≠ 0 then r * c * ((2 * Ix) ^ (((p : ℝ) + p) / 2) * (2 * Iy) ^ (((r : ℝ) + r - 1) / 2)) else 0, ?_⟩
  intro phx phy
  rw [hc]
  constructor
  · unfold termX
    simp only
    split_ifs
    · rw [show (1 - (p : ℂ) + p) * phx + ((r : ℂ) - r) * phy = phx by ring]; push_cast; ring
    · simp
  · unfold termY
    simp only
    split_ifs
    · rw [show ((p : ℂ) - p) * phx + (1 - (r : ℂ) + r) * phy = phy by ring]; push_cast; ring
    · simp

theorem diag_sum (w : Row) (Ix Iy : ℝ) (S : Finset Key) (hS : ∀ k ∈ S, k.Diag) : ∃ a b : ℝ, ∀ phx phy : ℝ,
    ∑ k ∈ S, termX (hl w k) k Ix Iy phx phy = a * exp (I * phx)
      ∧ ∑ k ∈ S, termY (hl w k) k Ix Iy phx phy = b * exp (I * phy) := by
  choose a b hab using fun (k : S) => diag_real w Ix Iy k.1 (hS k.1 k.2)
  refine ⟨∑ k, a k, ∑ k, b k, fun phx phy => ⟨?_, ?_⟩⟩
  · rw [← Finset.sum_attach, Complex.ofReal_sum, Finset.sum_mul, Finset.univ_eq_attach]
    exact Finset.sum_congr rfl fun k _ => (hab k phx phy).1
  · rw [← Finset.sum_attach, Complex.ofReal_sum, Finset.sum_mul, Finset.univ_eq_attach]
    exact Finset.sum_congr rfl fun k _ => (hab k phx phy).2

end

end

end Verif.Rdt
