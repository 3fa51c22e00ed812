import Verif.Rad.Mean
import Mathlib.Algebra.Order.Floor.Ring
import Mathlib.Tactic.IntervalCases

/-! # C111: single photons; C112: number of photons and tables of total energies -/

namespace Verif.Rad

noncomputable section

/-! ## C111 -/

/-- Energies of the photons of the draws. -/
def losses (ec : ℝ) (ds : List (ℝ × ℝ)) : List ℝ := ds.map fun d => d.1 * ec

theorem emitLoop_spec (avg ec : ℝ) : ∀ (ds : List (ℝ × ℝ)) (n : ℝ) (em em' : Emission), 0 < em.energy →
    emitLoop avg ec ds n em = some em' →
    (0 < em'.energy ∧ ∃ k, k ≤ ds.length ∧ em'.nphot = em.nphot + k ∧ em'.recorded = em.recorded ++ losses ec (ds.take k)
        ∧ em'.energy = em.energy - (losses ec (ds.take k)).sum
        ∧ (∀ j < k, n + ((ds.take j).map Prod.snd).sum < avg) ∧ avg ≤ n + ((ds.take k).map Prod.snd).sum)
    ∨ (em'.energy = 0 ∧ ∃ k, k < ds.length ∧ em'.nphot = em.nphot + k + 1 ∧ em'.recorded = em.recorded ++ losses ec (ds.take k)
        ∧ (losses ec (ds.take k)).sum < em.energy ∧ em.energy ≤ (losses ec (ds.take (k + 1))).sum
        ∧ ∀ j ≤ k, n + ((ds.take j).map Prod.snd).sum < avg) := by
  intro ds
  induction ds with
  | nil =>
    intro n em em' he h
    unfold emitLoop at h
    split_ifs at h with hn
    simp only [Option.some.injEq] at h
    subst h
    left
    refine ⟨he, 0, le_rfl, rfl, by simp [losses], by simp [losses], by simp, by simpa using hn⟩
  | cons d rest ih =>
    intro n em em' he h
    obtain ⟨x, e⟩ := d
    unfold emitLoop at h
    split_ifs at h with hn
    · simp only at h
      split_ifs at h with hl
      · simp only [Option.some.injEq] at h
        subst h
        right
        refine ⟨rfl, 0, by simp, rfl, by simp [losses], by simpa [losses] using he, by simpa [losses] using hl, ?_⟩
        intro j hj
        obtain rfl : j = 0 := by omega
        simpa using hn
      · rcases ih _ _ _ (by simpa using hl) h with ⟨h0, k, hk, h1, h2, h3, h4, h5⟩ | ⟨h0, k, hk, h1, h2, h3, h4, h5⟩
        · left
          refine ⟨h0, k + 1, by simpa using hk, by rw [h1]; ring, by rw [h2]; simp [losses], ?_, ?_, ?_⟩
          · rw [h3]; simp [losses]; ring
          · intro j hj
            cases j with
            | zero => simpa using hn
            | succ j => have := h4 j (by omega); simp only [List.take_succ_cons, List.map_cons, List.sum_cons]; linarith
          · simp only [List.take_succ_cons, List.map_cons, List.sum_cons]; linarith
        · right
          refine ⟨h0, k + 1, by simpa using hk, by rw [h1]; ring, by rw [h2]; simp [losses], ?_, ?_, ?_⟩
          · simp only [losses, List.take_succ_cons, List.map_cons, List.sum_cons] at h3 ⊢; linarith
          · simp only [losses, List.take_succ_cons, List.map_cons, List.sum_cons] at h4 ⊢; linarith
          · intro j hj
            cases j with
            | zero => simpa using hn
            | succ j => have := h5 j (by omega); simp only [List.take_succ_cons, List.map_cons, List.sum_cons]; linarith
    · simp only [Option.some.injEq] at h
      subst h
      left
      refine ⟨he, 0, by simp, rfl, by simp [losses], by simp [losses], by simp, by simpa using hn⟩

/-- **C111.**  A particle which survives the emission of photons in a field: the photons are those whose arrival is before
the end of the path, each of them is recorded, the energy has been reduced by just the recorded energies, and the
direction of motion is kept. -/
theorem C111_photons (avg ec B initial n0 : ℝ) (draws : List (ℝ × ℝ)) (m m' : Mom) (n : ℕ) (recs : List ℝ)
    (hB : ¬ |B| < 1 / 10 ^ 4) (hE : 0 < initial) (hd : 0 < 1 + m.delta)
    (h : emitPhotons avg ec B initial n0 draws m = some (.alive m', n, recs)) :
    Events avg (n0 :: draws.map Prod.snd) n ∧ recs = (draws.take n).map (fun d => d.1 * ec) ∧ recs.length = n
      ∧ recs.sum < initial ∧ (1 + m'.delta) * initial = (1 + m.delta) * (initial - recs.sum) ∧ 0 < 1 + m'.delta
      ∧ direction m' = direction m := by
  unfold emitPhotons at h
  rw [if_neg hB] at h
  cases hl : emitLoop avg ec draws n0 ⟨0, [], initial⟩ with
  | none => rw [hl] at h; simp at h
  | some em =>
    rw [hl] at h
    simp only [Option.map_some, Option.some.injEq, Prod.mk.injEq] at h
    obtain ⟨hf, rfl, rfl⟩ := h
    unfold fate at hf
    split_ifs at hf with h0
    simp only [Fate.alive.injEq] at hf
    subst hf
    rcases emitLoop_spec _ _ _ _ _ _ hE hl with ⟨hp, k, hk, h1, h2, h3, h4, h5⟩ | ⟨hz, _⟩
    · simp only [zero_add, List.nil_append] at h1 h2 h3
      rw [h1, h2, h3]
      have hf : 0 < (initial - (losses ec (draws.take k)).sum) / initial := div_pos (by rw [← h3]; exact hp) hE
      refine ⟨⟨by simpa using Nat.lt_succ_of_le hk, ?_, by simpa using h5⟩, rfl, by simp [losses, hk], by linarith, ?_, ?_,
        scale_direction _ _ hf.ne'⟩
      · intro j hj1 hj
        obtain ⟨i, rfl⟩ : ∃ i, j = i + 1 := ⟨j - 1, by omega⟩
        have := h4 i (by omega)
        simpa using this
      · simp only [scale]
        field_simp
        ring
      · simp only [scale]
        have := mul_pos (show 0 < m.delta + 1 by linarith) hf
        linarith
    · exact absurd hz.le h0

/-- **C111.**  A particle is lost just if the photons take all its energy. -/
theorem C111_lost (avg ec B initial n0 : ℝ) (draws : List (ℝ × ℝ)) (m : Mom) (n : ℕ) (recs : List ℝ)
    (hB : ¬ |B| < 1 / 10 ^ 4) (hE : 0 < initial)
    (h : emitPhotons avg ec B initial n0 draws m = some (.lost, n, recs)) :
    initial ≤ ((draws.take n).map fun d => d.1 * ec).sum ∧ recs = (draws.take (n - 1)).map (fun d => d.1 * ec)
      ∧ recs.sum < initial ∧ 1 ≤ n ∧ n ≤ draws.length := by
  unfold emitPhotons at h
  rw [if_neg hB] at h
  cases hl : emitLoop avg ec draws n0 ⟨0, [], initial⟩ with
  | none => rw [hl] at h; simp at h
  | some em =>
    rw [hl] at h
    simp only [Option.map_some, Option.some.injEq, Prod.mk.injEq] at h
    obtain ⟨hf, rfl, rfl⟩ := h
    unfold fate at hf
    split_ifs at hf with h0
    rcases emitLoop_spec _ _ _ _ _ _ hE hl with ⟨hp, _⟩ | ⟨_, k, hk, h1, h2, h3, h4, h5⟩
    · exact absurd h0 (not_le.mpr hp)
    · simp only [zero_add, List.nil_append] at h1 h2
      rw [h1, h2]
      exact ⟨h4, rfl, h3, by omega, by omega⟩

/-- Two photons and a third which would be too late. -/
example : ∃ m', emitPhotons 2 1 1 10 (1 / 2) [(1, 1), (2, 1), (3, 1)] ⟨0, 0, 0⟩ = some (.alive m', 2, [1, 2]) := by
  refine ⟨scale (7 / 10) ⟨0, 0, 0⟩, ?_⟩
  norm_num [emitPhotons, emitLoop, fate]

/-- **C111, violation.**  The photon which takes the last energy is counted and the particle is lost, but it is not in the
record: the recorded energies do not add up to what was radiated. -/
theorem C111_last_photon_violated : ∃ n recs,
    emitPhotons 1 1 1 10 (1 / 2) [(20, 1)] ⟨0, 0, 0⟩ = some (.lost, n, recs) ∧ n = 1 ∧ recs = [] := by
  refine ⟨1, [], ?_, rfl, rfl⟩
  norm_num [emitPhotons, emitLoop, fate]

/-- **C111, partial.**  The momentum is scaled by the ratio of energies, so the energy of the particle is not reduced
by just the energy of the photons; the difference is at most `m^2 (1 - f^2) / (2 f E)`. -/
theorem C111_energy_partial (P mass f : ℝ) (hP : 0 < P) (hf : 0 < f) (hf1 : f ≤ 1) :
    f * energyOf P mass ≤ energyOf (f * P) mass
      ∧ energyOf (f * P) mass - f * energyOf P mass ≤ mass ^ 2 * (1 - f ^ 2) / (2 * f * energyOf P mass) := by
  have hE : 0 < energyOf P mass := Real.sqrt_pos.mpr (by positivity)
  have hE2 : energyOf P mass ^ 2 = P ^ 2 + mass ^ 2 := Real.sq_sqrt (by positivity)
  have hE' : 0 ≤ energyOf (f * P) mass := Real.sqrt_nonneg _
  have hE'2 : energyOf (f * P) mass ^ 2 = (f * P) ^ 2 + mass ^ 2 := Real.sq_sqrt (by positivity)
  have h1 : f * energyOf P mass ≤ energyOf (f * P) mass := by
    apply le_of_sq_le_sq _ hE'
    rw [hE'2, mul_pow, hE2]
    have : 0 ≤ mass ^ 2 * (1 - f ^ 2) := mul_nonneg (sq_nonneg _) (by nlinarith)
    nlinarith
  refine ⟨h1, ?_⟩
  rw [le_div_iff₀ (by positivity)]
  have h2 : (energyOf (f * P) mass - f * energyOf P mass) * (energyOf (f * P) mass + f * energyOf P mass) = mass ^ 2 * (1 - f ^ 2) := by
    have : (energyOf (f * P) mass - f * energyOf P mass) * (energyOf (f * P) mass + f * energyOf P mass)
      = energyOf (f * P) mass ^ 2 - f ^ 2 * energyOf P mass ^ 2 := by ring
    rw [this, hE2, hE'2]; ring
  rw [← h2]
  apply mul_le_mul_of_nonneg_left _ (by linarith)
  linarith

/-- **C111, violation.**  A uniform number below `1e-50` should be drawn again (`continue`), but in a `do … while` this goes to
the condition, which accepts: the photon has the energy zero. -/
theorem C111_retry_violated (S : ℝ → ℝ) (a1 a2 ratio : ℝ) (hr : ratio < 1) (fuel : ℕ) (v : ℝ) (us : List ℝ) :
    ∃ u < 1, genPhoton S a1 a2 ratio (fuel + 1) (u :: 0 :: v :: us) = some 0 := by
  refine ⟨(max ratio 0 + 1) / 2, ?_, ?_⟩
  · have : max ratio 0 < 1 := max_lt hr one_pos
    linarith
  · have : ¬ (max ratio 0 + 1) / 2 < ratio := by
      have := le_max_left ratio 0
      have h1 : max ratio 0 < 1 := max_lt hr one_pos
      linarith
    unfold genPhoton photonLoop
    simp only
    rw [if_neg this, if_pos (by positivity), if_neg (by norm_num)]

/-! ## C112 -/

theorem arrivals_spec (avg : ℝ) : ∀ (es : List ℝ) (n : ℝ) (c z : ℤ), arrivals avg es n c = some z ↔
    ∃ k : ℕ, z = c + k ∧ k ≤ es.length ∧ (∀ j < k, n + (es.take j).sum < avg) ∧ avg ≤ n + (es.take k).sum := by
  intro es
  induction es with
  | nil =>
    intro n c z
    unfold arrivals
    split_ifs with hn
    · simp only [reduceCtorEq, false_iff]
      rintro ⟨k, -, hk, -, h⟩
      simp at h
      linarith
    · simp only [Option.some.injEq]
      constructor
      · rintro rfl; exact ⟨0, by simp, by simp, by simp, by simpa using hn⟩
      · rintro ⟨k, rfl, hk, -⟩
        obtain rfl : k = 0 := by simpa using hk
        simp
  | cons e es ih =>
    intro n c z
    unfold arrivals
    split_ifs with hn
    · simp only
      rw [ih]
      constructor
      · rintro ⟨k, rfl, hk, h1, h2⟩
        refine ⟨k + 1, by push_cast; ring, by simpa using hk, ?_, ?_⟩
        · intro j hj
          cases j with
          | zero => simpa using hn
          | succ j => have := h1 j (by omega); simp only [List.take_succ_cons, List.sum_cons]; linarith
        · simp only [List.take_succ_cons, List.sum_cons]; linarith
      · rintro ⟨k, rfl, hk, h1, h2⟩
        cases k with
        | zero => simp at h2; linarith
        | succ k =>
          refine ⟨k, by push_cast; ring, by simpa using hk, ?_, ?_⟩
          · intro j hj
            have := h1 (j + 1) (by omega)
            simp only [List.take_succ_cons, List.sum_cons] at this
            linarith
          · simp only [List.take_succ_cons, List.sum_cons] at h2; linarith
    · simp only [Option.some.injEq]
      constructor
      · rintro rfl; exact ⟨0, by simp, by simp, by simp, by simpa using hn⟩
      · rintro ⟨k, rfl, hk, h1, -⟩
        cases k with
        | zero => simp
        | succ k => have := h1 0 (by omega); simp at this; exact absurd this hn

theorem knuth_arrivals (avg : ℝ) : ∀ (us : List ℝ) (u n : ℝ) (c : ℤ), 0 < u → (∀ v ∈ us, 0 < v) →
    knuth (Real.exp (-avg)) (u :: us) (Real.exp (-n)) c
      = arrivals avg (us.map fun u => -Real.log u) (n - Real.log u) (c + 1) := by
  intro us
  induction us with
  | nil =>
    intro u n c hu _
    have e : Real.exp (-n) * u = Real.exp (-(n - Real.log u)) := by
      rw [neg_sub, sub_eq_add_neg, Real.exp_add, Real.exp_log hu, mul_comm]
    unfold knuth arrivals
    rw [e]
    simp only [Real.exp_lt_exp, neg_lt_neg_iff]
    split_ifs <;> rfl
  | cons v us ih =>
    intro u n c hu hall
    have e : Real.exp (-n) * u = Real.exp (-(n - Real.log u)) := by
      rw [neg_sub, sub_eq_add_neg, Real.exp_add, Real.exp_log hu, mul_comm]
    rw [knuth, e, ih v (n - Real.log u) (c + 1) (hall v (by simp)) fun w hw => hall w (by simp [hw])]
    conv_rhs => unfold arrivals
    simp only [Real.exp_lt_exp, neg_lt_neg_iff, List.map_cons]
    split_ifs
    · rw [← sub_eq_add_neg]
    · rfl

/-- **C112.**  Below and above the limit of 700 the number of photons is the number of arrivals of a Poisson process, with
exponential distances `-log u`, before the mean number: the two ways of counting are the same. -/
theorem C112_count (avg : ℝ) (hav : 0 < avg) (us : List ℝ) (hu : ∀ u ∈ us, 0 < u) (k : ℕ) :
    photonCount avg us = some (k : ℤ) ↔ Events avg (us.map fun u => -Real.log u) k := by
  have key : ∀ u us', us = u :: us' → (arrivals avg (us'.map fun u => -Real.log u) (-Real.log u) 0 = some (k : ℤ)
      ↔ Events avg (us.map fun u => -Real.log u) k) := by
    rintro u us' rfl
    rw [arrivals_spec]
    constructor
    · rintro ⟨k', hk', hk, h1, h2⟩
      obtain rfl : k = k' := by omega
      simp only [List.length_map] at hk
      refine ⟨by simpa using Nat.lt_succ_of_le hk, ?_, by simpa using h2⟩
      intro j hj1 hj
      obtain ⟨i, rfl⟩ : ∃ i, j = i + 1 := ⟨j - 1, by omega⟩
      simpa using h1 i (by omega)
    · rintro ⟨h0, h1, h2⟩
      refine ⟨k, by simp, by simpa using Nat.lt_succ_iff.mp (by simpa using h0), ?_, by simpa using h2⟩
      intro j hj
      simpa using h1 (j + 1) (by omega) (by omega)
  unfold photonCount
  rw [if_neg (not_le.mpr hav)]
  cases us with
  | nil => split_ifs <;> simp [knuth, Events]
  | cons u us' =>
    have hk := knuth_arrivals avg us' u 0 (-1) (hu u (by simp)) fun v hv => hu v (by simp [hv])
    rw [neg_zero, Real.exp_zero, zero_sub] at hk
    split_ifs
    · rw [hk]; exact key u us' rfl
    · exact key u us' rfl

/-- For a mean of zero there are no photons. -/
theorem C112_count_zero (us : List ℝ) : photonCount 0 us = some 0 := by simp [photonCount]

/-- One photon: the first arrival before one, the second not. -/
example : Events 1 ([Real.exp (-1 / 2), Real.exp (-2)].map fun u => -Real.log u) 1 := by
  refine ⟨by simp, ?_, ?_⟩
  · intro j h1 h2
    obtain rfl : j = 1 := by omega
    norm_num
  · norm_num

theorem doubling_spec (value : ℕ) : ∀ fuel k, 2 ^ k ≤ value → ∃ j, doubling value fuel (2 ^ k) = 2 ^ j ∧ 2 ^ j ≤ value := by
  intro fuel
  induction fuel with
  | zero => intro k hk; exact ⟨k, rfl, hk⟩
  | succ fuel ih =>
    intro k hk
    unfold doubling
    split_ifs with h
    · have := ih (k + 1) (by rw [pow_succ]; omega)
      rwa [pow_succ] at this
    · exact ⟨k, rfl, hk⟩

theorem largestPower_spec (value : ℕ) (h : 1 ≤ value) : hasPower (largestPower value) ∧ 1 ≤ largestPower value ∧ largestPower value ≤ value := by
  obtain ⟨j, h1, h2⟩ := doubling_spec value value 0 (by simpa using h)
  rw [pow_zero] at h1
  unfold largestPower
  simp only
  rw [h1]
  split_ifs with hc
  · exact ⟨⟨8, by omega, by norm_num⟩, by omega, by omega⟩
  · refine ⟨⟨j, ?_, rfl⟩, Nat.one_le_two_pow, h2⟩
    by_contra hj
    have : 2 ^ 9 ≤ 2 ^ j := Nat.pow_le_pow_right (by norm_num) (by omega)
    norm_num at this
    omega

theorem chunks_spec : ∀ fuel left, left ≤ fuel → (chunks fuel left).1.sum + (chunks fuel left).2 = left
    ∧ (∀ x ∈ (chunks fuel left).1, hasPower x) ∧ (chunks fuel left).2 ≤ 32 := by
  intro fuel
  induction fuel with
  | zero => intro left h; obtain rfl : left = 0 := by omega
            simp [chunks]
  | succ fuel ih =>
    intro left h
    unfold chunks
    split_ifs with h32
    · obtain ⟨hp, h1, h2⟩ := largestPower_spec left (by omega)
      obtain ⟨i1, i2, i3⟩ := ih (left - largestPower left) (by omega)
      refine ⟨?_, ?_, i3⟩
      · simp only [List.sum_cons]; omega
      · intro x hx
        simp only [List.mem_cons] at hx
        rcases hx with rfl | hx
        · exact hp
        · exact i2 x hx
    · exact ⟨by simp, by simp, by simpa using h32⟩

/-- **C112.**  The photons are divided into groups for which there is a table, and no photon is left out or counted twice. -/
theorem C112_groups (nphot : ℕ) : (chunks nphot nphot).1.sum + (chunks nphot nphot).2 = nphot
    ∧ (∀ x ∈ (chunks nphot nphot).1, hasPower x) ∧ ((chunks nphot nphot).2 = 0 ∨ hasDirect (chunks nphot nphot).2) := by
  obtain ⟨h1, h2, h3⟩ := chunks_spec nphot nphot le_rfl
  refine ⟨h1, h2, ?_⟩
  unfold hasDirect
  omega

/-- So tables which are exact for equal photons give the exact sum. -/
theorem C112_total (e : ℝ) (power direct : ℕ → ℝ → ℝ) (hp : ∀ n u, hasPower n → power n u = n * e)
    (hd : ∀ n u, hasDirect n → direct n u = n * e) (nphot : ℕ) (us : List ℝ) (hl : nphot ≤ us.length) :
    totalEnergy power direct nphot us = nphot * e := by
  obtain ⟨h1, h2, h3⟩ := C112_groups nphot
  have hz : ∀ (cs : List ℕ) (us : List ℝ), (∀ x ∈ cs, hasPower x) → cs.length ≤ us.length →
      (List.zipWith power cs us).sum = cs.sum * e := by
    intro cs
    induction cs with
    | nil => intro us _ _; simp
    | cons c cs ih =>
      intro us hc hlen
      cases us with
      | nil => simp at hlen
      | cons u us =>
        simp only [List.zipWith_cons_cons, List.sum_cons]
        rw [hp c u (hc c (by simp)), ih us (fun x hx => hc x (by simp [hx])) (by simpa using hlen)]
        push_cast
        ring
  have hlen : (chunks nphot nphot).1.length ≤ us.length := by
    refine le_trans ?_ hl
    have : ∀ cs : List ℕ, (∀ x ∈ cs, hasPower x) → cs.length ≤ cs.sum := by
      intro cs
      induction cs with
      | nil => simp
      | cons c cs ih =>
        intro hc
        obtain ⟨k, -, hk⟩ := hc c (by simp)
        have := Nat.one_le_two_pow (n := k)
        have := ih fun x hx => hc x (by simp [hx])
        simp only [List.length_cons, List.sum_cons]
        omega
    have := this _ h2
    omega
  unfold totalEnergy
  simp only
  rw [hz _ _ h2 hlen]
  have h1' : ((chunks nphot nphot).1.sum : ℝ) + ((chunks nphot nphot).2 : ℝ) = nphot := by exact_mod_cast h1
  split_ifs with h
  · rw [hd _ _ (h3.resolve_left (by omega)), ← h1']; ring
  · have : (chunks nphot nphot).2 = 0 := by omega
    rw [this] at h1'
    rw [← h1']; push_cast; ring

/-- **C112.**  The total energy taken from the tables reduces the momentum in proportion and keeps the direction; the particle is
lost just if there are photons and they take all energy. -/
theorem C112_emit (B initial total ec : ℝ) (nphot : ℕ) (m : Mom) (hB : ¬ |B| < 1 / 10 ^ 4) (hE : 0 < initial) (hd : 0 < 1 + m.delta)
    (h0 : nphot = 0 → total = 0) :
    (emitTotal B initial nphot total ec m = .lost ↔ initial ≤ total * ec)
      ∧ ∀ m', emitTotal B initial nphot total ec m = .alive m' →
        (1 + m'.delta) * initial = (1 + m.delta) * (initial - total * ec) ∧ direction m' = direction m ∧ 0 < 1 + m'.delta := by
  unfold emitTotal
  rw [if_neg hB]
  by_cases hn : nphot = 0
  · rw [if_pos hn, h0 hn]
    refine ⟨by simp [hE], ?_⟩
    intro m' hm
    simp only [Fate.alive.injEq] at hm
    subst hm
    exact ⟨by ring, rfl, hd⟩
  · rw [if_neg hn]
    by_cases hl : total * ec ≥ initial
    · simp only [if_pos hl, ge_iff_le, le_refl, if_true]
      exact ⟨by simpa using hl, by simp⟩
    · simp only [if_neg hl]
      refine ⟨by simpa using hl, ?_⟩
      intro m' hm
      simp only [Fate.alive.injEq] at hm
      subst hm
      have hf : 0 < (initial - total * ec) / initial := div_pos (by linarith) hE
      refine ⟨?_, scale_direction _ _ hf.ne', ?_⟩
      · simp only [scale]; field_simp; ring
      · simp only [scale]
        have := mul_pos (show 0 < m.delta + 1 by linarith) hf
        linarith

/-- **C112.**  In both kinds of grid the interval which is found holds the value. -/
theorem C112_index_log (value : ℝ) (grid : ℕ → ℝ) (size : ℕ) (hg : LogGrid grid size) (h0 : grid 0 < value)
    (h1 : value < grid (size - 1)) :
    ∃ i : ℕ, gridIndex value grid size true = i ∧ i + 1 < size ∧ grid i ≤ value ∧ value < grid (i + 1) := by
  obtain ⟨hs, hz, a, rho, ha, hrho, hgrid⟩ := hg
  have hg1 : grid 1 = a := by simpa using hgrid 0 (by omega)
  obtain ⟨n, rfl⟩ : ∃ n, size = n + 3 := ⟨size - 3, by omega⟩
  have hlast : grid (n + 3 - 1) = a * rho ^ (n + 1) := by
    have := hgrid (n + 1) (by omega)
    simpa using this
  unfold gridIndex
  rw [if_neg (not_le.mpr h0), if_neg (not_le.mpr h1)]
  simp only [if_true]
  by_cases hv : value < grid 1
  · rw [if_pos hv]
    exact ⟨0, by simp, by omega, h0.le, hv⟩
  · rw [if_neg hv, hlast, hg1]
    rw [hg1] at hv
    rw [hlast] at h1
    have hva : 0 < value := lt_of_lt_of_le ha (not_lt.mp hv)
    have hlr : 0 < Real.log rho := Real.log_pos hrho
    have ex : (Real.log value - Real.log a) / (Real.log (a * rho ^ (n + 1)) - Real.log a) * (((n + 3 : ℕ) : ℝ) - 2)
        = Real.log (value / a) / Real.log rho := by
      rw [Real.log_mul ha.ne' (by positivity), Real.log_pow, Real.log_div hva.ne' ha.ne']
      have : ((n : ℝ) + 1) ≠ 0 := by positivity
      push_cast
      field_simp
      ring
    rw [ex]
    have hx0 : 0 ≤ Real.log (value / a) / Real.log rho :=
      div_nonneg (Real.log_nonneg ((one_le_div ha).mpr (not_lt.mp hv))) hlr.le
    obtain ⟨k, hk⟩ : ∃ k : ℕ, ⌊Real.log (value / a) / Real.log rho⌋ = k :=
      ⟨_, (Int.toNat_of_nonneg (Int.floor_nonneg.mpr hx0)).symm⟩
    have hk1 : (k : ℝ) ≤ Real.log (value / a) / Real.log rho := by
      have := Int.floor_le (Real.log (value / a) / Real.log rho); rw [hk] at this; exact_mod_cast this
    have hk2 : Real.log (value / a) / Real.log rho < k + 1 := by
      have := Int.lt_floor_add_one (Real.log (value / a) / Real.log rho); rw [hk] at this; exact_mod_cast this
    have hpow : ∀ j : ℕ, Real.log (rho ^ j) = j * Real.log rho := fun j => Real.log_pow rho j
    have hva' : 0 < value / a := div_pos hva ha
    have hlo : rho ^ k ≤ value / a := by
      rw [← Real.log_le_log_iff (by positivity) hva', hpow]
      rwa [le_div_iff₀ hlr] at hk1
    have hhi : value / a < rho ^ (k + 1) := by
      rw [← Real.log_lt_log_iff hva' (by positivity), hpow]
      rw [div_lt_iff₀ hlr] at hk2
      push_cast; exact hk2
    have hkn : k < n + 1 := by
      have h2 : rho ^ k < rho ^ (n + 1) := lt_of_le_of_lt hlo (by rw [div_lt_iff₀ ha, mul_comm]; exact h1)
      exact (pow_lt_pow_iff_right₀ hrho).mp h2
    refine ⟨k + 1, ?_, by omega, ?_, ?_⟩
    · rw [hk]
      unfold clampIdx
      simp only
      rw [if_neg (by omega), if_neg (by push_cast; omega)]
      push_cast; ring
    · rw [hgrid k (by omega), mul_comm]
      exact (le_div_iff₀ ha).mp hlo
    · rw [hgrid (k + 1) (by omega), mul_comm]
      exact (div_lt_iff₀ ha).mp hhi

theorem C112_index_lin (value : ℝ) (grid : ℕ → ℝ) (size : ℕ) (hg : LinGrid grid size) (h0 : grid 0 < value)
    (h1 : value < grid (size - 1)) :
    ∃ i : ℕ, gridIndex value grid size false = i ∧ i + 1 < size ∧ grid i ≤ value ∧ value < grid (i + 1) := by
  obtain ⟨hs, a, d, hd, hgrid⟩ := hg
  obtain ⟨n, rfl⟩ : ∃ n, size = n + 2 := ⟨size - 2, by omega⟩
  have hg0 : grid 0 = a := by simpa using hgrid 0 (by omega)
  have hlast : grid (n + 2 - 1) = a + d * (n + 1) := by
    have := hgrid (n + 1) (by omega)
    simpa using this
  unfold gridIndex
  rw [if_neg (not_le.mpr h0), if_neg (not_le.mpr h1)]
  simp only [Bool.false_eq_true, if_false]
  rw [hlast] at h1 ⊢
  rw [hg0] at h0 ⊢
  have hdu : (a + d * (n + 1) - a) / (((n + 2 : ℕ) : ℝ) - 1) = d := by
    have : ((n : ℝ) + 1) ≠ 0 := by positivity
    push_cast
    rw [div_eq_iff (by intro h; apply this; linarith)]
    ring
  rw [hdu]
  have hx0 : 0 ≤ (value - a) / d := div_nonneg (by linarith) hd.le
  obtain ⟨k, hk⟩ : ∃ k : ℕ, ⌊(value - a) / d⌋ = k := ⟨_, (Int.toNat_of_nonneg (Int.floor_nonneg.mpr hx0)).symm⟩
  have hk1 : (k : ℝ) ≤ (value - a) / d := by
    have := Int.floor_le ((value - a) / d); rw [hk] at this; exact_mod_cast this
  have hk2 : (value - a) / d < k + 1 := by
    have := Int.lt_floor_add_one ((value - a) / d); rw [hk] at this; exact_mod_cast this
  rw [le_div_iff₀ hd] at hk1
  rw [div_lt_iff₀ hd] at hk2
  have hkn : k < n + 1 := by
    by_contra h
    have : ((n : ℝ) + 1) ≤ k := by exact_mod_cast not_lt.mp h
    nlinarith
  refine ⟨k, ?_, by omega, ?_, ?_⟩
  · rw [hk]
    unfold clampIdx
    simp only
    rw [if_neg (by omega), if_neg (by push_cast; omega)]
  · rw [hgrid k (by omega)]; linarith
  · rw [hgrid (k + 1) (by omega)]; push_cast; linarith

/-- **C112.**  The interpolated energy is between the two entries of the table for the neighbours of the value on the grid. -/
theorem C112_interpolate (value : ℝ) (grid table : ℕ → ℝ) (size : ℕ) (log : Bool)
    (hg : if log then LogGrid grid size else LinGrid grid size) (h0 : grid 0 ≤ value) (h1 : value ≤ grid (size - 1)) :
    ∃ i w, i + 1 < size ∧ grid i ≤ value ∧ value ≤ grid (i + 1) ∧ 0 ≤ w ∧ w ≤ 1
      ∧ (value = grid i → w = 0) ∧ (value = grid (i + 1) → w = 1)
      ∧ interpolate value grid table size log = (1 - w) * table i + w * table (i + 1) := by
  have hsz : 2 ≤ size := by cases log <;> simp only [if_true, Bool.false_eq_true, if_false] at hg <;> [exact hg.1; (have := hg.1; omega)]
  have hmono : ∀ i, i + 1 < size → grid i < grid (i + 1) := by
    intro i hi
    cases log with
    | true =>
      simp only [if_true] at hg
      obtain ⟨_, hz, a, rho, ha, hrho, hgr⟩ := hg
      cases i with
      | zero => rw [hz, hgr 0 hi]; simpa using ha
      | succ i =>
        rw [hgr i (by omega), hgr (i + 1) hi, pow_succ]
        have : 0 < rho ^ i := by positivity
        have : 0 < a * rho ^ i := by positivity
        nlinarith
    | false =>
      simp only [Bool.false_eq_true, if_false] at hg
      obtain ⟨_, a, d, hd, hgr⟩ := hg
      rw [hgr i (by omega), hgr (i + 1) hi]
      push_cast
      linarith
  unfold interpolate
  by_cases e0 : value ≤ grid 0
  · have hv : value = grid 0 := le_antisymm e0 h0
    rw [if_pos e0]
    refine ⟨0, 0, by omega, h0, ?_, le_rfl, zero_le_one, fun _ => rfl, ?_, by ring⟩
    · rw [hv]; exact (hmono 0 (by omega)).le
    · intro h; have := hmono 0 (by omega); rw [← hv, ← h] at this; exact absurd this (lt_irrefl _)
  rw [if_neg e0]
  by_cases e1 : value ≥ grid (size - 1)
  · have hv : value = grid (size - 1) := le_antisymm h1 e1
    rw [if_pos e1]
    have hs : size - 2 + 1 = size - 1 := by omega
    have hm := hmono (size - 2) (by omega)
    rw [hs] at hm
    refine ⟨size - 2, 1, by omega, ?_, ?_, zero_le_one, le_rfl, ?_, fun _ => rfl, ?_⟩
    · rw [hv]; exact hm.le
    · rw [hs]; exact h1
    · intro h; rw [← hv, ← h] at hm; exact absurd hm (lt_irrefl _)
    · rw [hs]; ring
  rw [if_neg e1]
  have hidx : ∃ i : ℕ, gridIndex value grid size log = i ∧ i + 1 < size ∧ grid i ≤ value ∧ value < grid (i + 1) := by
    cases log with
    | true => exact C112_index_log value grid size (by simpa using hg) (not_le.mp e0) (not_le.mp e1)
    | false => exact C112_index_lin value grid size (by simpa using hg) (not_le.mp e0) (not_le.mp e1)
  obtain ⟨i, hi, hi1, hlo, hhi⟩ := hidx
  simp only [hi, Int.toNat_natCast]
  have hm := hmono i hi1
  split_ifs with hl
  · obtain ⟨-, hl1, hl2⟩ := hl
    have hd : 0 < Real.log (grid (i + 1)) - Real.log (grid i) := sub_pos.mpr (Real.log_lt_log hl1 hm)
    have n0 : Real.log (grid i) ≤ Real.log value := Real.log_le_log hl1 hlo
    have n1 : Real.log value ≤ Real.log (grid (i + 1)) := Real.log_le_log hl2 hhi.le
    refine ⟨i, _, hi1, hlo, hhi.le, div_nonneg (by linarith) hd.le, (div_le_one hd).mpr (by linarith), ?_, ?_, rfl⟩
    · intro h; rw [h, sub_self, zero_div]
    · intro h; exact absurd h hhi.ne
  · have hd : 0 < grid (i + 1) - grid i := sub_pos.mpr hm
    refine ⟨i, _, hi1, hlo, hhi.le, div_nonneg (by linarith) hd.le, (div_le_one hd).mpr (by linarith), ?_, ?_, rfl⟩
    · intro h; rw [h, sub_self, zero_div]
    · intro h; exact absurd h hhi.ne

/-- A grid of the tails and one of the centre. -/
example : LogGrid (fun i => if i = 0 then 0 else 2 ^ (i - 1)) 4 :=
  ⟨by norm_num, by simp, 1, 2, by norm_num, by norm_num, fun i _ => by simp⟩

example : LinGrid (fun i => (i : ℝ)) 5 := ⟨by norm_num, 0, 1, by norm_num, fun i _ => by ring⟩

end

end Verif.Rad
