import Verif.Rng.Lemmas
import Mathlib.Tactic.Linarith
import Mathlib.Tactic.Positivity
import Mathlib.Tactic.NormNum
import Mathlib.Tactic.FieldSimp

/-!
# Properties of the random generators (C15, C16, C52)
-/

namespace Verif.Rng

/-! ## C15 -/

/-- The range each component has to stay in (the conditions quoted in the source of the generator,
base_rng.h:47-51: `s1 ≥ 2`, `s2 ≥ 8`, `s3 ≥ 16`). -/
def Valid (r : Rng) : Prop := 2 ≤ r.s1.toNat ∧ 8 ≤ r.s2.toNat ∧ 16 ≤ r.s3.toNat

/-- `n` draws. -/
def draws : Nat → Rng → Rng
  | 0, r => r
  | n + 1, r => draws n (getInt32 r).2

theorem valid_next {r : Rng} (h : Valid r) : Valid (next r) := by
  obtain ⟨h1, h2, h3⟩ := h
  refine ⟨?_, ?_, ?_⟩
  · show 2 ≤ (t1 r.s1).toNat
    rw [t1_eq]; exact tausworthe_range (m := 1) (by omega) (by omega) (by omega) (by omega) h1
  · show 8 ≤ (t2 r.s2).toNat
    rw [t2_eq]; exact tausworthe_range (m := 3) (by omega) (by omega) (by omega) (by omega) h2
  · show 16 ≤ (t3 r.s3).toNat
    rw [t3_eq]; exact tausworthe_range (m := 4) (by omega) (by omega) (by omega) (by omega) h3

theorem bump_ge (s : U32) (k : Nat) (hk : k < 2 ^ 16) :
    k ≤ (if s < BitVec.ofNat 32 k then s + BitVec.ofNat 32 k else s).toNat := by
  have hk' : (BitVec.ofNat 32 k).toNat = k := by
    rw [BitVec.toNat_ofNat]; exact Nat.mod_eq_of_lt (by omega)
  by_cases h : s < BitVec.ofNat 32 k
  · rw [if_pos h, BitVec.toNat_add, hk']
    have h1 : s.toNat < k := by have := BitVec.lt_def.mp h; omega
    rw [Nat.mod_eq_of_lt (by omega)]; omega
  · rw [if_neg h]
    have h1 : ¬ s.toNat < k := fun hc => h (BitVec.lt_def.mpr (by omega))
    omega

theorem valid_seed (s : U32) : Valid (rngSet s) := by
  unfold rngSet
  iterate 6 apply valid_next
  exact ⟨bump_ge _ 2 (by omega), bump_ge _ 8 (by omega), bump_ge _ 16 (by omega)⟩

theorem valid_draws {r : Rng} (h : Valid r) (n : Nat) : Valid (draws n r) := by
  induction n generalizing r with
  | zero => exact h
  | succ n ih => exact ih (valid_next h)

theorem not_unset {r : Rng} (h : Valid r) : isUnset r = false := by
  have : r.s1 ≠ 0#32 := by
    intro h0
    have := h.1
    rw [h0] at this
    simp at this
  simp [isUnset, this]

/-- **C15.**  For every seed and any number of draws: the components are in their ranges, the state
is recognised as seeded, and the sample returned by the next draw lies in `[0, 1)`. -/
theorem C15_seeded_stream (seed : U32) (n : Nat) :
    Valid (draws n (rngSet seed)) ∧ isUnset (draws n (rngSet seed)) = false ∧
    0 ≤ ((getInt32 (draws n (rngSet seed))).1.toNat : ℚ) / 4294967296 ∧
    ((getInt32 (draws n (rngSet seed))).1.toNat : ℚ) / 4294967296 < 1 := by
  have h := valid_draws (valid_seed seed) n
  refine ⟨h, not_unset h, by positivity, ?_⟩
  have h2 : (getInt32 (draws n (rngSet seed))).1.toNat < 4294967296 := BitVec.isLt _
  rw [div_lt_one (by norm_num)]
  exact_mod_cast h2

/-- The bits of the state that influence later draws. -/
def SameStream (r r' : Rng) : Prop :=
  (∀ i, 1 ≤ i → i < 32 → r.s1.getLsbD i = r'.s1.getLsbD i) ∧
  (∀ i, 3 ≤ i → i < 32 → r.s2.getLsbD i = r'.s2.getLsbD i) ∧
  (∀ i, 4 ≤ i → i < 32 → r.s3.getLsbD i = r'.s3.getLsbD i) ∧ r.s4 = r'.s4

theorem t4_injective {s t : U32} (h : t4 s = t4 t) : s = t := by
  unfold t4 lcg at h
  have h2 : 1664525#32 * s = 1664525#32 * t := by
    have := congrArg (fun x => x - 1013904223#32) h
    simpa using this
  have h3 := congrArg (fun x => 4276115653#32 * x) h2
  simp only [← BitVec.mul_assoc] at h3
  have e : 4276115653#32 * 1664525#32 = 1#32 := by decide +kernel
  rw [e, BitVec.one_mul, BitVec.one_mul] at h3
  exact h3

/-- **C15, no collapse.**  Two different streams never run into each other: if after any number of
draws two generators are in the same state (up to the bits that no later draw uses), they were
already in the same state at the beginning.  In particular no information is ever lost. -/
theorem C15_streams_never_merge (r r' : Rng) (n : Nat) (h : SameStream (draws n r) (draws n r')) :
    SameStream r r' := by
  induction n generalizing r r' with
  | zero => exact h
  | succ n ih =>
    obtain ⟨h1, h2, h3, h4⟩ := ih _ _ h
    refine ⟨?_, ?_, ?_, t4_injective h4⟩
    · apply tausworthe_injective (a := 13) (b := 19) (d := 12) <;> try omega
      intro j hj hj2
      rw [← t1_eq, ← t1_eq]; exact h1 j hj hj2
    · apply tausworthe_injective (a := 2) (b := 25) (d := 4) <;> try omega
      intro j hj hj2
      rw [← t2_eq, ← t2_eq]; exact h2 j hj hj2
    · apply tausworthe_injective (a := 3) (b := 11) (d := 17) <;> try omega
      intro j hj hj2
      rw [← t3_eq, ← t3_eq]; exact h3 j hj hj2

/-- Different streams exist. -/
example : ¬ SameStream (rngSet 1#32) (rngSet 2#32) := by
  intro h
  exact absurd h.2.2.2 (by decide +kernel)

/-- Distinct seeds need not give distinct streams: seed 0 and one other seed collide. -/
theorem C15_seed_collision : ∃ s t : U32, s ≠ t ∧ rngSet s = rngSet t :=
  ⟨0#32, 1271221770#32, by decide, by decide +kernel⟩

/-! ## C52 -/

theorem draw_valid {p : Part} (h : Valid p.rng) :
    generateUniform p = (value (next p.rng), { p with rng := next p.rng }) := by
  unfold generateUniform generateUInt32
  rw [not_unset h]; rfl

theorem draws_zero (r : Rng) : draws 0 r = r := rfl
theorem draws_step (r : Rng) (n : Nat) : draws (n + 1) r = draws n (next r) := rfl
theorem iter_zero (f : U32 → U32) (s : U32) : iter f 0 s = s := rfl
theorem iter_step (f : U32 → U32) (n : Nat) (s : U32) : iter f (n + 1) s = iter f n (f s) := rfl

/-- The states produced by iterating. -/
theorem draws_components (n : Nat) (s1 s2 s3 s4 : U32) :
    draws n ⟨s1, s2, s3, s4⟩ = ⟨iter t1 n s1, iter t2 n s2, iter t3 n s3, iter t4 n s4⟩ := by
  induction n generalizing s1 s2 s3 s4 with
  | zero => rw [draws_zero, iter_zero, iter_zero, iter_zero, iter_zero]
  | succ n ih => rw [draws_step, iter_step, iter_step, iter_step, iter_step, ← ih]; rfl

theorem bit0_add (x y : U32) : (x + y).getLsbD 0 = (x.getLsbD 0 ^^ y.getLsbD 0) := by
  rw [BitVec.getLsbD_add (by omega)]
  simp [BitVec.carry, Nat.mod_one]

theorem bit0_mul (x y : U32) : (x * y).getLsbD 0 = (x.getLsbD 0 && y.getLsbD 0) := by
  simp only [BitVec.getLsbD, BitVec.toNat_mul, Nat.testBit_zero]
  have h : x.toNat * y.toNat % 2 ^ 32 % 2 = x.toNat * y.toNat % 2 :=
    Nat.mod_mod_of_dvd _ ⟨2 ^ 31, by decide⟩
  rw [h, Nat.mul_mod]
  rcases Nat.mod_two_eq_zero_or_one x.toNat with h1 | h1 <;>
    rcases Nat.mod_two_eq_zero_or_one y.toNat with h2 | h2 <;> simp [h1, h2]

theorem t4_bit0 (s : U32) : (t4 s).getLsbD 0 = !s.getLsbD 0 := by
  unfold t4 lcg
  rw [bit0_add, bit0_mul, show (1664525#32).getLsbD 0 = true from by decide,
    show (1013904223#32).getLsbD 0 = true from by decide]
  simp

/-- No state produces zeros for ever. -/
theorem exists_nonzero (r : Rng) : ∃ n, value (draws n r) ≠ 0#32 := by
  obtain ⟨a1, a2, a3, a4⟩ := r
  apply Classical.byContradiction
  intro hc
  have hz : ∀ n, value (draws n ⟨a1, a2, a3, a4⟩) = 0#32 := by
    intro n
    exact Classical.byContradiction fun h => hc ⟨n, h⟩
  let f1 := fun n => (iter t1 n a1).getLsbD 0
  let f2 := fun n => (iter t2 n a2).getLsbD 0
  let f3 := fun n => (iter t3 n a3).getLsbD 0
  let f4 := fun n => (iter t4 n a4).getLsbD 0
  have h4 : ∀ n, f4 n = ((f1 n ^^ f2 n) ^^ f3 n) := by
    intro n
    have := congrArg (fun x => x.getLsbD 0) (hz n)
    rw [draws_components] at this
    simp only [value, BitVec.getLsbD_xor] at this
    change ((((f1 n) ^^ (f2 n)) ^^ (f3 n)) ^^ (f4 n)) = (0#32).getLsbD 0 at this
    rw [show (0#32).getLsbD 0 = false from by decide] at this
    revert this
    generalize f1 n = a; generalize f2 n = b; generalize f3 n = c; generalize f4 n = d
    revert a b c d; decide
  have alt : Alternating f4 := by
    intro n
    show (iter t4 (n + 1) a4).getLsbD 0 = !(iter t4 n a4).getLsbD 0
    rw [iter_succ', t4_bit0]
  have z1 : ∀ n, shiftSum L1 f1 n = false := shiftSum_bit t1 L1 t1_annihilated a1
  have z2 : ∀ n, shiftSum L2 f2 n = false := shiftSum_bit t2 L2 t2_annihilated a2
  have z3 : ∀ n, shiftSum L3 f3 n = false := shiftSum_bit t3 L3 t3_annihilated a3
  have s1 : ∀ n, shiftSum L1 f4 n = (shiftSum L1 f2 n ^^ shiftSum L1 f3 n) := by
    intro n
    rw [shiftSum_congr h4, shiftSum_xor L1 (fun n => f1 n ^^ f2 n) f3, shiftSum_xor, z1]
    simp
  have s2 : ∀ n, shiftSum L2 (shiftSum L1 f4) n = shiftSum L2 (shiftSum L1 f3) n := by
    intro n
    rw [shiftSum_congr s1, shiftSum_xor L2 (shiftSum L1 f2) (shiftSum L1 f3), shiftSum_comm L2 L1 f2,
      shiftSum_congr z2, shiftSum_zero]
    simp
  have s3 : ∀ n, shiftSum L3 (shiftSum L2 (shiftSum L1 f4)) n = false := by
    intro n
    rw [shiftSum_congr s2, shiftSum_comm L3 L2]
    have : ∀ m, shiftSum L3 (shiftSum L1 f3) m = false := by
      intro m
      rw [shiftSum_comm L3 L1, shiftSum_congr z3, shiftSum_zero]
    rw [shiftSum_congr this, shiftSum_zero]
  have altS := ((alt.shiftSum L1 (by decide)).shiftSum L2 (by decide)).shiftSum L3 (by decide)
  have := altS 0
  rw [s3, s3] at this
  exact absurd this (by decide)

theorem draws_succ (n : Nat) (r : Rng) : draws (n + 1) r = next (draws n r) := by
  induction n generalizing r with
  | zero => rfl
  | succ n ih => show draws (n + 1) (next r) = _; rw [ih]; rfl

theorem drawNonzero_none {p : Part} (h : Valid p.rng) (n : Nat) (hn : drawNonzero n p = none) :
    ∀ k, k < n → value (draws (k + 1) p.rng) = 0#32 := by
  induction n generalizing p with
  | zero => intro k hk; omega
  | succ n ih =>
    intro k hk
    unfold drawNonzero at hn
    rw [draw_valid h] at hn
    by_cases hv : value (next p.rng) = 0#32
    · simp only [hv, if_true] at hn
      cases k with
      | zero => exact hv
      | succ k =>
        have := ih (p := { p with rng := next p.rng }) (valid_next h) hn k (by omega)
        exact this
    · simp [hv] at hn

theorem drawNonzero_some {n : Nat} {p : Part} {r : U32 × Part} (h : drawNonzero n p = some r) :
    r.1 ≠ 0#32 := by
  induction n generalizing p with
  | zero => exact absurd h (by simp [drawNonzero])
  | succ n ih =>
    unfold drawNonzero at h
    simp only at h
    split at h
    · exact ih h
    · rename_i hne
      rw [← Option.some.inj h]; exact hne

/-- **C52 (partial).**  The rejection loop of the exponential and normal samplers ends for every
particle whose generator was seeded, with a non-zero number.  Missing: a particle that was never
seeded, see `C52_unseeded_hangs`. -/
theorem C52_sampling_terminates_partial (seed : U32) (nBefore : Nat) (state : Int) :
    ∃ n r, drawNonzero n ⟨draws nBefore (rngSet seed), state⟩ = some r ∧ r.1 ≠ 0#32 := by
  have hv : Valid (draws nBefore (rngSet seed)) := valid_draws (valid_seed seed) nBefore
  obtain ⟨n, hn⟩ := exists_nonzero (draws 1 (draws nBefore (rngSet seed)))
  have hd : draws n (draws 1 (draws nBefore (rngSet seed))) = draws (n + 1) (draws nBefore (rngSet seed)) := rfl
  cases h : drawNonzero (n + 1) ⟨draws nBefore (rngSet seed), state⟩ with
  | some r => exact ⟨n + 1, r, h, drawNonzero_some h⟩
  | none =>
    have := drawNonzero_none (p := ⟨draws nBefore (rngSet seed), state⟩) hv (n + 1) h n (by omega)
    rw [hd] at hn
    exact absurd this hn

/-- **C52 violated.**  For a particle whose generator was never seeded the uniform generator kills the
particle and returns 0, so the loop of the exponential and normal samplers draws again, for ever. -/
theorem C52_unseeded_hangs (p : Part) (h : isUnset p.rng = true) (n : Nat) :
    drawNonzero n p = none ∧ (generateUniform p).2.state = rngErrSeedsNotSet := by
  refine ⟨?_, by simp [generateUniform, generateUInt32, h]⟩
  induction n generalizing p with
  | zero => rfl
  | succ n ih =>
    unfold drawNonzero
    have : generateUniform p = (0#32, { p with state := rngErrSeedsNotSet }) := by
      simp [generateUniform, generateUInt32, h]
    rw [this]
    exact ih _ h

example : isUnset ⟨0#32, 0#32, 0#32, 0#32⟩ = true := rfl

/-! ## C16 -/

/-- The particle after `i` uniform draws. -/
def afterDraws : Nat → Part → Part
  | 0, p => p
  | i + 1, p => afterDraws i (generateUniform p).2

/-- The `i`-th sample of a particle. -/
def nthSample (p : Part) (i : Nat) : U32 := (generateUniform (afterDraws i p)).1

theorem sampleLoop_eq (n : Nat) (id : Int) (k i : Nat) (p : Part) :
    (sampleLoop n id k i p).1 =
      (List.range k).map (fun j => ((n : Int) * id + ((i + j : Nat) : Int), nthSample p j)) := by
  induction k generalizing i p with
  | zero => rfl
  | succ k ih =>
    rw [sampleLoop, List.range_succ_eq_map, List.map_cons, List.map_map]
    simp only
    rw [ih]
    congr 1
    apply List.map_congr_left
    intro j _
    show ((n : Int) * id + ((i + 1 + j : Nat) : Int), nthSample (generateUniform p).2 j) = _
    rw [show i + 1 + j = i + (j + 1) by omega]
    rfl

/-- The ids are those of a freshly created object: distinct and `0 ≤ id < number of rows`. -/
def IdsFit (nSeeds : Nat) (parts : List (Int × Part)) : Prop :=
  (parts.map Prod.fst).Nodup ∧ ∀ q ∈ parts, 0 ≤ q.1 ∧ q.1 < nSeeds

theorem mul_add_inj {n : Nat} {a b : Int} {i j : Nat} (hi : i < n) (hj : j < n)
    (h : (n : Int) * a + i = n * b + j) : a = b ∧ i = j := by
  have hn : (0 : Int) < n := by omega
  have h1 : ((n : Int) * a + i) / n = a := by
    rw [Int.add_comm, Int.add_mul_ediv_left _ _ (by omega), Int.ediv_eq_zero_of_lt (by omega) (by omega)]
    omega
  have h2 : ((n : Int) * b + j) / n = b := by
    rw [Int.add_comm, Int.add_mul_ediv_left _ _ (by omega), Int.ediv_eq_zero_of_lt (by omega) (by omega)]
    omega
  have hab : a = b := by rw [← h1, ← h2, h]
  subst hab
  exact ⟨rfl, by omega⟩

/-- **C16 (partial).**  When the ids of the active particles are distinct and smaller than the number
of rows, the kernel writes, for each particle, exactly its first `n` samples into the `n` places of
its row; all writes go to distinct places inside the buffer, and there are `n` per particle.
Missing: other id assignments, see `C16_violated_out_of_bounds`. -/
theorem C16_sampling_writes_partial (n nSeeds : Nat) (parts : List (Int × Part))
    (h : IdsFit nSeeds parts) :
    (∀ q ∈ parts, ∀ i, i < n → ((n : Int) * q.1 + (i : Int), nthSample q.2 i) ∈ sampleKernel n parts) ∧
    ((sampleKernel n parts).map Prod.fst).Nodup ∧
    (∀ w ∈ sampleKernel n parts, 0 ≤ w.1 ∧ w.1 < (bufferSize nSeeds n : Nat)) ∧
    (sampleKernel n parts).length = n * parts.length := by
  obtain ⟨hnd, hb⟩ := h
  have hmem : ∀ w, w ∈ sampleKernel n parts ↔
      ∃ q ∈ parts, ∃ i, i < n ∧ w = ((n : Int) * q.1 + (i : Int), nthSample q.2 i) := by
    intro w
    unfold sampleKernel
    rw [List.mem_flatMap]
    constructor
    · rintro ⟨q, hq, hw⟩
      rw [sampleLoop_eq] at hw
      obtain ⟨j, hj, rfl⟩ := List.mem_map.mp hw
      exact ⟨q, hq, j, List.mem_range.mp hj, by simp⟩
    · rintro ⟨q, hq, i, hi, rfl⟩
      refine ⟨q, hq, ?_⟩
      rw [sampleLoop_eq]
      exact List.mem_map.mpr ⟨i, List.mem_range.mpr hi, by simp⟩
  refine ⟨?_, ?_, ?_, ?_⟩
  · intro q hq i hi
    exact (hmem _).mpr ⟨q, hq, i, hi, rfl⟩
  · clear hmem hb
    induction parts with
    | nil => simp [sampleKernel]
    | cons q parts ih =>
      rw [List.map_cons, List.nodup_cons] at hnd
      obtain ⟨hq, hnd⟩ := hnd
      have e : sampleKernel n (q :: parts) = (sampleLoop n q.1 n 0 q.2).1 ++ sampleKernel n parts := by
        simp [sampleKernel]
      rw [e, List.map_append, List.nodup_append]
      refine ⟨?_, ih hnd, ?_⟩
      · rw [sampleLoop_eq, List.map_map]
        refine List.Nodup.of_map (fun x => (x - n * q.1).toNat) ?_
        rw [List.map_map]
        have : ((fun x => (x - n * q.1).toNat) ∘ Prod.fst ∘ fun j =>
            ((n : Int) * q.1 + ((0 + j : Nat) : Int), nthSample q.2 j)) = id := by
          funext j; simp
        rw [this, List.map_id]
        exact List.nodup_range
      · intro a ha b hb hab
        subst hab
        obtain ⟨w, hw, rfl⟩ := List.mem_map.mp ha
        obtain ⟨v, hv, hvw⟩ := List.mem_map.mp hb
        rw [sampleLoop_eq] at hw
        obtain ⟨j, hj, rfl⟩ := List.mem_map.mp hw
        unfold sampleKernel at hv
        rw [List.mem_flatMap] at hv
        obtain ⟨q', hq', hv⟩ := hv
        rw [sampleLoop_eq] at hv
        obtain ⟨i, hi, rfl⟩ := List.mem_map.mp hv
        have := mul_add_inj (List.mem_range.mp hi) (List.mem_range.mp hj) (by simpa using hvw)
        exact hq (this.1 ▸ List.mem_map.mpr ⟨q', hq', rfl⟩)
  · intro w hw
    obtain ⟨q, hq, i, hi, rfl⟩ := (hmem w).mp hw
    obtain ⟨h0, h1⟩ := hb q hq
    have hn : (0 : Int) ≤ n := by omega
    have hle : q.1 + 1 ≤ nSeeds := by omega
    have h2 : (n : Int) * (q.1 + 1) ≤ n * nSeeds := Int.mul_le_mul_of_nonneg_left hle hn
    have h3 : (0 : Int) ≤ n * q.1 := Int.mul_nonneg hn h0
    have h4 : (bufferSize nSeeds n : Int) = n * nSeeds := by
      unfold bufferSize; push_cast; rw [Int.mul_comm]
    rw [Int.mul_add] at h2
    constructor
    · show 0 ≤ (n : Int) * q.1 + i
      omega
    · show (n : Int) * q.1 + i < (bufferSize nSeeds n : Nat)
      rw [h4]; omega
  · clear hmem hb hnd
    induction parts with
    | nil => simp [sampleKernel]
    | cons q parts ih =>
      have e : sampleKernel n (q :: parts) = (sampleLoop n q.1 n 0 q.2).1 ++ sampleKernel n parts := by
        simp [sampleKernel]
      rw [e, List.length_append, ih, sampleLoop_eq, List.length_map, List.length_range, List.length_cons,
        Nat.mul_add]
      omega

/-- Two particles with ids 1 and 0, three samples each. -/
example : IdsFit 2 [(1, ⟨rngSet 5#32, 1⟩), (0, ⟨rngSet 6#32, 1⟩)] := by
  refine ⟨by decide, ?_⟩
  intro q hq
  simp only [List.mem_cons, List.not_mem_nil, or_false] at hq
  rcases hq with rfl | rfl <;> decide

/-- The number of samples per particle asked for by the user is never exceeded and at least one. -/
theorem C16_samples_per_seed (nSamples nSeeds n : Nat) (h : samplesPerSeed nSamples nSeeds = some n) :
    1 ≤ n ∧ bufferSize nSeeds n ≤ nSamples := by
  unfold samplesPerSeed at h
  split at h
  · exact absurd h (by simp)
  · have := Option.some.inj h
    subst this
    refine ⟨by omega, ?_⟩
    unfold bufferSize
    exact Nat.mul_div_le nSamples nSeeds

/-- **C16 violated.**  A particles object whose only particle has id 5 (for example the result of
`particles.filter(...)`): the buffer has one row, the kernel writes outside it. -/
theorem C16_violated_out_of_bounds (p : Part) :
    ∃ w ∈ sampleKernel 3 [(5, p)], ¬ (w.1 < (bufferSize 1 3 : Nat)) := by
  refine ⟨(3 * 5 + 0, nthSample p 0), ?_, by simp [bufferSize]⟩
  unfold sampleKernel
  rw [List.flatMap_cons, sampleLoop_eq]
  apply List.mem_append_left
  exact List.mem_map.mpr ⟨0, by decide, rfl⟩

end Verif.Rng
