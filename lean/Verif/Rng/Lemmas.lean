import Verif.Rng.Model

namespace Verif.Rng

/-! ## Bits of a Tausworthe step -/

/-- The mask that drops the `m` lowest bits. -/
def highMask (m : Nat) : U32 := BitVec.allOnes 32 <<< m

theorem highMask_getLsbD (m i : Nat) (hi : i < 32) :
    (highMask m).getLsbD i = decide (m ≤ i) := by
  unfold highMask
  rw [BitVec.getLsbD_shiftLeft]
  by_cases h : i < m
  · simp [h]
  · have h2 : i - m < 32 := by omega
    have h3 : m ≤ i := by omega
    rw [BitVec.getLsbD_allOnes]
    simp [h, h2, hi, h3]

theorem tausworthe_getLsbD (s : U32) (a b m d j : Nat) (hj : j < 32) :
    (tausworthe s a b (highMask m) d).getLsbD j =
      ((decide (d ≤ j) && (decide (m ≤ j - d) && s.getLsbD (j - d))) ^^
       ((decide (b + j < 32) && (decide (a ≤ b + j) && s.getLsbD (b + j - a))) ^^ s.getLsbD (b + j))) := by
  unfold tausworthe
  rw [BitVec.getLsbD_xor, BitVec.getLsbD_shiftLeft, BitVec.getLsbD_and, BitVec.getLsbD_ushiftRight,
    BitVec.getLsbD_xor, BitVec.getLsbD_shiftLeft]
  congr 1
  · by_cases h : d ≤ j
    · rw [highMask_getLsbD m (j - d) (by omega)]
      have : ¬ j < d := by omega
      simp [h, this, hj, Bool.and_comm]
    · have : j < d := by omega
      simp [h, this]
  · congr 1
    by_cases h : b + j < 32
    · by_cases h2 : a ≤ b + j
      · have : ¬ b + j < a := by omega
        simp [h, h2, this]
      · have : b + j < a := by omega
        simp [h2, this]
    · simp [h]

/-- Two states whose successors agree on the bits `≥ m` agree on the bits `≥ m`. -/
theorem tausworthe_injective {a b m d : Nat} (hsum : m + d + b = 32) (hab : a ≤ b) (ha : 0 < a) (hm0 : 0 < m)
    {s t : U32}
    (h : ∀ j, m ≤ j → j < 32 →
      (tausworthe s a b (highMask m) d).getLsbD j = (tausworthe t a b (highMask m) d).getLsbD j) :
    ∀ i, m ≤ i → i < 32 → s.getLsbD i = t.getLsbD i := by
  intro i
  induction i using Nat.strongRecOn with
  | ind i ih =>
    intro hm hi
    by_cases hlow : i + d < 32
    · have := h (i + d) (by omega) hlow
      rw [tausworthe_getLsbD _ _ _ _ _ _ hlow, tausworthe_getLsbD _ _ _ _ _ _ hlow] at this
      have e1 : d ≤ i + d := by omega
      have e2 : i + d - d = i := by omega
      have e3 : ¬ b + (i + d) < 32 := by omega
      have e4 : s.getLsbD (b + (i + d)) = false := BitVec.getLsbD_of_ge s _ (by omega)
      have e5 : t.getLsbD (b + (i + d)) = false := BitVec.getLsbD_of_ge t _ (by omega)
      simpa [e1, e2, e3, e4, e5, hm] using this
    · have hj : i - b < 32 := by omega
      have := h (i - b) (by omega) hj
      rw [tausworthe_getLsbD _ _ _ _ _ _ hj, tausworthe_getLsbD _ _ _ _ _ _ hj] at this
      have e1 : ¬ m ≤ i - b - d := by omega
      have e2 : b + (i - b) = i := by omega
      have e3 : a ≤ i := by omega
      have e4 := ih (i - a) (by omega) (by omega) (by omega)
      rw [e2] at this
      simpa [e1, hi, e3, e4] using this

theorem tausworthe_zero (a b : Nat) (c : U32) (d : Nat) : tausworthe 0#32 a b c d = 0#32 := by
  simp [tausworthe]

/-- A number is at least `2^m` when one of its bits `≥ m` is set. -/
theorem ge_iff_bit (s : U32) (m : Nat) :
    2 ^ m ≤ s.toNat ↔ ∃ i, m ≤ i ∧ i < 32 ∧ s.getLsbD i = true := by
  constructor
  · intro h
    obtain ⟨i, hi, hb⟩ := Nat.exists_ge_and_testBit_of_ge_two_pow h
    refine ⟨i, hi, ?_, hb⟩
    apply Classical.byContradiction
    intro hc
    rw [show s.toNat.testBit i = s.getLsbD i from rfl, BitVec.getLsbD_of_ge s i (by omega)] at hb
    exact absurd hb (by simp)
  · rintro ⟨i, hi, _, hb⟩
    have := Nat.ge_two_pow_of_testBit (x := s.toNat) (i := i) hb
    exact Nat.le_trans (Nat.pow_le_pow_right (by omega) hi) this

/-- A state with a bit `≥ m` set has a successor with a bit `≥ m` set. -/
theorem tausworthe_range {a b m d : Nat} (hsum : m + d + b = 32) (hab : a ≤ b) (ha : 0 < a) (hm0 : 0 < m) {s : U32}
    (h : 2 ^ m ≤ s.toNat) : 2 ^ m ≤ (tausworthe s a b (highMask m) d).toNat := by
  rw [ge_iff_bit] at h ⊢
  apply Classical.byContradiction
  intro hc
  obtain ⟨i, hm, hi, hb⟩ := h
  have := tausworthe_injective (s := s) (t := 0#32) hsum hab ha hm0 (fun j hj hj2 => by
    rw [tausworthe_zero]
    cases hv : (tausworthe s a b (highMask m) d).getLsbD j with
    | false => simp
    | true => exact absurd ⟨j, hj, hj2, hv⟩ hc) i hm hi
  rw [hb] at this
  simp at this

theorem t1_eq (s : U32) : t1 s = tausworthe s 13 19 (highMask 1) 12 := by
  unfold t1; rw [show (4294967294#32) = highMask 1 by decide]
theorem t2_eq (s : U32) : t2 s = tausworthe s 2 25 (highMask 3) 4 := by
  unfold t2; rw [show (4294967288#32) = highMask 3 by decide]
theorem t3_eq (s : U32) : t3 s = tausworthe s 3 11 (highMask 4) 17 := by
  unfold t3; rw [show (4294967280#32) = highMask 4 by decide]

/-! ## Linearity and the annihilating polynomials -/

theorem tausworthe_xor (s t : U32) (a b : Nat) (c : U32) (d : Nat) :
    tausworthe (s ^^^ t) a b c d = tausworthe s a b c d ^^^ tausworthe t a b c d := by
  apply BitVec.eq_of_getLsbD_eq
  intro i hi
  simp only [tausworthe, BitVec.getLsbD_xor, BitVec.getLsbD_shiftLeft, BitVec.getLsbD_and,
    BitVec.getLsbD_ushiftRight]
  generalize s.getLsbD (i - d) = x1
  generalize t.getLsbD (i - d) = x2
  generalize s.getLsbD (b + i - a) = x3
  generalize t.getLsbD (b + i - a) = x4
  generalize s.getLsbD (b + i) = x5
  generalize t.getLsbD (b + i) = x6
  generalize c.getLsbD (i - d) = x7
  generalize decide (i < 32) = x8
  generalize decide (i < d) = x9
  generalize decide (b + i < 32) = x10
  generalize decide (b + i < a) = x11
  revert x1 x2 x3 x4 x5 x6 x7 x8 x9 x10 x11
  decide

/-- Iterate a map. -/
def iter (f : U32 → U32) : Nat → U32 → U32
  | 0, s => s
  | n + 1, s => iter f n (f s)

/-- Sum over the exponents in `L` of the iterates. -/
def polySum (f : U32 → U32) (L : List Nat) (s : U32) : U32 :=
  L.foldr (fun k acc => iter f k s ^^^ acc) 0#32

def Linear (f : U32 → U32) : Prop := ∀ s t, f (s ^^^ t) = f s ^^^ f t

theorem Linear.iter {f : U32 → U32} (h : Linear f) (n : Nat) : Linear (iter f n) := by
  induction n with
  | zero => intro s t; rfl
  | succ n ih => intro s t; show Verif.Rng.iter f n (f (s ^^^ t)) = _; rw [h, ih]; rfl

theorem xor4 (a b c d : U32) : a ^^^ b ^^^ (c ^^^ d) = a ^^^ c ^^^ (b ^^^ d) := by
  rw [BitVec.xor_assoc, BitVec.xor_assoc, ← BitVec.xor_assoc b, ← BitVec.xor_assoc c,
    BitVec.xor_comm b c]

theorem Linear.polySum {f : U32 → U32} (h : Linear f) (L : List Nat) : Linear (polySum f L) := by
  induction L with
  | nil => intro s t; simp [Verif.Rng.polySum]
  | cons k L ih =>
    intro s t
    show Verif.Rng.iter f k (s ^^^ t) ^^^ Verif.Rng.polySum f L (s ^^^ t) = _
    rw [h.iter k, ih, xor4]; rfl

/-- Keep only the lowest `n` bits. -/
def lowBits (n : Nat) (s : U32) : U32 := (s.setWidth n).setWidth 32

theorem lowBits_getLsbD (n : Nat) (s : U32) (i : Nat) (hi : i < 32) :
    (lowBits n s).getLsbD i = (decide (i < n) && s.getLsbD i) := by
  simp only [lowBits, BitVec.getLsbD_setWidth, hi, decide_true, Bool.true_and]

theorem twoPow_getLsbD (n i : Nat) (hi : i < 32) :
    (BitVec.twoPow 32 n).getLsbD i = decide (n = i) := by
  rw [BitVec.getLsbD_twoPow]
  by_cases h : n = i
  · subst h; simp [hi]
  · simp [h]

theorem lowBits_succ (n : Nat) (s : U32) :
    lowBits (n + 1) s = lowBits n s ^^^ (if s.getLsbD n then BitVec.twoPow 32 n else 0#32) := by
  apply BitVec.eq_of_getLsbD_eq
  intro i hi
  have e : (if s.getLsbD n then BitVec.twoPow 32 n else 0#32).getLsbD i
      = (s.getLsbD n && decide (n = i)) := by
    cases s.getLsbD n with
    | true => rw [if_pos rfl, twoPow_getLsbD _ _ hi]; simp
    | false => simp
  rw [BitVec.getLsbD_xor, lowBits_getLsbD _ _ _ hi, lowBits_getLsbD _ _ _ hi, e]
  by_cases h : n = i
  · subst h
    have : n < n + 1 := by omega
    simp only [this, Nat.lt_irrefl, decide_true, decide_false, Bool.true_and, Bool.false_and,
      Bool.false_xor, Bool.and_true]
  · by_cases h2 : i < n
    · have h3 : i < n + 1 := by omega
      simp only [h, h2, h3, decide_true, decide_false, Bool.and_false, Bool.xor_false]
    · have h3 : ¬ i < n + 1 := by omega
      simp only [h, h2, h3, decide_false, Bool.false_and, Bool.and_false, Bool.xor_false]

/-- A linear map that vanishes on the 32 powers of two vanishes. -/
theorem Linear.eq_zero {f : U32 → U32} (h : Linear f) (h0 : f 0#32 = 0#32)
    (hb : ∀ i : Fin 32, f (BitVec.twoPow 32 i) = 0#32) (s : U32) : f s = 0#32 := by
  have key : ∀ n, n ≤ 32 → f (lowBits n s) = 0#32 := by
    intro n
    induction n with
    | zero =>
      intro _
      have : lowBits 0 s = 0#32 := by
        apply BitVec.eq_of_getLsbD_eq; intro i hi
        rw [lowBits_getLsbD _ _ _ hi]; simp
      rw [this, h0]
    | succ n ih =>
      intro hn
      rw [lowBits_succ, h, ih (by omega)]
      cases s.getLsbD n with
      | true => simpa using hb ⟨n, by omega⟩
      | false => simpa using h0
  have := key 32 (by omega)
  have hs : lowBits 32 s = s := by
    apply BitVec.eq_of_getLsbD_eq; intro i hi
    rw [lowBits_getLsbD _ _ _ hi]; simp [hi]
  rwa [hs] at this

theorem t1_linear : Linear t1 := fun s t => tausworthe_xor s t _ _ _ _
theorem t2_linear : Linear t2 := fun s t => tausworthe_xor s t _ _ _ _
theorem t3_linear : Linear t3 := fun s t => tausworthe_xor s t _ _ _ _

/-- Exponents of annihilating polynomials of the three components. -/
def L1 : List Nat := [1, 14, 20, 26, 32]
def L2 : List Nat := [1, 3, 30]
def L3 : List Nat := [1, 3, 4, 7, 11, 16, 18, 20, 29]

theorem t1_annihilated (s : U32) : polySum t1 L1 s = 0#32 :=
  (t1_linear.polySum L1).eq_zero (by decide +kernel) (by decide +kernel) s
theorem t2_annihilated (s : U32) : polySum t2 L2 s = 0#32 :=
  (t2_linear.polySum L2).eq_zero (by decide +kernel) (by decide +kernel) s
theorem t3_annihilated (s : U32) : polySum t3 L3 s = 0#32 :=
  (t3_linear.polySum L3).eq_zero (by decide +kernel) (by decide +kernel) s

/-! ## Bit sequences -/

/-- Apply a polynomial in the shift operator to a sequence of bits. -/
def shiftSum (L : List Nat) (f : Nat → Bool) (n : Nat) : Bool :=
  L.foldr (fun k acc => (f (n + k)) ^^ acc) false

theorem shiftSum_cons (k : Nat) (L : List Nat) (f : Nat → Bool) (n : Nat) :
    shiftSum (k :: L) f n = (f (n + k) ^^ shiftSum L f n) := rfl

theorem polySum_cons (f : U32 → U32) (k : Nat) (L : List Nat) (s : U32) :
    polySum f (k :: L) s = iter f k s ^^^ polySum f L s := rfl

theorem shiftSum_xor (L : List Nat) (f g : Nat → Bool) (n : Nat) :
    shiftSum L (fun n => f n ^^ g n) n = (shiftSum L f n ^^ shiftSum L g n) := by
  induction L with
  | nil => rfl
  | cons k L ih =>
    show ((f (n + k) ^^ g (n + k)) ^^ shiftSum L (fun n => f n ^^ g n) n)
      = ((f (n + k) ^^ shiftSum L f n) ^^ (g (n + k) ^^ shiftSum L g n))
    rw [ih]
    generalize f (n + k) = a; generalize g (n + k) = b
    generalize shiftSum L f n = c; generalize shiftSum L g n = d
    revert a b c d; decide

theorem shiftSum_zero (L : List Nat) (n : Nat) : shiftSum L (fun _ => false) n = false := by
  induction L with
  | nil => rfl
  | cons k L ih =>
    show (false ^^ shiftSum L (fun _ => false) n) = false
    rw [ih]; rfl

/-- A sequence that flips at every step. -/
def Alternating (f : Nat → Bool) : Prop := ∀ n, f (n + 1) = !f n

theorem Alternating.shiftSum_succ {f : Nat → Bool} (h : Alternating f) (L : List Nat) (n : Nat) :
    shiftSum L f (n + 1) = (shiftSum L f n ^^ (L.length % 2 == 1)) := by
  induction L with
  | nil => rfl
  | cons k L ih =>
    show (f (n + 1 + k) ^^ shiftSum L f (n + 1)) = ((f (n + k) ^^ shiftSum L f n) ^^ _)
    rw [ih, show n + 1 + k = (n + k) + 1 by omega, h]
    have : ((k :: L).length % 2 == 1) = !(L.length % 2 == 1) := by
      rw [List.length_cons]
      rcases Nat.mod_two_eq_zero_or_one L.length with h | h <;> simp [Nat.add_mod, h]
    rw [this]
    generalize f (n + k) = a; generalize shiftSum L f n = b; generalize (L.length % 2 == 1) = c
    revert a b c; decide

theorem Alternating.shiftSum {f : Nat → Bool} (h : Alternating f) (L : List Nat)
    (hL : L.length % 2 = 1) : Alternating (shiftSum L f) := by
  intro n
  rw [h.shiftSum_succ, hL]; simp

theorem shiftSum_congr {L : List Nat} {f g : Nat → Bool} (h : ∀ n, f n = g n) (n : Nat) :
    shiftSum L f n = shiftSum L g n := by
  have : f = g := funext h
  rw [this]

theorem iter_succ' (f : U32 → U32) (n : Nat) (s : U32) : iter f (n + 1) s = f (iter f n s) := by
  induction n generalizing s with
  | zero => rfl
  | succ n ih => show iter f (n + 1) (f s) = _; rw [ih]; rfl

theorem iter_add (f : U32 → U32) (n k : Nat) (s : U32) : iter f (n + k) s = iter f k (iter f n s) := by
  induction k with
  | zero => rfl
  | succ k ih => rw [← Nat.add_assoc, iter_succ', iter_succ', ih]

/-- Bit 0 of the iterates of an annihilated component. -/
theorem shiftSum_bit (f : U32 → U32) (L : List Nat) (hz : ∀ s, polySum f L s = 0#32) (s : U32)
    (n : Nat) : shiftSum L (fun n => (iter f n s).getLsbD 0) n = false := by
  have : ∀ L', shiftSum L' (fun n => (iter f n s).getLsbD 0) n
      = (polySum f L' (iter f n s)).getLsbD 0 := by
    intro L'
    induction L' with
    | nil => simp [shiftSum, polySum]
    | cons k L' ih =>
      rw [shiftSum_cons, polySum_cons, BitVec.getLsbD_xor, ih, iter_add]
  rw [this, hz]; simp

/-- A polynomial in the shift commutes with the shift: applying to a sequence that is annihilated
after another polynomial. -/
theorem shiftSum_comm (L L' : List Nat) (f : Nat → Bool) (n : Nat) :
    shiftSum L (shiftSum L' f) n = shiftSum L' (shiftSum L f) n := by
  induction L' generalizing n with
  | nil => exact shiftSum_zero L n
  | cons k L' ih =>
    have h1 : shiftSum L (shiftSum (k :: L') f) n
        = (shiftSum L (fun m => f (m + k)) n ^^ shiftSum L (shiftSum L' f) n) :=
      shiftSum_xor L (fun m => f (m + k)) (shiftSum L' f) n
    have h2 : shiftSum L (fun m => f (m + k)) n = shiftSum L f (n + k) := by
      clear ih h1
      induction L with
      | nil => rfl
      | cons j L ihL =>
        rw [shiftSum_cons, shiftSum_cons, ihL, show n + j + k = n + k + j by omega]
    rw [h1, h2, ih]; rfl

end Verif.Rng
