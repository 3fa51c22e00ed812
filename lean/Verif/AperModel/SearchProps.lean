import Verif.AperModel.Search
import Mathlib.Tactic.NormNum
import Mathlib.Tactic.Ring
import Mathlib.Data.List.Sort

/-!
C149: the aperture reported at a position does not depend on the other positions asked for.
C150: a profile is found wherever it sits along the survey.
C151: the positions within an element are at most the resolution apart.
-/
namespace Verif.AperModel.Search

/-! ## C150: every segment is visited -/

/-- The loop visits all the segments `0, …, n - 1`, each once, nothing else, and then stops. -/
def VisitsAll (wrap : Bool) (start n : Int) : Prop :=
  (∀ k z, after wrap (Zig.new start n) k = some z → 0 ≤ z.index ∧ z.index < n) ∧
  (∀ i, 0 ≤ i → i < n → ∃ k z, after wrap (Zig.new start n) k = some z ∧ z.index = i) ∧
  (∀ k k' z z', after wrap (Zig.new start n) k = some z → after wrap (Zig.new start n) k' = some z' →
    z.index = z'.index → k = k') ∧
  after wrap (Zig.new start n) n.toNat = none

theorem wrapIdx {n r : Int} (hn : 0 < n) (h1 : -n < r) (h2 : r < 2 * n) :
    (if r.tmod n < 0 then r.tmod n + n else r.tmod n) = if r < 0 then r + n else if r < n then r else r - n := by
  by_cases h : r < 0
  · have : r.tmod n = r := by
      have h3 : (-r).tmod n = -r := Int.tmod_eq_of_lt (by omega) (by omega)
      have h4 := Int.neg_tmod (a := -r) (b := n)
      rw [neg_neg] at h4
      omega
    rw [this, if_pos h, if_pos h]
  · by_cases h3 : r < n
    · have : r.tmod n = r := Int.tmod_eq_of_lt (by omega) h3
      rw [this, if_neg h, if_neg h, if_pos h3]
    · have h4 : (r - n).tmod n = r - n := Int.tmod_eq_of_lt (by omega) (by omega)
      have h5 : r.tmod n = r - n := by
        rw [Int.tmod_eq_emod_of_nonneg (by omega)]
        rw [Int.tmod_eq_emod_of_nonneg (by omega)] at h4
        rw [← h4]
        simp
      rw [h5, if_neg (by omega), if_neg h, if_neg h3]

/-- The offset after `k` calls on a ring. -/
def offW (k : Nat) : Int := if k % 2 = 1 then ((k : Int) + 1) / 2 else -((k : Int) / 2)

/-- The index after `k` calls on a ring. -/
def idxW (start n : Int) (k : Nat) : Int :=
  if start + offW k < 0 then start + offW k + n else if start + offW k < n then start + offW k else start + offW k - n

theorem offW_bounds {k : Nat} {n : Int} (h : (k : Int) < n) : -n < 2 * offW k ∧ 2 * offW k ≤ n := by
  unfold offW
  split <;> omega

theorem after_wrap {start n : Int} (h0 : 0 ≤ start) (h1 : start < n) (k : Nat) :
    after true (Zig.new start n) k = if (k : Int) < n then some ⟨idxW start n k, offW k, start, n⟩ else none := by
  induction k with
  | zero =>
    have : (0 : Int) < n := by omega
    simp [after, Zig.new, this, idxW, offW]
    omega
  | succ k ih =>
    rw [after, ih]
    by_cases hk : (k : Int) < n
    · rw [if_pos hk]
      show next true ⟨idxW start n k, offW k, start, n⟩ = _
      have hb := offW_bounds hk
      have hm : ∀ off : Int, off = offW (k + 1) → ((k + 1 : Nat) : Int) < n →
          nextWrapping.move ⟨idxW start n k, offW k, start, n⟩ off = ⟨idxW start n (k + 1), offW (k + 1), start, n⟩ := by
        intro off ho hk1
        have hb1 := offW_bounds hk1
        subst ho
        unfold nextWrapping.move idxW
        dsimp only
        rw [wrapIdx (by omega) (by omega) (by omega)]
      unfold next
      rw [if_pos rfl]
      unfold nextWrapping
      dsimp only
      by_cases hn : n ≤ 1
      · rw [if_pos hn, if_neg (by push_cast; omega)]
      · rw [if_neg hn]
        by_cases hz : offW k = 0
        · have hk0 : k = 0 := by unfold offW at hz; split at hz <;> omega
          subst hk0
          rw [if_pos hz, if_pos (by push_cast; omega), hm 1 (by decide) (by push_cast; omega)]
        · rw [if_neg hz]
          by_cases hp : offW k > 0
          · have hodd : k % 2 = 1 := by unfold offW at hp; split at hp <;> omega
            have he : offW k = ((k : Int) + 1) / 2 := by unfold offW; rw [if_pos hodd]
            have he1 : offW (k + 1) = -(((k + 1 : Nat) : Int) / 2) := by unfold offW; rw [if_neg (by omega)]
            rw [if_pos hp]
            by_cases h2 : 2 * offW k = n
            · rw [if_pos h2, if_neg (by push_cast; omega)]
            · rw [if_neg h2, if_pos (by push_cast; omega), hm _ (by rw [he, he1]; push_cast; rfl) (by push_cast; omega)]
          · have hev : k % 2 = 0 := by
              rcases Nat.mod_two_eq_zero_or_one k with h | h
              · exact h
              · exfalso; unfold offW at hp; rw [if_pos h] at hp; omega
            have he : offW k = -((k : Int) / 2) := by unfold offW; rw [if_neg (by omega)]
            have he1 : offW (k + 1) = (((k + 1 : Nat) : Int) + 1) / 2 := by unfold offW; rw [if_pos (by omega)]
            rw [if_neg hp]
            by_cases h2 : -offW k + 1 > n / 2
            · rw [if_pos h2, if_neg (by push_cast; omega)]
            · rw [if_neg h2, if_pos (by push_cast; omega), hm _ (by rw [he, he1]; push_cast; omega) (by push_cast; omega)]
    · rw [if_neg hk, if_neg (by push_cast; omega)]
      rfl

theorem idxW_range {start n : Int} (h0 : 0 ≤ start) (h1 : start < n) {k : Nat} (hk : (k : Int) < n) :
    0 ≤ idxW start n k ∧ idxW start n k < n := by
  have := offW_bounds hk
  unfold idxW
  split
  · omega
  · split <;> omega

/-- **C150 (rings).** On a ring the search, beginning at the segment of the reference, visits every segment exactly once. -/
theorem C150_ring (start n : Int) (h0 : 0 ≤ start) (h1 : start < n) : VisitsAll true start n := by
  refine ⟨?_, ?_, ?_, ?_⟩
  · intro k z h
    rw [after_wrap h0 h1] at h
    by_cases hk : (k : Int) < n
    · rw [if_pos hk] at h
      cases h
      exact idxW_range h0 h1 hk
    · rw [if_neg hk] at h; cases h
  · intro i hi0 hi1
    have key : ∃ k : Nat, (k : Int) < n ∧ idxW start n k = i := by
      by_cases hd : start ≤ i
      · by_cases hh : i - start ≤ n / 2
        · by_cases he : i = start
          · exact ⟨0, by omega, by simp [idxW, offW]; omega⟩
          · refine ⟨(2 * (i - start) - 1).toNat, by omega, ?_⟩
            have : offW (2 * (i - start) - 1).toNat = i - start := by
              unfold offW; rw [if_pos (by omega)]; omega
            unfold idxW; rw [this, if_neg (by omega), if_pos (by omega)]; omega
        · refine ⟨(2 * (n - (i - start))).toNat, by omega, ?_⟩
          have : offW (2 * (n - (i - start))).toNat = i - start - n := by
            unfold offW; rw [if_neg (by omega)]; omega
          unfold idxW; rw [this, if_pos (by omega)]; omega
      · by_cases hh : i - start + n ≤ n / 2
        · refine ⟨(2 * (i - start + n) - 1).toNat, by omega, ?_⟩
          have : offW (2 * (i - start + n) - 1).toNat = i - start + n := by
            unfold offW; rw [if_pos (by omega)]; omega
          unfold idxW; rw [this, if_neg (by omega), if_neg (by omega)]; omega
        · refine ⟨(2 * (start - i)).toNat, by omega, ?_⟩
          have : offW (2 * (start - i)).toNat = i - start := by
            unfold offW; rw [if_neg (by omega)]; omega
          unfold idxW; rw [this, if_neg (by omega), if_pos (by omega)]; omega
    obtain ⟨k, hk, hi⟩ := key
    exact ⟨k, ⟨idxW start n k, offW k, start, n⟩, by rw [after_wrap h0 h1, if_pos hk], hi⟩
  · intro k k' z z' h h' he
    rw [after_wrap h0 h1] at h h'
    by_cases hk : (k : Int) < n
    · by_cases hk' : (k' : Int) < n
      · rw [if_pos hk] at h
        rw [if_pos hk'] at h'
        cases h; cases h'
        have b := offW_bounds hk
        have b' := offW_bounds hk'
        have : offW k = offW k' := by
          dsimp only at he
          unfold idxW at he
          split at he
          · split at he
            · omega
            · split at he <;> omega
          · split at he
            · split at he
              · omega
              · split at he <;> omega
            · split at he
              · omega
              · split at he <;> omega
        unfold offW at this
        split at this <;> split at this <;> omega
      · rw [if_neg hk'] at h'; cases h'
    · rw [if_neg hk] at h; cases h
  · rw [after_wrap h0 h1, if_neg (by omega)]

/-- The offset after `k` calls on a line. -/
def offB (start n : Int) (k : Nat) : Int :=
  if (k : Int) ≤ 2 * start ∧ (k : Int) ≤ 2 * (n - 1 - start) then offW k
  else if start ≤ n - 1 - start then (k : Int) - start else (n - 1 - start) - (k : Int)

/-- The offset which follows `o` on a line. -/
def stepB (start n o : Int) : Int :=
  if o = 0 then 1 else if o > 0 then (if start - o < 0 then o + 1 else -o) else (if start - o + 1 ≥ n then o - 1 else 1 - o)

theorem nextB_eq (start n o : Int) :
    next false ⟨start + o, o, start, n⟩ = checked ⟨start + stepB start n o, stepB start n o, start, n⟩ := by
  unfold next
  rw [if_neg (by simp)]
  unfold nextBounded stepB
  dsimp only
  by_cases h0 : o = 0
  · rw [if_pos h0, if_pos h0, h0]; norm_num
  · rw [if_neg h0, if_neg h0]
    by_cases h1 : o > 0
    · rw [if_pos h1, if_pos h1]
      by_cases h2 : start - o < 0
      · rw [if_pos h2, if_pos (by omega), add_assoc]
      · rw [if_neg h2, if_neg (by omega), show start + o - 2 * o = start + -o by omega]
    · rw [if_neg h1, if_neg h1]
      by_cases h2 : start - o + 1 ≥ n
      · rw [if_pos h2, if_pos (by omega), show start + o - 1 = start + (o - 1) by omega]
      · rw [if_neg h2, if_neg (by omega), show start + o + (-2 * o + 1) = start + (1 - o) by omega]

theorem offB_cases (start n : Int) (k : Nat) :
    ((k : Int) ≤ 2 * start ∧ (k : Int) ≤ 2 * (n - 1 - start) ∧ (k % 2 = 1 ∧ offB start n k = ((k : Int) + 1) / 2 ∨
      k % 2 = 0 ∧ offB start n k = -((k : Int) / 2))) ∨
    (((k : Int) > 2 * start ∨ (k : Int) > 2 * (n - 1 - start)) ∧ (start ≤ n - 1 - start ∧ offB start n k = (k : Int) - start ∨
      start > n - 1 - start ∧ offB start n k = (n - 1 - start) - (k : Int))) := by
  unfold offB offW
  by_cases h : (k : Int) ≤ 2 * start ∧ (k : Int) ≤ 2 * (n - 1 - start)
  · rw [if_pos h]
    refine Or.inl ⟨h.1, h.2, ?_⟩
    by_cases h2 : k % 2 = 1
    · rw [if_pos h2]; exact Or.inl ⟨h2, rfl⟩
    · rw [if_neg h2]; exact Or.inr ⟨by omega, rfl⟩
  · rw [if_neg h]
    refine Or.inr ⟨by omega, ?_⟩
    by_cases h2 : start ≤ n - 1 - start
    · rw [if_pos h2]; exact Or.inl ⟨h2, rfl⟩
    · rw [if_neg h2]; exact Or.inr ⟨by omega, rfl⟩

theorem stepB_cases (start n o : Int) :
    (o = 0 ∧ stepB start n o = 1) ∨ (o > 0 ∧ start - o < 0 ∧ stepB start n o = o + 1) ∨ (o > 0 ∧ start - o ≥ 0 ∧ stepB start n o = -o) ∨
    (o < 0 ∧ start - o + 1 ≥ n ∧ stepB start n o = o - 1) ∨ (o < 0 ∧ start - o + 1 < n ∧ stepB start n o = 1 - o) := by
  unfold stepB
  by_cases h0 : o = 0
  · simp [h0]
  · rw [if_neg h0]
    by_cases h1 : o > 0
    · rw [if_pos h1]
      by_cases h2 : start - o < 0
      · rw [if_pos h2]; omega
      · rw [if_neg h2]; omega
    · rw [if_neg h1]
      by_cases h2 : start - o + 1 ≥ n
      · rw [if_pos h2]; omega
      · rw [if_neg h2]; omega

theorem after_bounded {start n : Int} (h0 : 0 ≤ start) (h1 : start < n) (h2 : start < n - 1 ∨ n = 1) (k : Nat) :
    after false (Zig.new start n) k = if (k : Int) < n then some ⟨start + offB start n k, offB start n k, start, n⟩ else none := by
  induction k with
  | zero =>
    have h : (0 : Int) < n := by omega
    have : offB start n 0 = 0 := by rcases offB_cases start n 0 with h | h <;> omega
    simp [after, Zig.new, h, this]
  | succ k ih =>
    rw [after, ih]
    by_cases hk : (k : Int) < n
    · rw [if_pos hk]
      show next false ⟨start + offB start n k, offB start n k, start, n⟩ = _
      rw [nextB_eq]
      have c1 := offB_cases start n k
      have c2 := offB_cases start n (k + 1)
      have c3 := stepB_cases start n (offB start n k)
      push_cast at c2
      unfold checked
      dsimp only
      by_cases hk1 : ((k + 1 : Nat) : Int) < n
      · push_cast at hk1
        have he : stepB start n (offB start n k) = offB start n (k + 1) := by omega
        rw [if_neg (by omega), if_pos (by push_cast; omega), he]
      · push_cast at hk1
        rw [if_pos (by omega), if_neg (by push_cast; omega)]
    · rw [if_neg hk, if_neg (by push_cast; omega)]
      rfl

/-- **C150 (lines, partial).** On a line the same holds if the reference is not in the last segment (or is the only one). What is
missing is the last segment: see `C150_line_violated`. -/
theorem C150_line_partial (start n : Int) (h0 : 0 ≤ start) (h1 : start < n) (h2 : start < n - 1 ∨ n = 1) :
    VisitsAll false start n := by
  refine ⟨?_, ?_, ?_, ?_⟩
  · intro k z h
    rw [after_bounded h0 h1 h2] at h
    by_cases hk : (k : Int) < n
    · rw [if_pos hk] at h
      cases h
      have c1 := offB_cases start n k
      dsimp only
      omega
    · rw [if_neg hk] at h; cases h
  · intro i hi0 hi1
    have key : ∃ k : Nat, (k : Int) < n ∧ start + offB start n k = i := by
      by_cases hd : start < i
      · by_cases hh : i - start ≤ start
        · refine ⟨(2 * (i - start) - 1).toNat, by omega, ?_⟩
          have c := offB_cases start n (2 * (i - start) - 1).toNat
          omega
        · refine ⟨i.toNat, by omega, ?_⟩
          have c := offB_cases start n i.toNat
          omega
      · by_cases hh : start - i ≤ n - 1 - start
        · refine ⟨(2 * (start - i)).toNat, by omega, ?_⟩
          have c := offB_cases start n (2 * (start - i)).toNat
          omega
        · refine ⟨(n - 1 - i).toNat, by omega, ?_⟩
          have c := offB_cases start n (n - 1 - i).toNat
          omega
    obtain ⟨k, hk, hi⟩ := key
    exact ⟨k, ⟨start + offB start n k, offB start n k, start, n⟩, by rw [after_bounded h0 h1 h2, if_pos hk], hi⟩
  · intro k k' z z' h h' he
    rw [after_bounded h0 h1 h2] at h h'
    by_cases hk : (k : Int) < n
    · by_cases hk' : (k' : Int) < n
      · rw [if_pos hk] at h
        rw [if_pos hk'] at h'
        cases h; cases h'
        dsimp only at he
        have c := offB_cases start n k
        have c' := offB_cases start n k'
        omega
      · rw [if_neg hk'] at h'; cases h'
    · rw [if_neg hk] at h; cases h
  · rw [after_bounded h0 h1 h2, if_neg (by omega)]

example : VisitsAll true 2 5 ∧ VisitsAll false 1 5 := ⟨C150_ring 2 5 (by decide) (by decide), C150_line_partial 1 5 (by decide) (by decide) (by decide)⟩

/-- What `VisitsAll` means for the search: a segment is found if there is one, and the one found is accepted. -/
theorem search_of_visits {wrap : Bool} {start n : Int} (hv : VisitsAll wrap start n) (hit : Int → Bool) (fuel : Nat) (hf : n.toNat ≤ fuel) :
    ((∃ i, search wrap hit fuel (Zig.new start n) = some i) ↔ ∃ i, 0 ≤ i ∧ i < n ∧ hit i = true) ∧
    ∀ i, search wrap hit fuel (Zig.new start n) = some i → 0 ≤ i ∧ i < n ∧ hit i = true := by
  obtain ⟨hr, hc, -, hend⟩ := hv
  have aft : ∀ (z : Zig) (k : Nat), after wrap z (k + 1) = (next wrap z).bind fun z' => after wrap z' k := by
    intro z k
    induction k with
    | zero => simp [after]
    | succ k ih => rw [after, ih]; cases next wrap z <;> simp [after]
  have gen : ∀ (fuel : Nat) (z : Zig),
      (∀ i, search wrap hit fuel z = some i → hit i = true ∧ ∃ k z', after wrap z k = some z' ∧ z'.index = i) ∧
      (search wrap hit fuel z = none → ∀ k z', k < fuel → after wrap z k = some z' → hit z'.index = false) := by
    intro fuel
    induction fuel with
    | zero => intro z; exact ⟨fun i h => by simp [search] at h, fun _ k z' h => by omega⟩
    | succ f ih =>
      intro z
      by_cases hz : hit z.index = true
      · refine ⟨fun i h => ?_, fun h => ?_⟩
        · simp [search, hz] at h
          subst h
          exact ⟨hz, 0, z, rfl, rfl⟩
        · simp [search, hz] at h
      · cases hn : next wrap z with
        | none =>
          refine ⟨fun i h => ?_, fun _ k z' _ h => ?_⟩
          · simp [search, hz, hn] at h
          · cases k with
            | zero => simp [after] at h; subst h; simpa using hz
            | succ k => rw [aft, hn] at h; simp at h
        | some z1 =>
          refine ⟨fun i h => ?_, fun h k z' hk h' => ?_⟩
          · simp [search, hz, hn] at h
            obtain ⟨h1, k, z', h2, h3⟩ := (ih z1).1 i h
            exact ⟨h1, k + 1, z', by rw [aft, hn]; exact h2, h3⟩
          · simp [search, hz, hn] at h
            cases k with
            | zero => simp [after] at h'; subst h'; simpa using hz
            | succ k => rw [aft, hn] at h'; exact (ih z1).2 h k z' (by omega) h'
  have hnone : ∀ k z, after wrap (Zig.new start n) k = some z → k < n.toNat := by
    intro k z h
    by_contra hk
    have : ∀ j, after wrap (Zig.new start n) (n.toNat + j) = none := by
      intro j
      induction j with
      | zero => exact hend
      | succ j ih => rw [← add_assoc, after, ih]; rfl
    have h2 := this (k - n.toNat)
    rw [show n.toNat + (k - n.toNat) = k by omega, h] at h2
    cases h2
  have g := gen fuel (Zig.new start n)
  have sound : ∀ i, search wrap hit fuel (Zig.new start n) = some i → 0 ≤ i ∧ i < n ∧ hit i = true := by
    intro i h
    obtain ⟨h1, k, z, h2, h3⟩ := g.1 i h
    have := hr k z h2
    rw [h3] at this
    exact ⟨this.1, this.2, h1⟩
  refine ⟨⟨fun ⟨i, h⟩ => ⟨i, sound i h⟩, fun ⟨i, hi0, hi1, hi⟩ => ?_⟩, sound⟩
  cases hs : search wrap hit fuel (Zig.new start n) with
  | some j => exact ⟨j, rfl⟩
  | none =>
    obtain ⟨k, z, h1, h2⟩ := hc i hi0 hi1
    have := g.2 hs k z (by have := hnone k z h1; omega) h1
    rw [h2, hi] at this
    cases this

/-- **C150.** On a ring, a profile whose plane meets some segment of the survey is found; on a line too, if its reference is not in
the last segment. -/
theorem C150_found (wrap : Bool) (start n : Int) (h0 : 0 ≤ start) (h1 : start < n) (h2 : wrap = true ∨ start < n - 1)
    (hit : Int → Bool) : (∃ i, search wrap hit n.toNat (Zig.new start n) = some i) ↔ ∃ i, 0 ≤ i ∧ i < n ∧ hit i = true := by
  cases wrap with
  | true => exact (search_of_visits (C150_ring start n h0 h1) hit _ le_rfl).1
  | false => exact (search_of_visits (C150_line_partial start n h0 h1 (by simp at h2; omega)) hit _ le_rfl).1

example : search true (· == 0) 5 (Zig.new 3 5) = some 0 := by decide

/-- **C150 fails** on lines for every profile referred to the last element: the first call steps over the end, the iterator gives
up, and only the last segment is looked at. A profile placed upstream of it gets no position. -/
theorem C150_line_violated (n : Int) (hn : 2 ≤ n) : after false (Zig.new (n - 1) n) 1 = none ∧
    ∀ hit : Int → Bool, hit (n - 1) = false → ∀ fuel, search false hit fuel (Zig.new (n - 1) n) = none := by
  have h : next false (Zig.new (n - 1) n) = none := by simp [next, nextBounded, Zig.new, checked]
  refine ⟨by simp [after, h], fun hit hh fuel => ?_⟩
  cases fuel with
  | zero => rfl
  | succ f => simp [search, h, show (Zig.new (n - 1) n).index = n - 1 from rfl, hh]

/-- **C150 fails** for references at the end of the line: the segment after the last one, which does not exist, is the first looked
at, and on a ring the segment where the line begins never is. -/
theorem C150_end_violated (n : Int) (hn : 2 ≤ n) : (Zig.new n n).index = n ∧
    ¬ ∃ k z, after true (Zig.new n n) k = some z ∧ z.index = 0 := by
  refine ⟨rfl, ?_⟩
  have key : ∀ k z, after true (Zig.new n n) k = some z → z.start = n ∧ z.ub = n ∧ -n < 2 * z.offset ∧ 2 * z.offset ≤ n ∧
      (z.offset = 0 → z.index = n) ∧ (z.offset ≠ 0 → z.index ≠ 0) := by
    intro k
    induction k with
    | zero => intro z h; simp [after, Zig.new] at h; subst h; refine ⟨rfl, rfl, ?_, ?_, ?_, ?_⟩ <;> simp <;> omega
    | succ k ih =>
      intro z h
      rw [after] at h
      cases hp : after true (Zig.new n n) k with
      | none => rw [hp] at h; simp at h
      | some y =>
        rw [hp] at h
        obtain ⟨hs, hu, hl, hh, -, -⟩ := ih y hp
        have mv : ∀ off : Int, off ≠ 0 → -n < 2 * off → 2 * off ≤ n → z = nextWrapping.move y off →
            z.start = n ∧ z.ub = n ∧ -n < 2 * z.offset ∧ 2 * z.offset ≤ n ∧
            (z.offset = 0 → z.index = n) ∧ (z.offset ≠ 0 → z.index ≠ 0) := by
          intro off h1 h2 h3 hz
          subst hz
          unfold nextWrapping.move
          dsimp only
          rw [hs, hu, wrapIdx (by omega) (by omega) (by omega)]
          refine ⟨rfl, rfl, h2, h3, fun h => absurd h h1, fun _ => ?_⟩
          split
          · omega
          · split <;> omega
        change next true y = some z at h
        unfold next at h
        rw [if_pos rfl] at h
        unfold nextWrapping at h
        rw [hu] at h
        by_cases c1 : n ≤ 1
        · omega
        · rw [if_neg c1] at h
          by_cases c2 : y.offset = 0
          · rw [if_pos c2] at h
            exact mv 1 (by omega) (by omega) (by omega) (Option.some.inj h).symm
          · rw [if_neg c2] at h
            by_cases c3 : y.offset > 0
            · rw [if_pos c3] at h
              by_cases c4 : 2 * y.offset = n
              · rw [if_pos c4] at h; cases h
              · rw [if_neg c4] at h
                exact mv _ (by omega) (by omega) (by omega) (Option.some.inj h).symm
            · rw [if_neg c3] at h
              by_cases c4 : -y.offset + 1 > n / 2
              · rw [if_pos c4] at h; cases h
              · rw [if_neg c4] at h
                exact mv _ (by omega) (by omega) (by omega) (Option.some.inj h).symm
  rintro ⟨k, z, h, hz⟩
  obtain ⟨-, -, -, -, h1, h2⟩ := key k z h
  by_cases h0 : z.offset = 0
  · have := h1 h0; omega
  · exact h2 h0 hz

/-! ## C149: the positions asked for together -/

/-- The bound in force at `s`, for bounds in order: the last one which begins at or before `s`; before the first one, the first one on
a line and the last one on a ring. -/
def InForce (ring : Bool) (starts : List Rat) (s : Rat) (i : Nat) : Prop :=
  if s < starts.headD 0 then i = if ring then starts.length - 1 else 0
  else i < starts.length ∧ starts.getD i 0 ≤ s ∧ ∀ j, i < j → j < starts.length → s < starts.getD j 0

theorem inForce_unique {ring : Bool} {starts : List Rat} {s : Rat} {i j : Nat} (hi : InForce ring starts s i) (hj : InForce ring starts s j) :
    i = j := by
  unfold InForce at hi hj
  by_cases h : s < starts.headD 0
  · rw [if_pos h] at hi hj; rw [hi, hj]
  · rw [if_neg h] at hi hj
    rcases lt_trichotomy i j with h1 | h1 | h1
    · have := hi.2.2 j h1 hj.1; linarith [hj.2.1]
    · exact h1
    · have := hj.2.2 i h1 hi.1; linarith [hi.2.1]

theorem advance_spec {starts : List Rat} (hs : starts.Pairwise (· ≤ ·)) (s : Rat) : ∀ (fuel idx : Nat), idx < starts.length →
    starts.length ≤ idx + fuel + 1 → starts.getD idx 0 ≤ s →
    advance starts s fuel idx < starts.length ∧ starts.getD (advance starts s fuel idx) 0 ≤ s ∧
    ∀ j, advance starts s fuel idx < j → j < starts.length → s < starts.getD j 0 := by
  intro fuel
  induction fuel with
  | zero => intro idx h1 h2 h3; exact ⟨h1, h3, fun j h4 h5 => by simp [advance] at h4; omega⟩
  | succ f ih =>
    intro idx h1 h2 h3
    by_cases hl : idx + 1 < starts.length
    · have he : starts[idx + 1]? = some (starts.getD (idx + 1) 0) := by
        simp [List.getD_eq_getElem?_getD, List.getElem?_eq_getElem hl]
      by_cases hb : starts.getD (idx + 1) 0 ≤ s
      · simp only [advance, he, hb, if_true]
        exact ih (idx + 1) hl (by omega) hb
      · simp only [advance, he, hb, if_false]
        refine ⟨h1, h3, fun j hj1 hj2 => ?_⟩
        have : starts.getD (idx + 1) 0 ≤ starts.getD j 0 := by
          rcases Nat.lt_or_ge (idx + 1) j with h | h
          · have := List.pairwise_iff_getElem.mp hs (idx + 1) j hl hj2 h
            simpa [List.getD_eq_getElem?_getD, List.getElem?_eq_getElem hl, List.getElem?_eq_getElem hj2] using this
          · have : j = idx + 1 := by omega
            rw [this]
        linarith [not_le.mp hb]
    · have he : starts[idx + 1]? = none := by simp; omega
      simp only [advance, he]
      exact ⟨h1, h3, fun j _ _ => by omega⟩

theorem headD_eq {starts : List Rat} : starts.headD 0 = starts.getD 0 0 := by cases starts <;> rfl

theorem advance_before {starts : List Rat} (hs : starts.Pairwise (· ≤ ·)) {s : Rat} (h : s < starts.headD 0) (fuel : Nat) :
    advance starts s fuel 0 = 0 := by
  cases fuel with
  | zero => rfl
  | succ f =>
    unfold advance
    cases he : starts[0 + 1]? with
    | none => rfl
    | some b =>
      have hl : 1 < starts.length := by
        by_contra hc
        rw [List.getElem?_eq_none (by omega)] at he
        cases he
      have hb : starts[1] = b := by
        rw [List.getElem?_eq_getElem hl] at he
        exact Option.some.inj he
      have := List.pairwise_iff_getElem.mp hs 0 1 (by omega) hl (by omega)
      have h0 : starts.headD 0 = starts[0] := by
        rw [headD_eq]; simp [List.getD_eq_getElem?_getD, List.getElem?_eq_getElem (show 0 < starts.length by omega)]
      rw [h0] at h
      rw [hb] at this
      simp [show ¬ b ≤ s by intro hb2; linarith]

/-- What is known about the index kept, when positions are asked for in order. -/
def Kept (ring : Bool) (starts : List Rat) (s : Rat) (lower : Nat) : Prop :=
  lower = 0 ∨ (lower < starts.length ∧ starts.getD lower 0 ≤ s) ∨ (ring = true ∧ lower = starts.length - 1)

theorem active_spec {ring : Bool} {starts : List Rat} (hs : starts.Pairwise (· ≤ ·)) (hne : starts ≠ []) {s : Rat} {lower : Nat}
    (hk : Kept ring starts s lower) : InForce ring starts s (active ring starts lower s) := by
  have hpos : 0 < starts.length := List.length_pos_iff.mpr hne
  unfold InForce active
  by_cases h : s < starts.headD 0
  · rw [if_pos h]
    cases ring with
    | true => rw [if_pos ⟨rfl, h⟩, if_pos rfl]
    | false =>
      have hl : lower = 0 := by
        rcases hk with h1 | ⟨h1, h2⟩ | ⟨h1, -⟩
        · exact h1
        · by_contra hc
          have := List.pairwise_iff_getElem.mp hs 0 lower hpos h1 (by omega)
          have e0 : starts.headD 0 = starts[0] := by
            rw [headD_eq]; simp [List.getD_eq_getElem?_getD, List.getElem?_eq_getElem hpos]
          have e1 : starts.getD lower 0 = starts[lower] := by
            simp [List.getD_eq_getElem?_getD, List.getElem?_eq_getElem h1]
          rw [e0] at h
          rw [e1] at h2
          linarith
        · cases h1
      simp [hl, advance_before hs h]
  · rw [if_neg h, if_neg (by tauto)]
    have h0 : starts.getD 0 0 ≤ s := by rw [← headD_eq]; exact not_lt.mp h
    by_cases hr : ring = true ∧ lower = starts.length - 1 ∧ starts.headD 0 ≤ s
    · rw [if_pos hr]
      exact advance_spec hs s _ 0 hpos (by omega) h0
    · rw [if_neg hr]
      rcases hk with h1 | ⟨h1, h2⟩ | ⟨h1, h2⟩
      · rw [h1]; exact advance_spec hs s _ 0 hpos (by omega) h0
      · exact advance_spec hs s _ lower h1 (by omega) h2
      · exact absurd ⟨h1, h2, not_lt.mp h⟩ hr

theorem kept_next {ring : Bool} {starts : List Rat} (hne : starts ≠ []) {s t : Rat} (hst : s ≤ t) {i : Nat} (h : InForce ring starts s i) :
    Kept ring starts t i := by
  unfold InForce at h
  unfold Kept
  by_cases hc : s < starts.headD 0
  · rw [if_pos hc] at h
    cases ring with
    | true => right; right; simpa using h
    | false => left; simpa using h
  · rw [if_neg hc] at h
    right; left
    exact ⟨h.1, le_trans h.2.1 hst⟩

/-- **C149 (partial).** For bounds in order and positions asked for in order, the bound used at each position is the one in force
there: it does not depend on the other positions. What is missing are positions in any other order: see `C149_violated`. -/
theorem C149_bounds_partial (ring : Bool) (starts : List Rat) (hs : starts.Pairwise (· ≤ ·)) (hne : starts ≠ [])
    (positions : List Rat) (hp : positions.Pairwise (· ≤ ·)) :
    List.Forall₂ (InForce ring starts) positions (actives ring starts 0 positions) := by
  have gen : ∀ (ps : List Rat) (lower : Nat), ps.Pairwise (· ≤ ·) → (∀ p ∈ ps.head?, Kept ring starts p lower) →
      List.Forall₂ (InForce ring starts) ps (actives ring starts lower ps) := by
    intro ps
    induction ps with
    | nil => intro lower _ _; exact List.Forall₂.nil
    | cons p rest ih =>
      intro lower h1 h2
      have ha := active_spec hs hne (h2 p rfl)
      refine List.Forall₂.cons ha (ih _ (List.pairwise_cons.mp h1).2 fun q hq => ?_)
      have hmem : q ∈ rest := List.mem_of_mem_head? hq
      exact kept_next hne ((List.pairwise_cons.mp h1).1 q hmem) ha
  exact gen positions 0 hp fun _ _ => Or.inl rfl

example : actives true [1, 2, 3] 0 [0, 1, 5 / 2, 3] = [2, 0, 1, 2] := by decide +kernel

/-- **C149 fails** for positions in any other order: `cross_sections_at_s([2, 0])` takes the profile which begins at 2 for the
position 0 too, on lines and on rings; nothing is sorted, and nothing is reported. -/
theorem C149_violated : actives false [0, 1, 2, 3] 0 [2, 0] = [2, 2] ∧ actives true [0, 1, 2, 3] 0 [2, 0] = [2, 2] ∧
    InForce false [0, 1, 2, 3] 0 0 ∧ ¬ InForce false [0, 1, 2, 3] 0 2 := by
  refine ⟨by decide +kernel, by decide +kernel, ?_, ?_⟩
  · refine ⟨by decide, by decide +kernel, fun j h1 h2 => ?_⟩
    have : j = 1 ∨ j = 2 ∨ j = 3 := by simp at h2; omega
    rcases this with rfl | rfl | rfl <;> decide +kernel
  · intro h
    have := h.2.1
    norm_num at this

/-- A place which belongs to `s`: within the precision of the first or the last row, or a segment of the survey which contains `s`. -/
def PlaceOf (sv : List Rat) (s : Rat) : Place → Prop
  | .outside => s < sv.headD 0 - eps ∨ s > sv.getD (sv.length - 1) 0 + eps
  | .first => |s - sv.headD 0| ≤ eps
  | .last => |s - sv.getD (sv.length - 1) 0| ≤ eps
  | .segment i => i + 1 < sv.length ∧ sv.getD i 0 ≤ s ∧ s ≤ sv.getD (i + 1) 0

theorem forward_spec {sv : List Rat} (s : Rat) (h2 : 2 ≤ sv.length) (hl : s ≤ sv.getD (sv.length - 1) 0) : ∀ (fuel i : Nat),
    i + 1 < sv.length → sv.length ≤ i + fuel + 2 → sv.getD i 0 ≤ s →
    forward sv s fuel i + 1 < sv.length ∧ sv.getD (forward sv s fuel i) 0 ≤ s ∧ s ≤ sv.getD (forward sv s fuel i + 1) 0 := by
  intro fuel
  induction fuel with
  | zero =>
    intro i h1 h3 h4
    refine ⟨h1, h4, ?_⟩
    show s ≤ sv.getD (i + 1) 0
    rw [show i + 1 = sv.length - 1 by omega]
    exact hl
  | succ f ih =>
    intro i h1 h3 h4
    unfold forward
    by_cases hc : i + 2 < sv.length
    · rw [if_pos hc]
      by_cases hb : sv.getD i 0 ≤ s ∧ s ≤ sv.getD (i + 1) 0
      · rw [if_pos hb]; exact ⟨h1, hb⟩
      · rw [if_neg hb]
        refine ih (i + 1) (by omega) (by omega) ?_
        by_contra hh
        exact hb ⟨h4, le_of_lt (not_le.mp hh)⟩
    · rw [if_neg hc]
      refine ⟨h1, h4, ?_⟩
      rw [show i + 1 = sv.length - 1 by omega]
      exact hl

/-- **C149 (poses, partial).** Likewise for the poses: for positions in order each is interpolated in a segment which contains it. -/
theorem C149_poses_partial (sv : List Rat) (h2 : 2 ≤ sv.length) (positions : List Rat) (hp : positions.Pairwise (· ≤ ·)) :
    List.Forall₂ (PlaceOf sv) positions (resample sv 0 positions) := by
  have one : ∀ (s : Rat) (i : Nat), i + 1 < sv.length → sv.getD i 0 ≤ s ∨ i = 0 →
      PlaceOf sv s (resample1 sv i s).1 ∧ (resample1 sv i s).2 + 1 < sv.length ∧
      (sv.getD (resample1 sv i s).2 0 ≤ s ∨ (resample1 sv i s).2 = 0) := by
    intro s i hi hs
    unfold resample1
    by_cases c1 : s < sv.headD 0 - eps ∨ s > sv.getD (sv.length - 1) 0 + eps
    · rw [if_pos c1]; exact ⟨c1, hi, hs⟩
    · rw [if_neg c1]
      by_cases c2 : s ≤ sv.headD 0 + eps
      · rw [if_pos c2]
        refine ⟨?_, hi, hs⟩
        have := not_or.mp c1
        show |s - sv.headD 0| ≤ eps
        rw [abs_le]
        constructor <;> linarith [not_lt.mp this.1]
      · rw [if_neg c2]
        by_cases c3 : s ≥ sv.getD (sv.length - 1) 0 - eps
        · rw [if_pos c3]
          refine ⟨?_, hi, hs⟩
          have := not_or.mp c1
          show |s - sv.getD (sv.length - 1) 0| ≤ eps
          rw [abs_le]
          constructor <;> linarith [not_lt.mp this.2]
        · rw [if_neg c3]
          have heps : (0 : Rat) < eps := by norm_num
          have hs' : sv.getD i 0 ≤ s := by
            rcases hs with h | h
            · exact h
            · rw [h, ← headD_eq]; linarith [not_le.mp c2]
          have := forward_spec s h2 (by linarith [not_le.mp c3]) sv.length i hi (by omega) hs'
          exact ⟨this, this.1, Or.inl this.2.1⟩
  have gen : ∀ (ps : List Rat) (i : Nat), ps.Pairwise (· ≤ ·) → i + 1 < sv.length → (∀ p ∈ ps.head?, sv.getD i 0 ≤ p ∨ i = 0) →
      List.Forall₂ (PlaceOf sv) ps (resample sv i ps) := by
    intro ps
    induction ps with
    | nil => intro i _ _ _; exact List.Forall₂.nil
    | cons p rest ih =>
      intro i h1 h3 h4
      obtain ⟨a, b, c⟩ := one p i h3 (h4 p rfl)
      refine List.Forall₂.cons a (ih _ (List.pairwise_cons.mp h1).2 b fun q hq => ?_)
      have := (List.pairwise_cons.mp h1).1 q (List.mem_of_mem_head? hq)
      rcases c with c | c
      · left; linarith
      · right; exact c
  exact gen positions 0 hp (by omega) fun _ _ => Or.inr rfl

example : resample [0, 1, 2, 3] 0 [1 / 2, 3 / 2, 5 / 2] = [.segment 0, .segment 1, .segment 2] := by decide +kernel

/-- **C149 fails** for the poses too: asked for 2.5 and then 0.5, `poses_at_s` extrapolates the last segment back to 0.5. -/
theorem C149_poses_violated : resample [0, 1, 2, 3] 0 [5 / 2, 1 / 2] = [.segment 2, .segment 2] ∧ ¬ PlaceOf [0, 1, 2, 3] (1 / 2) (.segment 2) := by
  refine ⟨by decide +kernel, fun h => ?_⟩
  have := h.2.1
  norm_num at this

/-! ## C151: the resolution within an element -/

/-- The positions begin and end with the element, and neighbours are at most the resolution apart. -/
def Resolves (start len res : Rat) (cs : List Rat) : Prop :=
  cs.head? = some start ∧ cs.getLast? = some (start + len) ∧ cs.IsChain fun a b => b - a ≤ res

/-- **C151 (partial).** What holds: with at least two cuts the first and the last are the ends of the element. -/
theorem C151_ends_partial (start len res : Rat) (h : 2 ≤ (len / res).floor.toNat) :
    (cuts start len (some res)).head? = some start ∧ (cuts start len (some res)).getLast? = some (start + len) ∧
    (cuts start len (some res)).length = (len / res).floor.toNat := by
  show (linspace start (start + len) _).head? = _ ∧ (linspace start (start + len) _).getLast? = _ ∧ (linspace start (start + len) _).length = _
  generalize (len / res).floor.toNat = n at *
  obtain ⟨m, rfl⟩ : ∃ m, n = m + 2 := ⟨n - 2, by omega⟩
  refine ⟨?_, ?_, ?_⟩
  · unfold linspace
    rw [List.range_succ_eq_map]
    simp
  · unfold linspace
    rw [List.range_succ, List.map_append, List.getLast?_append]
    have : ((m : Rat) + 2 - 1) ≠ 0 := by have : (0 : Rat) ≤ m := Nat.cast_nonneg m; intro h; linarith
    simp
    rw [show (m : Rat) + 2 - 1 = m + 1 by ring] at this ⊢
    rw [mul_div_assoc, div_self this, mul_one]
  · simp [linspace]

/-- **C151 fails**: for an element of one metre and a resolution of half a metre the two positions are a metre apart; for a
resolution of 0.6 m only the entrance is given; for a resolution larger than the element nothing is. -/
theorem C151_violated : cuts 0 1 (some (1 / 2)) = [0, 1] ∧ ¬ Resolves 0 1 (1 / 2) (cuts 0 1 (some (1 / 2))) ∧
    cuts 0 1 (some (3 / 5)) = [0] ∧ cuts 0 1 (some 2) = [] := by
  have h : cuts 0 1 (some (1 / 2)) = [0, 1] := by decide +kernel
  refine ⟨h, ?_, by decide +kernel, by decide +kernel⟩
  rw [h]
  rintro ⟨-, -, h3⟩
  simp at h3
  norm_num at h3

end Verif.AperModel.Search
