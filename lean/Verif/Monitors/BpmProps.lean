import Verif.Monitors.BpmModel
import Mathlib.Tactic.Ring
import Mathlib.Tactic.Linarith
import Mathlib.Tactic.FieldSimp
import Mathlib.Tactic.NormNum
import Mathlib.Algebra.BigOperators.Ring.List

/-!
# C27: beam position, size and profile monitors
-/

namespace Verif.Monitors.Bpm

open Classical

/-! ## Specification -/

/-- The particles the user asked for: ids in the range; with `num_particles` -1 (or not given) all particles from
`particle_id_start` on. -/
def Wanted (range : Option (Int × Int)) (start num : Option Int) (p : Pt) : Prop :=
  match range with
  | some r => r.1 ≤ p.id ∧ p.id < r.2
  | none => start.getD 0 ≤ p.id ∧ (num = none ∨ num = some (-1) ∨ p.id < start.getD 0 + num.getD 0)

/-- The cases in which the request is honoured: a range; all particles from id zero; a given number of particles. -/
def IdsOk (range : Option (Int × Int)) (start num : Option Int) : Prop :=
  match range with
  | some r => 0 ≤ r.2
  | none => (num = none ∨ num = some (-1)) ∧ start.getD 0 = 0 ∨ (∃ n, num = some n ∧ 0 ≤ n ∧ 0 ≤ start.getD 0)

/-- Arrival of the particle in units of the sampling period, counted from the passage of the reference particle
at turn `start_at_turn`. -/
noncomputable def arrival (m : Mon) (p : Pt) : ℝ :=
  m.fs * (((p.turn : ℝ) - m.start) / m.frev - p.zeta / p.beta0 / cLight)

/-- The arrival is nearest to sample `i` (the boundary belongs to the later sample; to none for the lower boundary of
the first sample). -/
def InSlot (v : ℝ) (i : Nat) : Prop := (i : ℝ) - 1 / 2 ≤ v ∧ v < i + 1 / 2 ∧ -(1 / 2) < v

/-- The particles of a history that belong to sample `i`. -/
noncomputable def inSlot (m : Mon) (W : Pt → Prop) (i : Nat) (ps : List Pt) : List Pt :=
  ps.filter (fun p => decide (W p ∧ InSlot (arrival m p) i))

/-! ## Rounding -/

theorem cround_eq_iff (v : ℝ) (i : Nat) : cround v = i ↔ InSlot v i := by
  unfold cround InSlot
  by_cases h : 0 ≤ v
  · rw [if_pos h, Int.floor_eq_iff]
    push_cast
    constructor
    · rintro ⟨h1, h2⟩; exact ⟨by linarith, by linarith, by linarith⟩
    · rintro ⟨h1, h2, _⟩; exact ⟨by linarith, by linarith⟩
  · rw [if_neg h, Int.ceil_eq_iff]
    push_cast
    have hi : (0 : ℝ) ≤ i := Nat.cast_nonneg i
    constructor
    · rintro ⟨h1, h2⟩
      have : (i : ℝ) < 1 := by linarith
      have hi0 : i = 0 := by
        have : i < 1 := by exact_mod_cast this
        omega
      subst hi0
      push_cast at *
      exact ⟨by linarith, by linarith, by linarith⟩
    · rintro ⟨h1, h2, h3⟩
      have : (i : ℝ) < 1 := by linarith
      have hi0 : i = 0 := by
        have : i < 1 := by exact_mod_cast this
        omega
      subst hi0
      push_cast at *
      exact ⟨by linarith, by linarith⟩

theorem cround_nonneg_lt (v : ℝ) (n : Nat) : (0 ≤ cround v ∧ cround v < n) ↔ ∃ i, i < n ∧ InSlot v i := by
  constructor
  · rintro ⟨h1, h2⟩
    refine ⟨(cround v).toNat, by omega, ?_⟩
    rw [← cround_eq_iff]
    omega
  · rintro ⟨i, hi, h⟩
    rw [← cround_eq_iff] at h
    omega

/-! ## Ids -/

theorem selects_iff (range : Option (Int × Int)) (start num : Option Int) (m : Mon)
    (hid : idArgs range start num = some (m.idStart, m.num))
    (hok : IdsOk range start num)
    (p : Pt) (hp : 0 ≤ p.id) : m.selects p ↔ Wanted range start num p := by
  unfold idArgs at hid
  unfold IdsOk at hok
  unfold Mon.selects Wanted
  cases range with
  | some r =>
    simp only at hid hok ⊢
    split at hid
    · have := Option.some.inj hid
      have h1 : r.1 = m.idStart := congrArg Prod.fst this
      have h2 : r.2 - r.1 = m.num := congrArg Prod.snd this
      omega
    · exact absurd hid (by simp)
  | none =>
    simp only at hid hok ⊢
    have := Option.some.inj hid
    have h1 : start.getD 0 = m.idStart := congrArg Prod.fst this
    have h2 : num.getD (-1) = m.num := congrArg Prod.snd this
    rcases hok with ⟨hn, hs⟩ | ⟨n, hn, hn0, hs⟩
    · have : m.num = -1 := by
        rcases hn with hn | hn <;> (rw [hn] at h2; exact h2.symm)
      rw [hs] at h1
      constructor
      · intro _
        refine ⟨by omega, ?_⟩
        rcases hn with hn | hn
        · exact Or.inl hn
        · exact Or.inr (Or.inl hn)
      · intro _
        left
        omega
    · subst hn
      simp only [Option.getD_some] at h2 ⊢
      constructor
      · rintro (h | h)
        · omega
        · refine ⟨by omega, Or.inr (Or.inr (by omega))⟩
      · rintro ⟨a, b | b | b⟩
        · exact absurd b (by simp)
        · have := Option.some.inj b
          omega
        · right; omega

/-! ## Sums -/

theorem one_fields (m : Mon) (d : Data) (p : Pt) (i : Nat) (hi : i < m.size) :
    (m.one d p).count i = d.count i + (if m.selects p ∧ InSlot (arrival m p) i then 1 else 0) ∧
    (m.one d p).xSum i = d.xSum i + (if m.selects p ∧ InSlot (arrival m p) i then p.x else 0) ∧
    (m.one d p).ySum i = d.ySum i + (if m.selects p ∧ InSlot (arrival m p) i then p.y else 0) ∧
    (m.one d p).x2Sum i = d.x2Sum i + (if m.selects p ∧ InSlot (arrival m p) i then p.x * p.x else 0) ∧
    (m.one d p).y2Sum i = d.y2Sum i + (if m.selects p ∧ InSlot (arrival m p) i then p.y * p.y else 0) := by
  have hs : m.slot p = (i : Int) ↔ InSlot (arrival m p) i := cround_eq_iff (m.phase p) i
  have fin : ∀ (f : Int → ℝ) (v : ℝ) (c : Prop), c → (c ∧ InSlot (arrival m p) i ↔ m.slot p = (i : Int)) →
      add f (m.slot p) v i = f i + (if c ∧ InSlot (arrival m p) i then v else 0) := by
    intro f v c _ hc
    unfold add
    by_cases h : m.slot p = (i : Int)
    · rw [if_pos h.symm, if_pos (hc.mpr h)]
    · rw [if_neg (fun hc => h hc.symm), if_neg (fun hh => h (hc.mp hh)), add_zero]
  unfold Mon.one
  by_cases h1 : m.selects p
  · rw [if_pos h1]
    have hc : m.selects p ∧ InSlot (arrival m p) i ↔ m.slot p = (i : Int) :=
      ⟨fun h => hs.mpr h.2, fun h => ⟨h1, hs.mp h⟩⟩
    by_cases h2 : 0 ≤ m.slot p ∧ m.slot p < m.size
    · rw [if_pos h2]
      exact ⟨fin _ _ _ h1 hc, fin _ _ _ h1 hc, fin _ _ _ h1 hc, fin _ _ _ h1 hc, fin _ _ _ h1 hc⟩
    · rw [if_neg h2]
      have : ¬ (m.selects p ∧ InSlot (arrival m p) i) := by
        intro h
        apply h2
        have := hc.mp h
        omega
      simp only [this, if_false, add_zero, and_self]
  · rw [if_neg h1]
    have : ¬ (m.selects p ∧ InSlot (arrival m p) i) := fun h => h1 h.1
    simp only [this, if_false, add_zero, and_self]

theorem track_fields (m : Mon) (ps : List Pt) (d : Data) (i : Nat) (hi : i < m.size) :
    (m.track d ps).count i = d.count i + ((inSlot m m.selects i ps).length : ℝ) ∧
    (m.track d ps).xSum i = d.xSum i + ((inSlot m m.selects i ps).map Pt.x).sum ∧
    (m.track d ps).ySum i = d.ySum i + ((inSlot m m.selects i ps).map Pt.y).sum ∧
    (m.track d ps).x2Sum i = d.x2Sum i + ((inSlot m m.selects i ps).map (fun p => p.x * p.x)).sum ∧
    (m.track d ps).y2Sum i = d.y2Sum i + ((inSlot m m.selects i ps).map (fun p => p.y * p.y)).sum := by
  induction ps generalizing d with
  | nil => simp [Mon.track, inSlot]
  | cons p ps ih =>
    have : m.track d (p :: ps) = m.track (m.one d p) ps := rfl
    rw [this]
    obtain ⟨a1, a2, a3, a4, a5⟩ := ih (m.one d p)
    obtain ⟨b1, b2, b3, b4, b5⟩ := one_fields m d p i hi
    rw [a1, a2, a3, a4, a5, b1, b2, b3, b4, b5]
    unfold inSlot
    by_cases h : m.selects p ∧ InSlot (arrival m p) i
    · rw [List.filter_cons_of_pos (by simpa using h)]
      simp only [if_pos h, List.length_cons, List.map_cons, List.sum_cons]
      push_cast
      refine ⟨by ring, by ring, by ring, by ring, by ring⟩
    · rw [List.filter_cons_of_neg (by simpa using h)]
      simp only [if_neg h, add_zero, and_self]

theorem track_append (m : Mon) (d : Data) (h : List (List Pt)) : h.foldl m.track d = m.track d h.flatten := by
  induction h generalizing d with
  | nil => rfl
  | cons ps h ih =>
    rw [List.foldl_cons, ih, List.flatten_cons]
    unfold Mon.track
    rw [List.foldl_append]

theorem inSlot_congr (m : Mon) (W W' : Pt → Prop) (i : Nat) (ps : List Pt) (h : ∀ p ∈ ps, (W p ↔ W' p)) :
    inSlot m W i ps = inSlot m W' i ps := by
  unfold inSlot
  apply List.filter_congr
  intro p hp
  simp only [h p hp]

/-- Mean of a list of numbers. -/
noncomputable def mean (l : List ℝ) : ℝ := l.sum / l.length

theorem var_eq (l : List ℝ) (h : l ≠ []) :
    (l.map (fun v => v * v)).sum / l.length - mean l ^ 2 = mean (l.map (fun v => (v - mean l) ^ 2)) := by
  have hl : (l.length : ℝ) ≠ 0 := by
    have : l.length ≠ 0 := by simpa using h
    exact_mod_cast this
  generalize hmu : mean l = mu
  have hsum : l.sum = mu * l.length := by
    rw [← hmu]; unfold mean; field_simp
  have hexp : ∀ l : List ℝ, (l.map (fun v => (v - mu) ^ 2)).sum =
      (l.map (fun v => v * v)).sum - 2 * mu * l.sum + mu ^ 2 * l.length := by
    intro l
    induction l with
    | nil => simp
    | cons a l ih =>
      simp only [List.map_cons, List.sum_cons, ih, List.length_cons]
      push_cast
      ring
  unfold mean
  rw [hexp, hsum, List.length_map]
  field_simp
  ring

/-- **C27 (partial), position and size monitors.**  After any history of passages, for every sample: the count is the
number of passages of wanted particles nearest to this sample, the reported means are the means over these passages
(NaN if there are none) and the reported variances are the mean square deviations from these means.
Missing: `particle_id_start` greater than zero without number of particles, see `C27_all_particles_violated`. -/
theorem C27_position_size_partial (range : Option (Int × Int)) (start num : Option Int) (m : Mon)
    (hid : idArgs range start num = some (m.idStart, m.num))
    (hok : IdsOk range start num)
    (h : List (List Pt)) (hp : ∀ ps ∈ h, ∀ p ∈ ps, 0 ≤ p.id) (i : Nat) (hi : i < m.size)
    (S : List Pt) (hS : S = inSlot m (Wanted range start num) i h.flatten) :
    (h.foldl m.track Data.zero).count i = S.length ∧
    (h.foldl m.track Data.zero).xMean i = (if S = [] then none else some (mean (S.map Pt.x))) ∧
    (h.foldl m.track Data.zero).yMean i = (if S = [] then none else some (mean (S.map Pt.y))) ∧
    (h.foldl m.track Data.zero).xVar i =
      (if S = [] then none else some (mean (S.map (fun p => (p.x - mean (S.map Pt.x)) ^ 2)))) ∧
    (h.foldl m.track Data.zero).yVar i =
      (if S = [] then none else some (mean (S.map (fun p => (p.y - mean (S.map Pt.y)) ^ 2)))) := by
  rw [track_append]
  have hc : inSlot m m.selects i h.flatten = S := by
    rw [hS]
    apply inSlot_congr
    intro p hpm
    obtain ⟨ps, hps, hpp⟩ := List.mem_flatten.mp hpm
    exact selects_iff range start num m hid hok p (hp ps hps p hpp)
  obtain ⟨a1, a2, a3, a4, a5⟩ := track_fields m h.flatten Data.zero i hi
  rw [hc] at a1 a2 a3 a4 a5
  have z1 : Data.zero.count i = 0 := rfl
  have z2 : Data.zero.xSum i = 0 := rfl
  have z3 : Data.zero.ySum i = 0 := rfl
  have z4 : Data.zero.x2Sum i = 0 := rfl
  have z5 : Data.zero.y2Sum i = 0 := rfl
  rw [z1, zero_add] at a1
  rw [z2, zero_add] at a2
  rw [z3, zero_add] at a3
  rw [z4, zero_add] at a4
  rw [z5, zero_add] at a5
  have mean_of : ∀ f : Pt → ℝ, (S.map f).sum / (S.length : ℝ) = mean (S.map f) := by
    intro f; unfold mean; rw [List.length_map]
  have var_of : ∀ f : Pt → ℝ, S ≠ [] →
      (S.map (fun p => f p * f p)).sum / (S.length : ℝ) - mean (S.map f) ^ 2 =
        mean (S.map (fun p => (f p - mean (S.map f)) ^ 2)) := by
    intro f hne
    have := var_eq (S.map f) (by simpa using hne)
    rw [List.map_map, List.map_map, List.length_map] at this
    exact this
  refine ⟨a1, ?_, ?_, ?_, ?_⟩
  · unfold Data.xMean
    rw [a1, a2]
    by_cases hne : S = []
    · rw [if_pos (by rw [hne]; simp), if_pos hne]
    · rw [if_neg (by simpa using hne), if_neg hne, mean_of]
  · unfold Data.yMean
    rw [a1, a3]
    by_cases hne : S = []
    · rw [if_pos (by rw [hne]; simp), if_pos hne]
    · rw [if_neg (by simpa using hne), if_neg hne, mean_of]
  · unfold Data.xVar Data.xMean
    rw [a1, a2, a4]
    by_cases hne : S = []
    · rw [if_pos (by rw [hne]; simp), if_pos hne]; rfl
    · rw [if_neg (by simpa using hne), if_neg hne, mean_of Pt.x, Option.map_some, var_of Pt.x hne]
  · unfold Data.yVar Data.yMean
    rw [a1, a3, a5]
    by_cases hne : S = []
    · rw [if_pos (by rw [hne]; simp), if_pos hne]; rfl
    · rw [if_neg (by simpa using hne), if_neg hne, mean_of Pt.y, Option.map_some, var_of Pt.y hne]

theorem inSlot_unique (v : ℝ) (i j : Nat) (hi : InSlot v i) (hj : InSlot v j) : i = j := by
  rw [← cround_eq_iff] at hi hj
  omega

theorem inWindow (v : ℝ) (n : Nat) : (∃ i, i < n ∧ InSlot v i) ↔ (-(1 / 2) < v ∧ v < n - 1 / 2) := by
  constructor
  · rintro ⟨i, hi, h1, h2, h3⟩
    refine ⟨h3, ?_⟩
    have : (i : ℝ) + 1 ≤ n := by exact_mod_cast hi
    linarith
  · rintro ⟨h1, h2⟩
    rw [← cround_nonneg_lt]
    unfold cround
    by_cases h : 0 ≤ v
    · rw [if_pos h]
      refine ⟨Int.floor_nonneg.mpr (by linarith), ?_⟩
      rw [Int.floor_lt]
      push_cast
      linarith
    · rw [if_neg h]
      have hn : 0 < n := by
        rcases Nat.eq_zero_or_pos n with hn | hn
        · subst hn; push_cast at h2; linarith
        · exact hn
      have : ⌈v - 1 / 2⌉ = 0 := by
        rw [Int.ceil_eq_iff]
        push_cast
        constructor <;> linarith
      rw [this]
      omega

/-- **C27, exactly once.**  The counts of all samples add up to the number of passages of selected particles inside the
acquisition window: every passage contributes to exactly one sample. -/
theorem C27_exactly_once (m : Mon) (h : List (List Pt)) :
    ((List.range m.size).map (fun i : Nat => (h.foldl m.track Data.zero).count i)).sum =
      ((h.flatten.filter (fun p => decide (m.selects p ∧ -(1 / 2) < arrival m p ∧ arrival m p < m.size - 1 / 2))).length : ℝ) := by
  rw [track_append]
  have e1 : (List.range m.size).map (fun i : Nat => (m.track Data.zero h.flatten).count i) =
      (List.range m.size).map (fun i : Nat => ((inSlot m m.selects i h.flatten).length : ℝ)) := by
    apply List.map_congr_left
    intro i hi
    rw [(track_fields m h.flatten Data.zero i (List.mem_range.mp hi)).1]
    show (0 : ℝ) + _ = _
    rw [zero_add]
  rw [e1]
  generalize h.flatten = ps
  clear e1
  have one : ∀ (v : ℝ) (n : Nat),
      ((List.range n).map (fun i : Nat => if InSlot v i then (1 : ℝ) else 0)).sum =
        if (-(1 / 2) < v ∧ v < n - 1 / 2) then 1 else 0 := by
    intro v n
    simp only [← inWindow]
    induction n with
    | zero => simp
    | succ n ih =>
      rw [List.range_succ, List.map_append, List.sum_append, ih]
      simp only [List.map_cons, List.map_nil, List.sum_cons, List.sum_nil, add_zero]
      by_cases hn : InSlot v n
      · have h1 : ¬ ∃ i, i < n ∧ InSlot v i := by
          rintro ⟨i, hi, hv⟩
          have := inSlot_unique v i n hv hn
          omega
        rw [if_neg h1, if_pos hn, if_pos ⟨n, by omega, hn⟩, zero_add]
      · by_cases h1 : ∃ i, i < n ∧ InSlot v i
        · rw [if_pos h1, if_neg hn, if_pos, add_zero]
          obtain ⟨i, hi, hv⟩ := h1
          exact ⟨i, by omega, hv⟩
        · rw [if_neg h1, if_neg hn, if_neg, add_zero]
          rintro ⟨i, hi, hv⟩
          rcases Nat.lt_or_ge i n with h2 | h2
          · exact h1 ⟨i, h2, hv⟩
          · have : i = n := by omega
            exact hn (this ▸ hv)
  induction ps with
  | nil => simp [inSlot]
  | cons p ps ih =>
    have e2 : ∀ i : Nat, ((inSlot m m.selects i (p :: ps)).length : ℝ) =
        (if m.selects p then (if InSlot (arrival m p) i then 1 else 0) else 0) + ((inSlot m m.selects i ps).length : ℝ) := by
      intro i
      unfold inSlot
      rw [List.filter_cons]
      by_cases h1 : m.selects p <;> by_cases h2 : InSlot (arrival m p) i <;> simp [h1, h2, add_comm]
    simp only [e2]
    rw [List.sum_map_add, ih, List.filter_cons]
    by_cases h1 : m.selects p
    · simp only [h1, if_true, one, true_and]
      by_cases h2 : -(1 / 2) < arrival m p ∧ arrival m p < m.size - 1 / 2
      · rw [if_pos h2, if_pos (by simpa using h2), List.length_cons]
        push_cast
        ring
      · rw [if_neg h2, if_neg (by simpa using h2), zero_add]
    · simp [h1]

/-- **C27, memory.**  Nothing outside the arrays is touched. -/
theorem C27_in_bounds (m : Mon) (h : List (List Pt)) (d : Data) (i : Int) (hi : i < 0 ∨ (m.size : Int) ≤ i) :
    (h.foldl m.track d).count i = d.count i ∧ (h.foldl m.track d).xSum i = d.xSum i ∧
    (h.foldl m.track d).ySum i = d.ySum i ∧ (h.foldl m.track d).x2Sum i = d.x2Sum i ∧
    (h.foldl m.track d).y2Sum i = d.y2Sum i := by
  rw [track_append]
  generalize h.flatten = ps
  induction ps generalizing d with
  | nil => exact ⟨rfl, rfl, rfl, rfl, rfl⟩
  | cons p ps ih =>
    have : m.track d (p :: ps) = m.track (m.one d p) ps := rfl
    rw [this]
    obtain ⟨a1, a2, a3, a4, a5⟩ := ih (m.one d p)
    rw [a1, a2, a3, a4, a5]
    unfold Mon.one
    split
    · split
      · rename_i h2
        have hne : i ≠ m.slot p := by omega
        exact ⟨if_neg hne, if_neg hne, if_neg hne, if_neg hne, if_neg hne⟩
      · exact ⟨rfl, rfl, rfl, rfl, rfl⟩
    · exact ⟨rfl, rfl, rfl, rfl, rfl⟩

/-- A particle at turn 1 with `zeta = 0`, two samples per turn, is counted in sample 2. -/
example : InSlot (arrival ⟨0, -1, 0, 1, 2, 4⟩ ⟨5, 1, 0, 1, 0.001, 0⟩) 2 ∧
    idArgs none none none = some ((⟨0, -1, 0, 1, 2, 4⟩ : Mon).idStart, (⟨0, -1, 0, 1, 2, 4⟩ : Mon).num) := by
  constructor
  · unfold InSlot arrival
    norm_num
  · rfl

/-- **C27 violated**: `particle_id_start = 5` and all particles (`num_particles` not given): no particle is ever recorded. -/
theorem C27_all_particles_violated :
    idArgs none (some 5) none = some (5, -1) ∧
    ∀ (start : Int) (frev fs : ℝ) (size : Nat) (h : List (List Pt)),
      h.foldl (⟨5, -1, start, frev, fs, size⟩ : Mon).track Data.zero = Data.zero := by
  refine ⟨rfl, ?_⟩
  intro start frev fs size h
  rw [track_append]
  generalize h.flatten = ps
  induction ps with
  | nil => rfl
  | cons p ps ih =>
    have : (⟨5, -1, start, frev, fs, size⟩ : Mon).track Data.zero (p :: ps) =
        (⟨5, -1, start, frev, fs, size⟩ : Mon).track ((⟨5, -1, start, frev, fs, size⟩ : Mon).one Data.zero p) ps := rfl
    rw [this]
    have hs : ¬ (⟨5, -1, start, frev, fs, size⟩ : Mon).selects p := by
      unfold Mon.selects
      simp only
      omega
    have : (⟨5, -1, start, frev, fs, size⟩ : Mon).one Data.zero p = Data.zero := by
      unfold Mon.one
      rw [if_neg hs]
    rw [this, ih]

/-! ## Profile monitor -/

/-- The coordinate lies between the edges of bin `b`. -/
def InBin (r : Raster) (v : ℝ) (b : Nat) : Prop := r.edge b ≤ v ∧ v < r.edge (b + 1)

theorem bin_eq_iff (r : Raster) (hd : 0 < r.d) (v : ℝ) (b : Nat) : ⌊(v - r.min) / r.d⌋ = (b : Int) ↔ InBin r v b := by
  rw [Int.floor_eq_iff]
  unfold InBin Raster.edge
  push_cast
  rw [le_div_iff₀ hd, div_lt_iff₀ hd]
  constructor
  · rintro ⟨h1, h2⟩; constructor <;> nlinarith
  · rintro ⟨h1, h2⟩; constructor <;> nlinarith

theorem profileOne_spec (m : Mon) (r : Raster) (hd : 0 < r.d) (coord : Pt → ℝ) (counts : Int → ℝ) (p : Pt) (s b : Nat)
    (hs : s < m.size) (hb : b < r.n) :
    m.profileOne r coord counts p (s * r.n + b) = counts (s * r.n + b) +
      (if m.selects p ∧ InSlot (arrival m p) s ∧ InBin r (coord p) b then 1 else 0) := by
  have h1 : m.slot p = (s : Int) ↔ InSlot (arrival m p) s := cround_eq_iff (m.phase p) s
  have h2 := bin_eq_iff r hd (coord p) b
  unfold Mon.profileOne
  generalize m.slot p = sl at *
  generalize ⌊(coord p - r.min) / r.d⌋ = bi at *
  rw [← h1, ← h2]
  by_cases hsel : m.selects p
  · rw [if_pos hsel]
    by_cases c1 : 0 ≤ sl ∧ sl < m.size
    · rw [if_pos c1]
      by_cases c2 : 0 ≤ bi ∧ bi < r.n
      · rw [if_pos c2]
        have hn : (0 : Int) ≤ r.n := by omega
        have b1 : 0 ≤ sl * r.n := Int.mul_nonneg c1.1 hn
        have b2 : (sl + 1) * (r.n : Int) ≤ m.size * r.n := Int.mul_le_mul_of_nonneg_right (by omega) hn
        rw [Int.add_mul, Int.one_mul] at b2
        rw [if_pos ⟨by omega, by omega⟩]
        unfold add
        by_cases he : sl = (s : Int) ∧ bi = (b : Int)
        · rw [if_pos (by rw [he.1, he.2]), if_pos ⟨hsel, he⟩]
        · rw [if_neg, if_neg (fun hh => he hh.2), add_zero]
          intro hh
          apply he
          rcases lt_trichotomy sl (s : Int) with h | h | h
          · have : (sl + 1) * (r.n : Int) ≤ s * r.n := Int.mul_le_mul_of_nonneg_right (by omega) hn
            rw [Int.add_mul, Int.one_mul] at this
            omega
          · subst h
            exact ⟨rfl, by omega⟩
          · have : ((s : Int) + 1) * (r.n : Int) ≤ sl * r.n := Int.mul_le_mul_of_nonneg_right (by omega) hn
            rw [Int.add_mul, Int.one_mul] at this
            omega
      · rw [if_neg c2, if_neg, add_zero]
        rintro ⟨_, _, h⟩
        omega
    · rw [if_neg c1, if_neg, add_zero]
      rintro ⟨_, h, _⟩
      omega
  · rw [if_neg hsel, if_neg (fun hh => hsel hh.1), add_zero]

/-- **C27, profile monitor.**  After any history, the intensity of a bin in a sample is the number of passages of
selected particles nearest to this sample whose coordinate lies between the edges of the bin. -/
theorem C27_profile (m : Mon) (r : Raster) (hd : 0 < r.d) (coord : Pt → ℝ) (h : List (List Pt)) (s b : Nat)
    (hs : s < m.size) (hb : b < r.n) :
    intensity r (h.foldl (m.profileTrack r coord) (fun _ => 0)) s b =
      ((inSlot m m.selects s h.flatten).filter (fun p => decide (InBin r (coord p) b))).length := by
  have hflat : ∀ (h : List (List Pt)) c, h.foldl (m.profileTrack r coord) c = m.profileTrack r coord c h.flatten := by
    intro h
    induction h with
    | nil => intro c; rfl
    | cons ps h ih =>
      intro c
      rw [List.foldl_cons, ih, List.flatten_cons]
      unfold Mon.profileTrack
      rw [List.foldl_append]
  have main : ∀ (ps : List Pt) (c : Int → ℝ), m.profileTrack r coord c ps (s * r.n + b) = c (s * r.n + b) +
      ((inSlot m m.selects s ps).filter (fun p => decide (InBin r (coord p) b))).length := by
    intro ps
    induction ps with
    | nil => intro c; simp [Mon.profileTrack, inSlot]
    | cons p ps ih =>
      intro c
      have : m.profileTrack r coord c (p :: ps) = m.profileTrack r coord (m.profileOne r coord c p) ps := rfl
      rw [this, ih, profileOne_spec m r hd coord c p s b hs hb]
      unfold inSlot
      rw [List.filter_cons]
      by_cases h1 : m.selects p <;> by_cases h2 : InSlot (arrival m p) s <;> by_cases h3 : InBin r (coord p) b <;>
        simp [h1, h2, h3] <;> ring
  unfold intensity
  rw [hflat, main, zero_add]

/-- The first and last edges are the requested range. -/
theorem C27_profile_edges (n : Nat) (hn : 0 < n) (lo hi : ℝ) :
    (Raster.ofRange n lo hi).edge 0 = lo ∧ (Raster.ofRange n lo hi).edge n = hi := by
  have : (n : ℝ) ≠ 0 := by exact_mod_cast (by omega : n ≠ 0)
  unfold Raster.edge Raster.ofRange
  constructor
  · simp
  · simp only
    field_simp
    ring

end Verif.Monitors.Bpm
