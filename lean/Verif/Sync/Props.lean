import Verif.Sync.Spec
import Mathlib.Tactic.Ring
import Mathlib.Tactic.Linarith
import Mathlib.Tactic.FieldSimp
import Mathlib.Tactic.NormNum
import Mathlib.Tactic.Push

/-!
# Coasting beams: every passage is seen once, at the right time (C105)
-/

namespace Verif.Sync

variable {c : Cfg} {slip : ℕ → ℕ → Option ℝ}

theorem ratio_eq (h : Ring c) : ratio c = c.rel := by
  have h1 := h.beta0.ne'
  have h2 := h.rel.ne'
  unfold ratio beta1; field_simp

theorem beta1_pos (h : Ring c) : 0 < beta1 c := div_pos h.beta0 h.rel

theorem inv_beta1 (h : Ring c) : 1 / beta1 c = c.rel / c.beta0 := by
  have h1 := h.beta0.ne'
  have h2 := h.rel.ne'
  unfold beta1; field_simp

theorem windowEnd_eq (h : Ring c) (k i : ℕ) :
    windowEnd c k i = (c.pos i + k * c.C + c.C / 2) * c.rel / c.beta0 := by
  rw [windowEnd, div_eq_mul_one_div, inv_beta1 h]; ring

theorem windowStart_eq (h : Ring c) (k i : ℕ) :
    windowStart c k i = (c.pos i + k * c.C - c.C / 2) * c.rel / c.beta0 := by
  rw [windowStart, div_eq_mul_one_div, inv_beta1 h]; ring

theorem time_eq (h : Ring c) (k : ℕ) (p : P) :
    time c k p = (p.s - p.zeta + k * c.C * c.rel) / c.beta0 := by
  rw [time, div_eq_mul_one_div c.C, inv_beta1 h]; ring

theorem late_iff (h : Ring c) (k i : ℕ) (p : P) (hs : p.s = c.pos i) :
    p.zeta < zmin c p ↔ windowEnd c k i < time c k p := by
  rw [windowEnd_eq h, time_eq h, zmin, ratio_eq h, hs, div_lt_div_iff_of_pos_right h.beta0]
  constructor <;> intro h <;> linarith

theorem fast_iff (h : Ring c) (k i : ℕ) (p : P) (hs : p.s = c.pos i) :
    zmin c p + c.C * ratio c < p.zeta ↔ time c k p < windowStart c k i := by
  rw [windowStart_eq h, time_eq h, zmin, ratio_eq h, hs, div_lt_div_iff_of_pos_right h.beta0]
  constructor <;> intro h <;> linarith

/-- The passages which were seen are those of the free motion, each in its window. -/
def Log (c : Cfg) (slip : ℕ → ℕ → Option ℝ) (z0 : ℕ → ℝ) (p : P) : Prop :=
  ∀ (j : ℕ) (e : Seen), p.seen[j]? = some e → e.place = j % (c.n + 2) ∧ e.time = free c slip p.pid (z0 p.pid) j
    ∧ windowStart c e.frame e.place ≤ e.time ∧ e.time ≤ windowEnd c e.frame e.place

/-- Stopped, before place `i` of frame `k`. -/
def Wait (c : Cfg) (slip : ℕ → ℕ → Option ℝ) (z0 : ℕ → ℝ) (k i : ℕ) (p : P) : Prop :=
  ∃ j ≤ c.n + 1, p.state = -ident c j ∧ p.seen.length % (c.n + 2) = j ∧ p.s = c.pos j ∧
    ((j < i ∧ time c (k + 1) p = free c slip p.pid (z0 p.pid) p.seen.length
        ∧ windowEnd c k j < free c slip p.pid (z0 p.pid) p.seen.length) ∨
     (i ≤ j ∧ 0 < k ∧ time c k p = free c slip p.pid (z0 p.pid) p.seen.length
        ∧ windowEnd c (k - 1) j < free c slip p.pid (z0 p.pid) p.seen.length))

/-- Parked in the first frame. -/
def Parked (c : Cfg) (slip : ℕ → ℕ → Option ℝ) (z0 : ℕ → ℝ) (k : ℕ) (p : P) : Prop :=
  k = 0 ∧ p.state = -coast ∧ p.seen = [] ∧ p.s = 0 ∧ time c 1 p = free c slip p.pid (z0 p.pid) 0
    ∧ windowEnd c 0 0 < free c slip p.pid (z0 p.pid) 0
    ∧ free c slip p.pid (z0 p.pid) 0 ≤ windowEnd c 1 0

/-- Before place `i` of frame `k`. -/
def Ready (c : Cfg) (slip : ℕ → ℕ → Option ℝ) (z0 : ℕ → ℝ) (k i : ℕ) (p : P) : Prop :=
  Log c slip z0 p ∧ (k = 0 → p.turn = 0) ∧
    ((0 < p.state ∧ p.seen.length % (c.n + 2) = i ∧ p.s = c.pos i
        ∧ time c k p = free c slip p.pid (z0 p.pid) p.seen.length
        ∧ (i = 0 → k = 0 → p.seen = [] ∧ free c slip p.pid (z0 p.pid) 0 ≤ windowEnd c 1 0)
        ∧ (i = 0 → 0 < k → windowEnd c (k - 1) 0 ≤ free c slip p.pid (z0 p.pid) p.seen.length
            ∧ free c slip p.pid (z0 p.pid) p.seen.length ≤ windowEnd c k 0))
      ∨ Wait c slip z0 k i p ∨ (0 < i ∧ Parked c slip z0 k p) ∨ Lost p)

/-- After place `i` of frame `k`. -/
def Done (c : Cfg) (slip : ℕ → ℕ → Option ℝ) (z0 : ℕ → ℝ) (k i : ℕ) (p : P) : Prop :=
  Log c slip z0 p ∧ (k = 0 → p.turn = 0) ∧
    ((0 < p.state ∧ i ≤ c.n ∧ p.seen.length % (c.n + 2) = i + 1 ∧ p.s = c.pos i ∧ 0 < p.seen.length
        ∧ time c k p = free c slip p.pid (z0 p.pid) (p.seen.length - 1))
      ∨ (0 < p.state ∧ i = c.n + 1 ∧ p.seen.length % (c.n + 2) = 0
        ∧ (-p.zeta + (k + 1) * c.C * c.rel) / c.beta0 = free c slip p.pid (z0 p.pid) p.seen.length
        ∧ windowEnd c k 0 ≤ free c slip p.pid (z0 p.pid) p.seen.length
        ∧ free c slip p.pid (z0 p.pid) p.seen.length ≤ windowEnd c (k + 1) 0)
      ∨ Wait c slip z0 k (i + 1) p ∨ (i ≤ c.n ∧ Parked c slip z0 k p) ∨ Lost p)

theorem ident_gt (c : Cfg) (i : ℕ) : coast < ident c i := by
  unfold ident coast
  split_ifs <;> omega

theorem ident_inj (c : Cfg) {i j : ℕ} (hi : i ≤ c.n + 1) (hj : j ≤ c.n + 1)
    (h : ident c i = ident c j) : i = j := by
  unfold ident coast at h
  split_ifs at h <;> omega

theorem mem_reorganize (ps : List P) (p : P) : p ∈ reorganize ps ↔ p ∈ ps := by
  unfold reorganize
  simp only [List.mem_append, List.mem_filter, decide_eq_true_eq]
  constructor
  · rintro (⟨h, -⟩ | ⟨h, -⟩) <;> exact h
  · intro h
    by_cases h0 : 0 < p.state
    · exact Or.inl ⟨h, h0⟩
    · exact Or.inr ⟨h, h0⟩

theorem nextFrame_time (h : Ring c) (k : ℕ) (p : P) (hs : p.s = c.C) :
    (-(p.zeta - c.C * (1 - ratio c)) + (k + 1) * c.C * c.rel) / c.beta0 = time c k p := by
  rw [time_eq h, ratio_eq h, hs]; congr 1; ring

theorem windowEnd_stop (h : Ring c) (k : ℕ) : windowEnd c k (c.n + 1) = windowEnd c (k + 1) 0 := by
  rw [windowEnd, windowEnd, h.start, h.stop]; push_cast; congr 1; ring

theorem windowStart_stop (h : Ring c) (k : ℕ) : windowStart c k (c.n + 1) = windowEnd c k 0 := by
  rw [windowEnd, windowStart, h.start, h.stop]; congr 1; ring

theorem stop_time (h : Ring c) (k : ℕ) (p q : P) (hs : q.s = p.s) (hz : q.zeta = p.zeta + ratio c * c.C) :
    time c (k + 1) q = time c k p := by
  rw [time_eq h, time_eq h, hs, hz, ratio_eq h]; push_cast; congr 1; ring

theorem log_append (z0 : ℕ → ℝ) {p : P} {s : Seen} (hl : Log c slip z0 p)
    (h1 : s.place = p.seen.length % (c.n + 2)) (h2 : s.time = free c slip p.pid (z0 p.pid) p.seen.length)
    (h3 : windowStart c s.frame s.place ≤ s.time) (h4 : s.time ≤ windowEnd c s.frame s.place)
    {q : P} (hq : q.seen = p.seen ++ [s]) (hp : q.pid = p.pid) : Log c slip z0 q := by
  intro j e he
  rw [hq] at he
  rw [hp]
  by_cases hj : j < p.seen.length
  · rw [List.getElem?_append_left hj] at he
    exact hl j e he
  · rw [List.getElem?_append_right (by omega)] at he
    have hj' : j = p.seen.length := by
      by_contra hne
      rw [List.getElem?_eq_none (by simp; omega)] at he
      cases he
    subst hj'
    simp only [Nat.sub_self, List.getElem?_cons_zero, Option.some.injEq] at he
    subst he
    exact ⟨h1, h2, h3, h4⟩

theorem log_same (z0 : ℕ → ℝ) {p q : P} (hl : Log c slip z0 p) (hq : q.seen = p.seen)
    (hp : q.pid = p.pid) : Log c slip z0 q := by
  intro j e he
  rw [hq] at he; rw [hp]
  exact hl j e he

theorem park_id (h : Ring c) (z0 : ℕ → ℝ) {k : ℕ} (hk : 0 < k) {p : P} (hr : Ready c slip z0 k 0 p) :
    park c p = p := by
  unfold park
  rw [if_neg]
  rintro ⟨h1, h2⟩
  obtain ⟨-, -, h3 | h3 | h3 | h3⟩ := hr
  · obtain ⟨-, -, hs, ht, -, h4⟩ := h3
    rw [late_iff h k 0 p hs, ht] at h2
    exact absurd (h4 rfl hk).2 (not_le.mpr h2)
  · obtain ⟨j, -, h4, -⟩ := h3
    have := ident_gt c j
    unfold coast at this
    omega
  · exact absurd h3.1 (lt_irrefl 0)
  · have := h3.2; omega

/-- What a `SyncTime` does to a particle. -/
noncomputable def after (c : Cfg) (i k : ℕ) (p : P) : P :=
  let q := stop c i k (resume c i p)
  if i = c.n + 1 then unpark (nextFrame c q) else q

theorem unpark_ready (q : P) (h : q.state ≠ -coast) : unpark q = q := by
  unfold unpark; rw [if_neg h]

/-- The per-particle step: resume, check, stop, and the change of the frame at the end. -/
theorem after_done (h : Ring c) (z0 : ℕ → ℝ) {k i : ℕ} (hi : i ≤ c.n + 1) {p : P}
    (hr : Ready c slip z0 k i p) (hf : ¬ TooFast c (resume c i p)) : Done c slip z0 k i (after c i k p) := by
  have key : ∀ p : P, Log c slip z0 p → (k = 0 → p.turn = 0) → 0 < p.state →
      p.seen.length % (c.n + 2) = i → p.s = c.pos i →
      time c k p = free c slip p.pid (z0 p.pid) p.seen.length → ¬ TooFast c p →
      Done c slip z0 k i (if i = c.n + 1 then unpark (nextFrame c (stop c i k p)) else stop c i k p) := by
    intro p hl ht0 hst hn hs ht hf
    have hmod : c.n + 2 ≠ 0 := by omega
    by_cases hlate : p.zeta < zmin c p
    · -- stopped
      have e : stop c i k p = ⟨p.pid, -ident c i, p.zeta + ratio c * c.C, p.s, p.turn, p.seen⟩ := by
        simp only [stop, if_pos hst, if_pos hlate]
      have hneg : ¬ 0 < -ident c i := by have := ident_gt c i; unfold coast at this; omega
      have e2 : (if i = c.n + 1 then unpark (nextFrame c (stop c i k p)) else stop c i k p)
          = ⟨p.pid, -ident c i, p.zeta + ratio c * c.C, p.s, p.turn, p.seen⟩ := by
        rw [e]
        split_ifs with h1
        · simp only [nextFrame, if_neg hneg]
          rw [unpark_ready]
          show -ident c i ≠ -coast
          have := ident_gt c i
          omega
        · rfl
      rw [e2]
      refine ⟨log_same z0 hl rfl rfl, ht0, Or.inr (Or.inr (Or.inl ⟨i, hi, rfl, hn, hs, Or.inl ⟨by omega, ?_, ?_⟩⟩))⟩
      · rw [← ht]; exact stop_time h k p _ rfl rfl
      · rw [late_iff h k i p hs, ht] at hlate; exact hlate
    · -- seen
      have e : stop c i k p = ⟨p.pid, p.state, p.zeta, p.s, p.turn, p.seen ++ [⟨k, i, time c k p⟩]⟩ := by
        simp only [stop, if_pos hst, if_neg hlate]
      have hw1 : windowStart c k i ≤ time c k p := by
        by_contra hh
        push Not at hh
        exact hf ⟨hst, (fast_iff h k i p hs).mpr hh⟩
      have hw2 : time c k p ≤ windowEnd c k i := by
        rw [late_iff h k i p hs] at hlate; exact not_lt.mp hlate
      have hlog : ∀ q : P, q.seen = p.seen ++ [⟨k, i, time c k p⟩] → q.pid = p.pid → Log c slip z0 q :=
        fun q h1 h2 => log_append z0 hl hn.symm ht hw1 hw2 h1 h2
      by_cases hlast : i = c.n + 1
      · rw [if_pos hlast, e]
        have e2 : unpark (nextFrame c ⟨p.pid, p.state, p.zeta, p.s, p.turn, p.seen ++ [⟨k, i, time c k p⟩]⟩)
            = ⟨p.pid, p.state, p.zeta - c.C * (1 - ratio c), p.s, p.turn, p.seen ++ [⟨k, i, time c k p⟩]⟩ := by
          simp only [nextFrame, if_pos hst]
          rw [unpark_ready]
          show p.state ≠ -coast
          unfold coast; omega
        rw [e2]
        have hfree : free c slip p.pid (z0 p.pid) (p.seen.length + 1) = free c slip p.pid (z0 p.pid) p.seen.length := by
          simp only [free]; rw [if_pos (by rw [hn, hlast])]
        refine ⟨hlog _ rfl rfl, ht0, Or.inr (Or.inl ⟨hst, hlast, ?_, ?_, ?_, ?_⟩)⟩
        · simp only [List.length_append, List.length_singleton]
          rw [Nat.add_mod, hn, hlast]
          have : 1 % (c.n + 2) = 1 := Nat.mod_eq_of_lt (by omega)
          rw [this]; simp
        · simp only [List.length_append, List.length_singleton]
          rw [hfree, ← ht]
          exact nextFrame_time h k p (by rw [hs, hlast, h.stop])
        · simp only [List.length_append, List.length_singleton]
          rw [hfree, ← ht, ← windowStart_stop h]
          rw [← hlast]; exact hw1
        · simp only [List.length_append, List.length_singleton]
          rw [hfree, ← ht, ← windowEnd_stop h]
          rw [← hlast]; exact hw2
      · rw [if_neg hlast, e]
        refine ⟨hlog _ rfl rfl, ht0, Or.inl ⟨hst, by omega, ?_, hs, by simp, ?_⟩⟩
        · simp only [List.length_append, List.length_singleton]
          rw [Nat.add_mod, hn, Nat.mod_eq_of_lt (a := 1) (by omega), Nat.mod_eq_of_lt (by omega)]
        · simp only [List.length_append, List.length_singleton, Nat.add_sub_cancel]
          rw [← ht]; rfl
  obtain ⟨hl, ht0, h3 | h3 | h3 | h3⟩ := hr
  · obtain ⟨hst, hn, hs, ht, -, -⟩ := h3
    have e : resume c i p = p := by
      unfold resume; rw [if_neg]
      have := ident_gt c i; unfold coast at this; omega
    rw [e] at hf
    simp only [after, e]
    exact key p hl ht0 hst hn hs ht hf
  · obtain ⟨j, hj, hst, hn, hs, h4⟩ := h3
    by_cases hij : j = i
    · subst hij
      have e : resume c j p = ⟨p.pid, 1, p.zeta, p.s, p.turn, p.seen⟩ := by
        unfold resume; rw [if_pos hst]
      rw [e] at hf
      simp only [after, e]
      rcases h4 with ⟨h5, -⟩ | ⟨-, -, h5, -⟩
      · exact absurd h5 (lt_irrefl _)
      · exact key _ (log_same z0 hl rfl rfl) ht0 one_pos hn hs h5 hf
    · have e : resume c i p = p := by
        unfold resume; rw [if_neg]
        rw [hst]; intro h5
        exact hij (ident_inj c hj hi (by omega))
      have hneg : ¬ 0 < p.state := by rw [hst]; have := ident_gt c j; unfold coast at this; omega
      have e2 : after c i k p = p := by
        simp only [after, e, stop, if_neg hneg, nextFrame]
        rw [unpark_ready, ite_self]
        rw [hst]; have := ident_gt c j; omega
      rw [e2]
      refine ⟨hl, ht0, Or.inr (Or.inr (Or.inl ⟨j, hj, hst, hn, hs, ?_⟩))⟩
      rcases h4 with ⟨h5, h6⟩ | ⟨h5, h6⟩
      · exact Or.inl ⟨by omega, h6⟩
      · exact Or.inr ⟨by omega, h6⟩
  · obtain ⟨hi0, hk, hst, hse, hs, ht, hw1, hw2⟩ := h3
    have e : resume c i p = p := by
      unfold resume; rw [if_neg]
      rw [hst]; have := ident_gt c i; omega
    have hneg : ¬ 0 < p.state := by rw [hst]; unfold coast; omega
    have e2 : stop c i k p = p := by simp only [stop, if_neg hneg]
    simp only [after, e, e2, nextFrame, if_neg hneg]
    by_cases hlast : i = c.n + 1
    · rw [if_pos hlast]
      have e3 : unpark p = ⟨p.pid, 1, p.zeta, p.s, p.turn, p.seen⟩ := by
        unfold unpark; rw [if_pos hst]
      rw [e3]
      refine ⟨log_same z0 hl rfl rfl, ht0, Or.inr (Or.inl ⟨one_pos, hlast, ?_, ?_, ?_, ?_⟩)⟩
      · simp [hse]
      · simp only [hse, List.length_nil]
        rw [← ht, time_eq h, hs, hk]; push_cast; congr 1; ring
      · simp only [hse, List.length_nil]; rw [hk]; exact hw1.le
      · simp only [hse, List.length_nil]; rw [hk]; exact hw2
    · rw [if_neg hlast]
      exact ⟨hl, ht0, Or.inr (Or.inr (Or.inr (Or.inl ⟨by omega, hk, hst, hse, hs, ht, hw1, hw2⟩)))⟩
  · obtain ⟨h4, h5⟩ := h3
    have e : resume c i p = p := by
      unfold resume; rw [if_neg]
      have := ident_gt c i; omega
    have hneg : ¬ 0 < p.state := by omega
    have e2 : after c i k p = p := by
      simp only [after, e, stop, if_neg hneg, nextFrame]
      rw [unpark_ready, ite_self]
      omega
    rw [e2]
    exact ⟨hl, ht0, Or.inr (Or.inr (Or.inr (Or.inr ⟨h4, h5⟩)))⟩

/-- Parked particles: what parking does, and that the rest of the `SyncTime` at the start leaves them. -/
theorem park_parked (h : Ring c) (z0 : ℕ → ℝ) {p : P} (hr : Ready c slip z0 0 0 p)
    (hl : 0 < p.state ∧ p.zeta < zmin c p) :
    Parked c slip z0 0 (park c p) ∧ Log c slip z0 (park c p) ∧ (park c p).turn = 0 := by
  have e : park c p = ⟨p.pid, -coast, p.zeta + c.C * c.beta0 / beta1 c, p.s, p.turn, p.seen⟩ := by
    unfold park; rw [if_pos hl]
  rw [e]
  obtain ⟨hlog, ht0, h3 | h3 | h3 | h3⟩ := hr
  · obtain ⟨hst, hn, hs, ht, h4, -⟩ := h3
    obtain ⟨hnil, h5⟩ := h4 rfl rfl
    have hw := (late_iff h 0 0 p hs).mp hl.2
    rw [hnil] at ht
    refine ⟨⟨rfl, rfl, hnil, by rw [← h.start]; exact hs, ?_, ?_, h5⟩, log_same z0 hlog rfl rfl, ht0 rfl⟩
    · rw [← List.length_nil (α := Seen), ← ht]
      exact stop_time h 0 p ⟨p.pid, -coast, p.zeta + c.C * c.beta0 / beta1 c, p.s, p.turn, p.seen⟩ rfl
        (by simp only [ratio]; ring)
    · rw [ht] at hw; exact hw
  · obtain ⟨j, -, h4, -⟩ := h3
    have := ident_gt c j
    unfold coast at this
    omega
  · exact absurd h3.1 (lt_irrefl 0)
  · have := h3.2; omega

theorem after_parked (z0 : ℕ → ℝ) {q : P} (hq : Parked c slip z0 0 q) (hl : Log c slip z0 q)
    (ht : q.turn = 0) : Done c slip z0 0 0 (stop c 0 0 (resume c 0 q)) := by
  have hst := hq.2.1
  have e : resume c 0 q = q := by
    unfold resume; rw [if_neg]
    rw [hst]; have := ident_gt c 0; omega
  have hneg : ¬ 0 < q.state := by rw [hst]; unfold coast; omega
  have e2 : stop c 0 0 q = q := by simp only [stop, if_neg hneg]
  rw [e, e2]
  exact ⟨hl, fun _ => ht, Or.inr (Or.inr (Or.inr (Or.inl ⟨Nat.zero_le _, hq⟩)))⟩

theorem after_unfold (c : Cfg) (i k : ℕ) (p : P) (h : i ≠ c.n + 1) :
    after c i k p = stop c i k (resume c i p) := by simp only [after, if_neg h]

theorem turn_resume (i : ℕ) (p : P) : (resume c i p).turn = p.turn := by
  unfold resume; split_ifs <;> rfl

theorem turn_stop (i k : ℕ) (p : P) : (stop c i k p).turn = p.turn := by
  unfold stop; split_ifs <;> rfl

theorem turn_nextFrame (p : P) : (nextFrame c p).turn = p.turn := by
  unfold nextFrame; split_ifs <;> rfl

theorem state_stop (i k : ℕ) (p : P) (h : (nextFrame c (stop c i k (resume c i p))).state = -coast) :
    p.state = -coast := by
  have h1 : ∀ q : P, (nextFrame c q).state = q.state := by
    intro q; unfold nextFrame; split_ifs <;> rfl
  rw [h1] at h
  have h2 : ∀ q : P, (stop c i k q).state = -coast → q.state = -coast := by
    intro q hq
    unfold stop at hq
    split_ifs at hq with h3 h4
    · have := ident_gt c i
      simp only at hq; omega
    · exact hq
    · exact hq
  have h3 := h2 _ h
  unfold resume at h3
  split_ifs at h3 with h4
  · simp only at h3; unfold coast at h3; omega
  · exact h3

/-- **Step of the induction.**  `SyncTime` at place `i` of frame `k`, for all particles. -/
theorem sync_done (h : Ring c) (z0 : ℕ → ℝ) {k i : ℕ} (hi : i ≤ c.n + 1) {ps qs : List P}
    (hr : ∀ p ∈ ps, Ready c slip z0 k i p) (hs : sync c i k ps = some qs) :
    ∀ q ∈ qs, Done c slip z0 k i q := by
  classical
  unfold sync at hs
  simp only at hs
  by_cases hlast : i = c.n + 1
  · -- end of the line
    have h0 : ¬ (i = 0 ∧ firstTurn ps ∧ ¬ ∃ p ∈ ps, p.state = -coast) := by
      rintro ⟨h1, -⟩; omega
    rw [if_neg h0] at hs
    split_ifs at hs with hfast hun
    all_goals simp only [Option.some.injEq] at hs
    all_goals subst hs
    all_goals intro q hq
    · simp only [List.mem_map, mem_reorganize] at hq
      obtain ⟨_, ⟨_, ⟨_, ⟨p, hp, rfl⟩, rfl⟩, rfl⟩, rfl⟩ := hq
      have := after_done h z0 hi (hr p hp) (fun hf => hfast ⟨_, (mem_reorganize _ _).mpr
        (List.mem_map_of_mem hp), hf⟩)
      simpa only [after, if_pos hlast] using this
    · have hq0 := hq
      simp only [List.mem_map, mem_reorganize] at hq
      obtain ⟨_, ⟨_, ⟨p, hp, rfl⟩, rfl⟩, rfl⟩ := hq
      have hd := after_done h z0 hi (hr p hp) (fun hf => hfast ⟨_, (mem_reorganize _ _).mpr
        (List.mem_map_of_mem hp), hf⟩)
      simp only [after, if_pos hlast] at hd
      rw [unpark_ready] at hd
      · exact hd
      · intro hst
        have hp0 := state_stop i k p hst
        -- in the first frame everybody is in the first turn
        have hk : k = 0 := by
          obtain ⟨-, -, h3 | h3 | h3 | h3⟩ := hr p hp
          · have := h3.1; rw [hp0] at this; unfold coast at this; omega
          · obtain ⟨j, -, h4, -⟩ := h3
            have := ident_gt c j
            rw [hp0] at h4; omega
          · exact h3.2.1
          · have := h3.1; omega
        apply hun
        refine ⟨hlast, ?_⟩
        have hall : ∀ q ∈ List.map (nextFrame c) (List.map (stop c i k) (reorganize (List.map (resume c i) ps))),
            q.turn = 0 := by
          intro q hq
          simp only [List.mem_map, mem_reorganize] at hq
          obtain ⟨_, ⟨_, ⟨p, hp, rfl⟩, rfl⟩, rfl⟩ := hq
          rw [turn_nextFrame, turn_stop, turn_resume]
          exact (hr p hp).2.1 hk
        cases hl : List.map (nextFrame c) (List.map (stop c i k) (reorganize (List.map (resume c i) ps))) with
        | nil => rw [hl] at hq0; cases hq0
        | cons a l => exact ⟨a, rfl, hall a (by rw [hl]; exact List.mem_cons_self)⟩
  · -- other places
    have hu : ∀ (x : List P), ¬ (i = c.n + 1 ∧ firstTurn x) := fun x hx => hlast hx.1
    simp only [if_neg hlast] at hs
    have fin : ∀ {ps1 : List P}, (∀ p ∈ ps1, ¬ TooFast c (resume c i p) →
        Done c slip z0 k i (stop c i k (resume c i p))) →
        (if ∃ p ∈ reorganize (List.map (resume c i) ps1), TooFast c p then none else
          some (List.map (stop c i k) (reorganize (List.map (resume c i) ps1)))) = some qs →
        ∀ q ∈ qs, Done c slip z0 k i q := by
      intro ps1 h1 h2
      split_ifs at h2 with hfast
      simp only [Option.some.injEq] at h2
      subst h2
      intro q hq
      simp only [List.mem_map, mem_reorganize] at hq
      obtain ⟨_, ⟨p, hp, rfl⟩, rfl⟩ := hq
      exact h1 p hp (fun hf => hfast ⟨_, (mem_reorganize _ _).mpr (List.mem_map_of_mem hp), hf⟩)
    rw [if_neg (hu _)] at hs
    by_cases hpark : i = 0 ∧ firstTurn ps ∧ ¬ ∃ p ∈ ps, p.state = -coast
    · rw [if_pos hpark] at hs
      obtain ⟨rfl, -, -⟩ := hpark
      refine fin ?_ hs
      intro q hq hf
      obtain ⟨p, hp, rfl⟩ := List.mem_map.mp hq
      have base : park c p = p → Done c slip z0 k 0 (stop c 0 k (resume c 0 (park c p))) := by
        intro e
        rw [e] at hf ⊢
        rw [← after_unfold c 0 k p hlast]
        exact after_done h z0 hi (hr p hp) hf
      rcases Nat.eq_zero_or_pos k with rfl | hk
      · by_cases hl : 0 < p.state ∧ p.zeta < zmin c p
        · obtain ⟨h1, h2, h3⟩ := park_parked h z0 (hr p hp) hl
          exact after_parked z0 h1 h2 h3
        · exact base (by unfold park; rw [if_neg hl])
      · exact base (park_id h z0 hk (hr p hp))
    · rw [if_neg hpark] at hs
      refine fin ?_ hs
      intro p hp hf
      rw [← after_unfold c i k p hlast]
      exact after_done h z0 hi (hr p hp) hf

/-- Tracking to the next place. -/
theorem move_ready (h : Ring c) (z0 : ℕ → ℝ) {k i : ℕ} (hi : i ≤ c.n) {p : P}
    (hd : Done c slip z0 k i p) : Ready c slip z0 k (i + 1) (move c slip i p) := by
  obtain ⟨hl, ht0, h3 | h3 | h3 | h3 | h3⟩ := hd
  · obtain ⟨hst, -, hn, hs, hpos, ht⟩ := h3
    unfold move
    rw [if_pos hst]
    cases hsl : slip p.pid (p.seen.length - 1) with
    | none => exact ⟨log_same z0 hl rfl rfl, ht0, Or.inr (Or.inr (Or.inr ⟨by unfold coast; simp, le_rfl⟩))⟩
    | some d =>
      refine ⟨log_same z0 hl rfl rfl, ht0, Or.inl ⟨hst, hn, rfl, ?_, by intro h; omega, by intro h; omega⟩⟩
      obtain ⟨N, hN⟩ : ∃ N, p.seen.length = N + 1 := ⟨p.seen.length - 1, by omega⟩
      rw [hN] at hn ht hsl
      simp only [Nat.add_sub_cancel] at ht hsl
      have hmod : N % (c.n + 2) = i := by
        have h1 : (N + 1) % (c.n + 2) = i + 1 := hn
        have h2 : N % (c.n + 2) < c.n + 2 := Nat.mod_lt _ (by omega)
        rw [Nat.add_mod, Nat.mod_eq_of_lt (a := 1) (by omega)] at h1
        rcases Nat.lt_or_ge (N % (c.n + 2) + 1) (c.n + 2) with h3 | h3
        · rw [Nat.mod_eq_of_lt h3] at h1; omega
        · have h4 : N % (c.n + 2) + 1 = c.n + 2 := by omega
          rw [h4, Nat.mod_self] at h1; omega
      show time c k ⟨p.pid, p.state, p.zeta + d, c.pos (i + 1), p.turn, p.seen⟩
        = free c slip p.pid (z0 p.pid) p.seen.length
      rw [hN]
      simp only [free]
      rw [if_neg (by omega), hmod, ← ht, hsl, time_eq h, time_eq h, hs]
      simp only [Option.getD_some]
      ring
  · omega
  · have hneg : ¬ 0 < p.state := by
      obtain ⟨j, -, h4, -⟩ := h3
      have := ident_gt c j; unfold coast at this; omega
    unfold move; rw [if_neg hneg]
    exact ⟨hl, ht0, Or.inr (Or.inl h3)⟩
  · have hneg : ¬ 0 < p.state := by rw [h3.2.2.1]; unfold coast; omega
    unfold move; rw [if_neg hneg]
    exact ⟨hl, ht0, Or.inr (Or.inr (Or.inl ⟨by omega, h3.2⟩))⟩
  · have hneg : ¬ 0 < p.state := by have := h3.2; omega
    unfold move; rw [if_neg hneg]
    exact ⟨hl, ht0, Or.inr (Or.inr (Or.inr h3))⟩

/-- The end of a frame. -/
theorem endTurn_ready (h : Ring c) (z0 : ℕ → ℝ) {k : ℕ} {p : P}
    (hd : Done c slip z0 k (c.n + 1) p) : Ready c slip z0 (k + 1) 0 (endTurn p) := by
  obtain ⟨hl, ht0, h3 | h3 | h3 | h3 | h3⟩ := hd
  · omega
  · obtain ⟨hst, -, hn, ht, h4, h5⟩ := h3
    unfold endTurn
    rw [if_pos hst]
    refine ⟨log_same z0 hl rfl rfl, by intro h; omega, Or.inl ⟨hst, hn, h.start.symm, ?_, by intro _ h; omega, ?_⟩⟩
    · rw [← ht, time_eq h]; push_cast; congr 1; ring
    · intro _ _; exact ⟨h4, h5⟩
  · obtain ⟨j, hj, h4, hn, hs, h5⟩ := h3
    have hneg : ¬ 0 < p.state := by
      have := ident_gt c j; unfold coast at this; omega
    unfold endTurn; rw [if_neg hneg]
    refine ⟨hl, by intro h; omega, Or.inr (Or.inl ⟨j, hj, h4, hn, hs, Or.inr ⟨Nat.zero_le _, by omega, ?_⟩⟩)⟩
    rcases h5 with ⟨-, h6, h7⟩ | ⟨h6, -⟩
    · exact ⟨h6, h7⟩
    · omega
  · omega
  · have hneg : ¬ 0 < p.state := by have := h3.2; omega
    unfold endTurn; rw [if_neg hneg]
    exact ⟨hl, by intro h; omega, Or.inr (Or.inr (Or.inr h3))⟩

theorem upTo_done (h : Ring c) (z0 : ℕ → ℝ) {k : ℕ} {ps : List P}
    (hr : ∀ p ∈ ps, Ready c slip z0 k 0 p) : ∀ {i : ℕ}, i ≤ c.n + 1 → ∀ {qs : List P},
    upTo c slip k ps i = some qs → ∀ q ∈ qs, Done c slip z0 k i q
  | 0, hi, qs, hs => sync_done h z0 hi hr hs
  | i + 1, hi, qs, hs => by
    simp only [upTo, Option.bind_eq_some_iff] at hs
    obtain ⟨rs, h1, h2⟩ := hs
    have ih := upTo_done h z0 hr (i := i) (by omega) h1
    refine sync_done h z0 hi ?_ h2
    intro p hp
    obtain ⟨r, hr', rfl⟩ := List.mem_map.mp hp
    exact move_ready h z0 (by omega) (ih r hr')

theorem run_ready (h : Ring c) (z0 : ℕ → ℝ) {ps : List P} (hr : ∀ p ∈ ps, Ready c slip z0 0 0 p) :
    ∀ {K : ℕ} {qs : List P}, run c slip ps K = some qs → ∀ q ∈ qs, Ready c slip z0 K 0 q
  | 0, qs, hs => by
    simp only [run, Option.some.injEq] at hs
    subst hs; exact hr
  | K + 1, qs, hs => by
    simp only [run, Option.bind_eq_some_iff] at hs
    obtain ⟨rs, h1, h2⟩ := hs
    have ih := run_ready h z0 hr h1
    simp only [frame, Option.map_eq_some_iff] at h2
    obtain ⟨us, h3, rfl⟩ := h2
    intro q hq
    obtain ⟨u, hu, rfl⟩ := List.mem_map.mp hq
    exact endTurn_ready h z0 (upTo_done h z0 ih le_rfl h3 u hu)

theorem fresh_ready (h : Ring c) (z0 : ℕ → ℝ) {p : P} (hf : Fresh c p) (hz : z0 p.pid = p.zeta) :
    Ready c slip z0 0 0 p := by
  obtain ⟨ht, hs, hseen, hst, hlate⟩ := hf
  refine ⟨?_, fun _ => ht, ?_⟩
  · intro j e he
    rw [hseen] at he; simp at he
  · rcases hst with hst | hst
    · refine Or.inl ⟨hst, by simp [hseen], by rw [hs, h.start], ?_, ?_, by intro _ h; omega⟩
      · rw [time_eq h, hs, hseen, List.length_nil]
        simp only [free]; rw [hz]; push_cast; congr 1; ring
      · intro _ _
        refine ⟨hseen, ?_⟩
        simp only [free]
        rw [windowEnd_eq h, hz, h.start]
        apply (div_le_div_iff_of_pos_right h.beta0).mpr
        push_cast; linarith
    · exact Or.inr (Or.inr (Or.inr hst))

/-- **C105 (partial).**  Coasting beam: after any number of turns of the tracking without exception, what the
collective elements have seen of each particle is the beginning of its free motion, passage by passage
with the times of the free motion; every passage was seen in the frame whose time window contains it;
and for a particle which is not lost the next passage is not before the end of the windows so far, so
that nothing is missing.  Missing: particles which come more than a frame late at the start
(`C105_late_violated`). -/
theorem C105_passages_partial (h : Ring c) {ps : List P} (hf : ∀ p ∈ ps, Fresh c p) (z0 : ℕ → ℝ)
    (hz : ∀ p ∈ ps, z0 p.pid = p.zeta) {K : ℕ} {qs : List P} (hs : run c slip ps (K + 1) = some qs) :
    ∀ q ∈ qs,
      (∀ (j : ℕ) (e : Seen), q.seen[j]? = some e → e.place = j % (c.n + 2)
        ∧ e.time = free c slip q.pid (z0 q.pid) j
        ∧ windowStart c e.frame e.place ≤ e.time ∧ e.time ≤ windowEnd c e.frame e.place)
      ∧ (Lost q ∨ windowEnd c K (q.seen.length % (c.n + 2))
          ≤ free c slip q.pid (z0 q.pid) q.seen.length) := by
  intro q hq
  obtain ⟨hl, -, h3⟩ := run_ready h z0 (fun p hp => fresh_ready h z0 (hf p hp) (hz p hp)) hs q hq
  refine ⟨hl, ?_⟩
  rcases h3 with h3 | h3 | h3 | h3
  · right
    obtain ⟨-, hn, -, -, -, h4⟩ := h3
    rw [hn]
    exact (h4 rfl (by omega)).1
  · right
    obtain ⟨j, -, -, hn, -, ⟨h4, -⟩ | ⟨-, -, -, h4⟩⟩ := h3
    · omega
    · rw [hn]; exact h4.le
  · exact absurd h3.1 (lt_irrefl 0)
  · exact Or.inl h3

/-! ### Nobody disappears, and preparing the particles -/

theorem pid_maps (k i : ℕ) (p : P) : (park c p).pid = p.pid ∧ (resume c i p).pid = p.pid ∧ (stop c i k p).pid = p.pid
    ∧ (nextFrame c p).pid = p.pid ∧ (unpark p).pid = p.pid ∧ (move c slip i p).pid = p.pid ∧ (endTurn p).pid = p.pid := by
  refine ⟨?_, ?_, ?_, ?_, ?_, ?_, ?_⟩
  · unfold park; split_ifs <;> rfl
  · unfold resume; split_ifs <;> rfl
  · unfold stop; split_ifs <;> rfl
  · unfold nextFrame; split_ifs <;> rfl
  · unfold unpark; split_ifs <;> rfl
  · unfold move; split_ifs
    · cases slip p.pid (p.seen.length - 1) <;> rfl
    · rfl
  · unfold endTurn; split_ifs <;> rfl

theorem pids_map (f : P → P) (hf : ∀ p, (f p).pid = p.pid) (ps : List P) :
    (ps.map f).map P.pid = ps.map P.pid := by
  rw [List.map_map]; exact List.map_congr_left (fun p _ => hf p)

theorem reorganize_perm (ps : List P) : (reorganize ps).Perm ps := by
  unfold reorganize
  have := List.filter_append_perm (fun p : P => decide (0 < p.state)) ps
  have e : ps.filter (fun p : P => decide (¬ 0 < p.state)) = ps.filter (fun p : P => !decide (0 < p.state)) := by
    apply List.filter_congr; intro p _; exact decide_not
  rw [e]; exact this

theorem sync_pids {i k : ℕ} {ps qs : List P} (hs : sync c i k ps = some qs) :
    (qs.map P.pid).Perm (ps.map P.pid) := by
  classical
  unfold sync at hs
  simp only at hs
  set ps1 := if i = 0 ∧ firstTurn ps ∧ ¬ ∃ p ∈ ps, p.state = -coast then ps.map (park c) else ps with h1
  have e1 : ps1.map P.pid = ps.map P.pid := by
    rw [h1]; split_ifs
    · exact pids_map _ (fun p => (pid_maps (slip := fun _ _ => none) 0 0 p).1) ps
    · rfl
  split_ifs at hs
  all_goals simp only [Option.some.injEq] at hs
  all_goals subst hs
  all_goals simp only [pids_map _ (fun p => (pid_maps (c := c) (slip := fun _ _ => none) 0 0 p).2.2.2.2.1),
    pids_map _ (fun p => (pid_maps (c := c) (slip := fun _ _ => none) 0 0 p).2.2.2.1),
    pids_map _ (fun p => (pid_maps (c := c) (slip := fun _ _ => none) k i p).2.2.1)]
  all_goals
    refine ((reorganize_perm _).map P.pid).trans ?_
    rw [pids_map _ (fun p => (pid_maps (c := c) (slip := fun _ _ => none) 0 i p).2.1), e1]

theorem upTo_pids {k : ℕ} {ps : List P} : ∀ {i : ℕ} {qs : List P}, upTo c slip k ps i = some qs →
    (qs.map P.pid).Perm (ps.map P.pid)
  | 0, _, hs => sync_pids hs
  | i + 1, qs, hs => by
    simp only [upTo, Option.bind_eq_some_iff] at hs
    obtain ⟨rs, h1, h2⟩ := hs
    have h3 := sync_pids h2
    rw [pids_map _ (fun p => (pid_maps (c := c) (slip := slip) 0 i p).2.2.2.2.2.1)] at h3
    exact h3.trans (upTo_pids h1)

/-- **C105.**  The particles after any number of turns are the ones from the start. -/
theorem C105_particles {ps : List P} : ∀ {K : ℕ} {qs : List P}, run c slip ps K = some qs →
    (qs.map P.pid).Perm (ps.map P.pid)
  | 0, qs, hs => by
    simp only [run, Option.some.injEq] at hs
    rw [hs]
  | K + 1, qs, hs => by
    simp only [run, Option.bind_eq_some_iff] at hs
    obtain ⟨rs, h1, h2⟩ := hs
    simp only [frame, Option.map_eq_some_iff] at h2
    obtain ⟨us, h3, rfl⟩ := h2
    rw [pids_map _ (fun p => (pid_maps (c := c) (slip := slip) 0 0 p).2.2.2.2.2.2)]
    exact (upTo_pids h3).trans (C105_particles h1)

theorem park_state (p : P) : (park c p).state = -coast ∨ park c p = p := by
  unfold park; split_ifs
  · exact Or.inl rfl
  · exact Or.inr rfl

/-- **C105.**  Preparing the particles by hand (`prepare_particles_for_sync_time`) makes no difference. -/
theorem C105_prepare {ps : List P} (hf : ∀ p ∈ ps, Fresh c p) (K : ℕ) :
    run c slip (ps.map (park c)) (K + 1) = run c slip ps (K + 1) := by
  classical
  have key : ∀ k, sync c 0 k (ps.map (park c)) = sync c 0 k ps := by
    intro k
    have hno : ¬ ∃ p ∈ ps, p.state = -coast := by
      rintro ⟨p, hp, h1⟩
      obtain ⟨-, -, -, h2 | h2, -⟩ := hf p hp
      · rw [h1] at h2; unfold coast at h2; omega
      · have := h2.1; omega
    have hturn : ∀ p : P, (park c p).turn = p.turn := by
      intro p; unfold park; split_ifs <;> rfl
    by_cases hc : ∃ p ∈ ps.map (park c), p.state = -coast
    · have hne : firstTurn ps := by
        cases ps with
        | nil => simp at hc
        | cons a l => exact ⟨a, rfl, (hf a List.mem_cons_self).1⟩
      have n1 : ¬ (0 = 0 ∧ firstTurn (ps.map (park c)) ∧ ¬ ∃ p ∈ ps.map (park c), p.state = -coast) :=
        fun h3 => h3.2.2 hc
      have n2 : 0 = 0 ∧ firstTurn ps ∧ ¬ ∃ p ∈ ps, p.state = -coast := ⟨rfl, hne, hno⟩
      unfold sync
      rw [if_neg n1, if_pos n2]
    · have : ps.map (park c) = ps := by
        conv_rhs => rw [← List.map_id ps]
        apply List.map_congr_left
        intro p hp
        rcases park_state (c := c) p with h1 | h1
        · exact absurd ⟨_, List.mem_map_of_mem hp, h1⟩ hc
        · exact h1
      rw [this]
  have hup : ∀ i, upTo c slip 0 (ps.map (park c)) i = upTo c slip 0 ps i := by
    intro i
    induction i with
    | zero => exact key 0
    | succ i ih => rw [upTo, upTo, ih]
  induction K with
  | zero => simp only [run, Option.bind_some, frame, hup]
  | succ K ih =>
    show (run c slip (ps.map (park c)) (K + 1)).bind _ = (run c slip ps (K + 1)).bind _
    rw [ih]

/-- The windows of the frames follow each other without gaps or overlaps. -/
theorem C105_windows (c : Cfg) (k i : ℕ) : windowEnd c k i = windowStart c (k + 1) i := by
  rw [windowEnd, windowStart]; push_cast; congr 1; ring

end Verif.Sync
