import Verif.Loss.Model
import Mathlib.Data.List.Basic
import Mathlib.Tactic.Common
import Mathlib.Tactic.Linarith
/-! Auxiliary facts about the loss bookkeeping (no property statements here). -/
namespace Verif.Loss
variable {α : Type}

theorem exchange_length {β : Type} (l : List β) (i j : Nat) : (exchange l i j).length = l.length := by
  unfold exchange
  split <;> simp

theorem exchange_perm {β : Type} (l : List β) (i j : Nat) : (exchange l i j).Perm l := by
  unfold exchange
  split
  · rename_i a b ha hb
    rw [List.getElem?_eq_some_iff] at ha hb
    obtain ⟨hi, rfl⟩ := ha
    obtain ⟨hj, rfl⟩ := hb
    exact List.set_set_perm hi hj
  · exact List.Perm.refl _

/-- Pointwise description of `exchange`. -/
theorem exchange_getElem? {β : Type} (l : List β) (i j k : Nat) (hi : i < l.length)
    (hj : j < l.length) :
    (exchange l i j)[k]? = if k = j then l[i]? else if k = i then l[j]? else l[k]? := by
  unfold exchange
  simp only [List.getElem?_eq_getElem hi, List.getElem?_eq_getElem hj]
  rw [List.getElem?_set, List.getElem?_set]
  simp only [List.length_set]
  by_cases h1 : k = j
  · subst h1; simp [hj]
  · by_cases h2 : k = i
    · subst h2; simp [h1, hi, Ne.symm h1]
    · simp [h1, h2, Ne.symm h1, Ne.symm h2]

/-- What the serial loop does, by position. -/
structure LoopSpec (slots : List (Slot α)) (n m : Nat) (q : Parts α) : Prop where
  perm : q.slots.Perm slots
  len : q.slots.length = slots.length
  le : q.nActive ≤ n
  sum : q.nActive + q.nLost = n + m
  alive : ∀ k < q.nActive, ∀ s, q.slots[k]? = some s → 0 < s.state
  dead : ∀ k, q.nActive ≤ k → k < n → ∀ s, q.slots[k]? = some s → s.state ≤ 0
  frame : ∀ k, n ≤ k → q.slots[k]? = slots[k]?

theorem checkLoop_spec (slots : List (Slot α)) (i n m : Nat) (hn : n ≤ slots.length) (hi : i ≤ n)
    (hal : ∀ k < i, ∀ s, slots[k]? = some s → 0 < s.state) :
    LoopSpec slots n m (checkLoop slots i n m) := by
  induction hd : n - i using Nat.strong_induction_on generalizing slots i n m with
  | _ d ih =>
    unfold checkLoop
    split
    · rename_i h
      have hlen : i < slots.length := by omega
      rw [List.getElem?_eq_getElem hlen]
      simp only
      split
      · rename_i hs
        have hj : n - 1 < slots.length := by omega
        have := ih (n - 1 - i) (by omega) (exchange slots i (n-1)) i (n-1) (m+1)
          (by rw [exchange_length]; omega) (by omega)
          (by
            intro k hk s hks
            rw [exchange_getElem? _ _ _ _ hlen hj] at hks
            rw [if_neg (by omega), if_neg (by omega)] at hks
            exact hal k hk s hks) rfl
        refine ⟨this.perm.trans (exchange_perm _ _ _), by rw [this.len, exchange_length],
          by have := this.le; omega, by have := this.sum; omega, this.alive, ?_, ?_⟩
        · intro k hk hkn s hks
          by_cases hkn' : k < n - 1
          · exact this.dead k hk hkn' s hks
          · have hk' : k = n - 1 := by omega
            rw [this.frame k (by omega), exchange_getElem? _ _ _ _ hlen hj, if_pos hk',
              List.getElem?_eq_getElem hlen] at hks
            cases hks
            omega
        · intro k hk
          rw [this.frame k (by omega), exchange_getElem? _ _ _ _ hlen hj, if_neg (by omega),
            if_neg (by omega)]
      · rename_i hs
        have := ih (n - (i+1)) (by omega) slots (i+1) n m hn (by omega)
          (by
            intro k hk s hks
            by_cases hki : k < i
            · exact hal k hki s hks
            · have : k = i := by omega
              subst this
              rw [List.getElem?_eq_getElem hlen] at hks
              cases hks
              omega) rfl
        exact this
    · rename_i h
      have : i = n := by omega
      subst this
      exact ⟨List.Perm.refl _, rfl, le_refl _, rfl, hal, fun k h1 h2 => by simp at h1; omega,
        fun _ _ => rfl⟩

theorem checkIsActive_spec (p : Parts α) (hn : p.nActive ≤ p.slots.length) :
    LoopSpec p.slots p.nActive p.nLost (checkIsActive p) :=
  checkLoop_spec _ _ _ _ hn (Nat.zero_le _) (by intro k hk; omega)

/-- Alive particles are exactly the first `nActive` slots. -/
structure Layout (p : Parts α) : Prop where
  le : p.nActive ≤ p.slots.length
  alive : ∀ k < p.nActive, ∀ s, p.slots[k]? = some s → 0 < s.state
  dead : ∀ k, p.nActive ≤ k → ∀ s, p.slots[k]? = some s → s.state ≤ 0

theorem checkIsActive_layout (p : Parts α) (hn : p.nActive ≤ p.slots.length)
    (hd : ∀ k, p.nActive ≤ k → ∀ s, p.slots[k]? = some s → s.state ≤ 0) :
    Layout (checkIsActive p) := by
  have h := checkIsActive_spec p hn
  refine ⟨by rw [h.len]; exact h.le.trans hn, h.alive, ?_⟩
  intro k hk s hs
  by_cases hkn : k < p.nActive
  · exact h.dead k hk hkn s hs
  · rw [h.frame k (by omega)] at hs
    exact hd k (by omega) s hs

/-- Apply `f` to the alive particles only. -/
def onAlive (f : Slot α → Slot α) (s : Slot α) : Slot α := if 0 < s.state then f s else s

theorem perParticle_eq (f : Slot α → Slot α) (p : Parts α) (h : Layout p) :
    (perParticle f p).slots = p.slots.map (onAlive f) := by
  unfold perParticle
  simp only
  conv_rhs => rw [← List.take_append_drop p.nActive p.slots, List.map_append]
  congr 1
  · apply List.map_congr_left
    intro s hs
    rw [List.mem_take_iff_getElem] at hs
    obtain ⟨k, hk, rfl⟩ := hs
    have := h.alive k (by omega) p.slots[k] (List.getElem?_eq_getElem _)
    simp [onAlive, this]
  · rw [List.map_congr_left (g := id)]
    · simp
    · intro s hs
      rw [List.mem_drop_iff_getElem] at hs
      obtain ⟨k, hk, rfl⟩ := hs
      have := h.dead (p.nActive + k) (by omega) p.slots[p.nActive + k] (List.getElem?_eq_getElem _)
      simp [onAlive]; omega

theorem perParticle_nActive (f : Slot α → Slot α) (p : Parts α) :
    (perParticle f p).nActive = p.nActive := rfl

theorem perParticle_length (f : Slot α → Slot α) (p : Parts α) :
    (perParticle f p).slots.length = p.slots.length := by
  simp [perParticle]; omega

theorem perParticle_dead (f : Slot α → Slot α) (p : Parts α)  (h : Layout p) :
    ∀ k, p.nActive ≤ k → ∀ s, (perParticle f p).slots[k]? = some s → s.state ≤ 0 := by
  intro k hk s hs
  rw [perParticle_eq f p h, List.getElem?_map] at hs
  cases hq : p.slots[k]? with
  | none => rw [hq] at hs; simp at hs
  | some t =>
    rw [hq] at hs
    have := h.dead k hk t hq
    simp [onAlive] at hs
    rw [if_neg (by omega)] at hs
    subst hs; exact this

/-- A per-particle update that keeps particles alive keeps the layout. -/
theorem perParticle_layout (f : Slot α → Slot α) (p : Parts α) (h : Layout p)
    (hf : ∀ s, 0 < s.state → 0 < (f s).state) : Layout (perParticle f p) := by
  refine ⟨by rw [perParticle_length]; exact h.le, ?_, perParticle_dead f p h⟩
  intro k hk s hs
  rw [perParticle_eq f p h, List.getElem?_map] at hs
  cases hq : p.slots[k]? with
  | none => rw [hq] at hs; simp at hs
  | some t =>
    rw [hq] at hs
    have := h.alive k hk t hq
    simp [onAlive, this] at hs
    subst hs; exact hf _ this

/-- One element and the following check. -/
theorem step_spec (e : Slot α → Slot α) (p : Parts α) (h : Layout p) :
    Layout (checkIsActive (perParticle e p)) ∧
    (checkIsActive (perParticle e p)).slots.Perm (p.slots.map (onAlive e)) ∧
    (checkIsActive (perParticle e p)).nActive + (checkIsActive (perParticle e p)).nLost
      = p.nActive + p.nLost ∧
    (checkIsActive (perParticle e p)).nActive ≤ p.nActive := by
  have hle : (perParticle e p).nActive ≤ (perParticle e p).slots.length := by
    rw [perParticle_length]; exact h.le
  refine ⟨checkIsActive_layout _ hle (perParticle_dead e p h), ?_, ?_, ?_⟩
  · rw [← perParticle_eq e p h]
    exact (checkIsActive_spec _ hle).perm
  · exact (checkIsActive_spec _ hle).sum
  · exact (checkIsActive_spec _ hle).le

theorem Layout.count {p : Parts α} (h : Layout p) :
    p.slots.countP (fun s => decide (0 < s.state)) = p.nActive := by
  rw [← List.take_append_drop p.nActive p.slots, List.countP_append]
  have h1 : (p.slots.take p.nActive).countP (fun s => decide (0 < s.state))
      = (p.slots.take p.nActive).length := by
    rw [List.countP_eq_length]
    intro s hs
    rw [List.mem_take_iff_getElem] at hs
    obtain ⟨k, hk, rfl⟩ := hs
    simpa using h.alive k (by omega) p.slots[k] (List.getElem?_eq_getElem _)
  have h2 : (p.slots.drop p.nActive).countP (fun s => decide (0 < s.state)) = 0 := by
    rw [List.countP_eq_zero]
    intro s hs
    rw [List.mem_drop_iff_getElem] at hs
    obtain ⟨k, hk, rfl⟩ := hs
    simpa using h.dead (p.nActive + k) (by omega) p.slots[p.nActive + k] (List.getElem?_eq_getElem _)
  rw [h1, h2, List.length_take]
  have := h.le
  omega

theorem Layout.all_dead {p : Parts α} (h : Layout p) (h0 : p.nActive = 0) :
    ∀ s ∈ p.slots, s.state ≤ 0 := by
  intro s hs
  obtain ⟨k, hk, rfl⟩ := List.mem_iff_getElem.mp hs
  exact h.dead k (by omega) _ (List.getElem?_eq_getElem hk)

theorem map_onAlive_dead (f : Slot α → Slot α) (l : List (Slot α)) (h : ∀ s ∈ l, s.state ≤ 0) :
    l.map (onAlive f) = l := by
  rw [List.map_congr_left (g := id)]
  · simp
  · intro s hs
    have := h s hs
    simp [onAlive]; omega

end Verif.Loss
