import Verif.Particles.Lemmas
/-! Tracking keeps the layout of the `Particles` object (no property statements here). -/
namespace Verif.Particles
open Verif.Loss
variable {α : Type}

/-- The first `m` slots are allocated, the others are not, and the active ones are among the first. -/
structure AllocInv (m : Nat) (p : Parts α) : Prop where
  le : p.nActive ≤ m
  len : m ≤ p.slots.length
  yes : ∀ k < m, ∀ s, p.slots[k]? = some s → allocated s = true
  no : ∀ k, m ≤ k → ∀ s, p.slots[k]? = some s → allocated s = false

theorem take_perm_of_frame {β : Type} {l l' : List β} {n : Nat} (hp : l'.Perm l)
    (hf : ∀ k, n ≤ k → l'[k]? = l[k]?) : (l'.take n).Perm (l.take n) := by
  have hd : l'.drop n = l.drop n := by
    apply List.ext_getElem?
    intro i
    simp only [List.getElem?_drop]
    exact hf _ (by omega)
  have h1 := List.take_append_drop n l
  have h2 := List.take_append_drop n l'
  rw [hd] at h2
  rw [← h1, ← h2, List.perm_append_right_iff] at hp
  exact hp

theorem AllocInv.check {m : Nat} {p : Parts α} (h : AllocInv m p) : AllocInv m (checkIsActive p) := by
  have hs := checkIsActive_spec p (le_trans h.le h.len)
  have htp := take_perm_of_frame hs.perm hs.frame
  refine ⟨le_trans hs.le h.le, by rw [hs.len]; exact h.len, ?_, ?_⟩
  · intro k hk s hks
    by_cases hkn : k < p.nActive
    · have hm : s ∈ (checkIsActive p).slots.take p.nActive := by
        rw [List.mem_iff_getElem?]
        exact ⟨k, by rw [List.getElem?_take_of_lt hkn]; exact hks⟩
      have hm' := htp.mem_iff.mp hm
      rw [List.mem_iff_getElem?] at hm'
      obtain ⟨j, hj⟩ := hm'
      rw [List.getElem?_take] at hj
      split at hj
      · exact h.yes j (by have := h.le; omega) s hj
      · simp at hj
    · rw [hs.frame k (by omega)] at hks
      exact h.yes k hk s hks
  · intro k hk s hks
    have hle := h.le
    rw [hs.frame k (by omega)] at hks
    exact h.no k hk s hks

theorem perParticle_get (f : Slot α → Slot α) (p : Parts α) (hn : p.nActive ≤ p.slots.length) (k : Nat) :
    (perParticle f p).slots[k]? = if k < p.nActive then p.slots[k]?.map f else p.slots[k]? := by
  unfold perParticle
  simp only
  rw [List.getElem?_append]
  simp only [List.length_map, List.length_take, Nat.min_eq_left hn]
  split
  · rename_i h
    rw [List.getElem?_map, List.getElem?_take_of_lt h]
  · rename_i h
    rw [List.getElem?_drop, show p.nActive + (k - p.nActive) = k by omega]

theorem AllocInv.per {m : Nat} {p : Parts α} (f : Slot α → Slot α) (h : AllocInv m p)
    (hf : ∀ s, allocated s = true → allocated (f s) = true) : AllocInv m (perParticle f p) := by
  have hg := perParticle_get f p (le_trans h.le h.len)
  refine ⟨h.le, by rw [perParticle_length]; exact h.len, ?_, ?_⟩
  · intro k hk s hks
    rw [hg] at hks
    split at hks
    · rw [Option.map_eq_some_iff] at hks
      obtain ⟨t, ht, rfl⟩ := hks
      exact hf t (h.yes k hk t ht)
    · exact h.yes k hk s hks
  · intro k hk s hks
    have := h.le
    rw [hg, if_neg (by omega)] at hks
    exact h.no k hk s hks

theorem AllocInv.elems {m : Nat} (es : List (Elem α)) (hs : Sane es) {p : Parts α} (h : AllocInv m p) :
    AllocInv m (elemLoop es p).1 := by
  induction es generalizing p with
  | nil => exact h
  | cons e es ih =>
    have h1 : AllocInv m (checkIsActive (perParticle (applyElem e) p)) :=
      (h.per (applyElem e) (fun s _ => by
        have := hs e List.mem_cons_self s
        exact decide_eq_true this)).check
    simp only [elemLoop]
    split
    · exact ih (fun e' he' => hs e' (List.mem_cons_of_mem _ he'))
        (h1.per incAtElement (fun s hs' => hs'))
    · exact h1

theorem AllocInv.turns {m : Nat} (els : List (Elem α)) (endTurn : Bool) (hs : Sane els) (n : Nat)
    {p : Parts α} (act : Bool) (h : AllocInv m p) : AllocInv m (turnLoop els endTurn n p act) := by
  induction n generalizing p act with
  | zero => exact h
  | succ n ih =>
    cases act with
    | false => simpa [turnLoop] using h
    | true =>
      have h1 := h.elems els hs
      simp only [turnLoop, if_true]
      generalize elemLoop els p = r at h1
      obtain ⟨q, b⟩ := r
      cases b with
      | true =>
        simp only at h1 ⊢
        apply ih
        split
        · exact h1.per incAtTurn (fun s hs' => hs')
        · exact h1
      | false => exact ih false h1

theorem AllocInv.track {m : Nat} (els : List (Elem α)) (endTurn : Bool) (hs : Sane els) (n : Nat)
    {p : Parts α} (h : AllocInv m p) : AllocInv m (trackLine els endTurn n p) :=
  h.check.turns els endTurn hs n _

/-- Arrays in order alive, lost, unallocated, and the counters are the true counts. -/
def Organized (p : Parts α) : Prop :=
  ∃ A L U, p.slots = A ++ L ++ U ∧ (∀ s ∈ A, alive s = true) ∧ (∀ s ∈ L, lost s = true) ∧
    (∀ s ∈ U, allocated s = false) ∧ p.nActive = A.length ∧ p.nLost = L.length

theorem Organized.allocInv {p : Parts α} (h : Organized p) : AllocInv (p.nActive + p.nLost) p := by
  obtain ⟨A, L, U, e, hA, hL, hU, h1, h2⟩ := h
  refine ⟨by omega, by rw [e, h1, h2]; simp, ?_, ?_⟩
  · intro k hk s hs
    rw [e, List.getElem?_append_left (by rw [List.length_append]; omega)] at hs
    rcases List.mem_append.mp (List.mem_of_getElem? hs) with h | h
    · rw [alloc_iff, hA s h]; rfl
    · rw [alloc_iff, hL s h]; simp
  · intro k hk s hs
    rw [e, List.getElem?_append_right (by rw [List.length_append]; omega)] at hs
    exact hU s (List.mem_of_getElem? hs)

theorem organized_of_inv {p : Parts α} (h : AllocInv (p.nActive + p.nLost) p)
    (ha : ∀ s ∈ p.slots.take p.nActive, 0 < s.state)
    (hd : ∀ s ∈ p.slots.drop p.nActive, ¬ 0 < s.state) : Organized p := by
  refine ⟨p.slots.take p.nActive, (p.slots.drop p.nActive).take p.nLost,
    (p.slots.drop p.nActive).drop p.nLost, ?_, ?_, ?_, ?_, ?_, ?_⟩
  · rw [List.append_assoc, List.take_append_drop, List.take_append_drop]
  · intro s hs; simpa [alive] using ha s hs
  · intro s hs
    have h1 := hd s (List.mem_of_mem_take hs)
    rw [List.mem_iff_getElem?] at hs
    obtain ⟨k, hk⟩ := hs
    rw [List.getElem?_take] at hk
    split at hk
    · rename_i hlt
      rw [List.getElem?_drop] at hk
      have := h.yes _ (by omega) s hk
      rw [alloc_iff] at this
      have h2 : alive s = false := by simpa [alive] using h1
      rw [h2] at this
      simpa using this
    · simp at hk
  · intro s hs
    rw [List.drop_drop, List.mem_iff_getElem?] at hs
    obtain ⟨k, hk⟩ := hs
    rw [List.getElem?_drop] at hk
    exact h.no _ (by omega) s hk
  · have := h.len; rw [List.length_take]; omega
  · have := h.len; rw [List.length_take, List.length_drop]; omega

theorem Organized.track {p : Parts α} (h : Organized p) (els : List (Elem α)) (endTurn : Bool)
    (hs : Sane els) (n : Nat) : Organized (trackLine els endTurn n p) := by
  have hinv := h.allocInv
  have hA := h
  obtain ⟨A, L, U, e, hA, hL, hU, h1, h2⟩ := hA
  have hle : p.nActive ≤ p.slots.length := le_trans hinv.le hinv.len
  have hdead : ∀ s ∈ p.slots.drop p.nActive, ¬ Spec.Alive s := by
    rw [e, h1, List.append_assoc, List.drop_left' rfl]
    intro s hs
    have : alive s = false := by
      rcases List.mem_append.mp hs with h | h
      · exact lost_not_alive s (hL s h)
      · exact (unalloc_not s (hU s h)).1
    simpa [alive, Spec.Alive] using this
  obtain ⟨-, c2, c3, -, c5⟩ := C01_serial_tracking_refines_single_particle els endTurn n p hle hdead
  refine organized_of_inv ?_ c2 c3
  rw [c5]
  exact hinv.track els endTurn hs n

end Verif.Particles
