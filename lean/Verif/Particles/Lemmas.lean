import Verif.Particles.Model
import Verif.Loss.Props
/-! Auxiliary facts about the `Particles` object (no property statements here). -/
namespace Verif.Particles
open Verif.Loss
variable {α : Type}

/-- Slots ordered alive, lost, unallocated. -/
def Ordered (l : List (Slot α)) : Prop :=
  ∃ A L U, l = A ++ L ++ U ∧ (∀ s ∈ A, alive s = true) ∧ (∀ s ∈ L, lost s = true) ∧
    (∀ s ∈ U, allocated s = false)

theorem alive_not_lost (s : Slot α) (h : alive s = true) : lost s = false := by
  simp [alive, lost, lastInvalid] at *; omega

theorem lost_not_alive (s : Slot α) (h : lost s = true) : alive s = false := by
  simp [alive, lost, lastInvalid] at *; omega

theorem alloc_iff (s : Slot α) : allocated s = (alive s || lost s) := by
  simp only [allocated, alive, lost, lastInvalid]
  by_cases h1 : 0 < s.state <;> by_cases h2 : s.state < 1 <;> by_cases h3 : -999999999 < s.state <;>
    simp [h1, h2, h3] <;> omega

theorem unalloc_not (s : Slot α) (h : allocated s = false) : alive s = false ∧ lost s = false := by
  rw [alloc_iff] at h
  simpa using h

theorem filter_all {β : Type} (p : β → Bool) (l : List β) (h : ∀ x ∈ l, p x = true) : l.filter p = l :=
  List.filter_eq_self.mpr h

theorem filter_none {β : Type} (p : β → Bool) (l : List β) (h : ∀ x ∈ l, p x = false) :
    l.filter p = [] := by
  rw [List.filter_eq_nil_iff]
  intro x hx
  simp [h x hx]

theorem blank_unalloc (blank : α) : allocated (blankSlot blank) = false := by
  simp [allocated, blankSlot]

theorem Ordered.filters {A L U : List (Slot α)}
    (hA : ∀ s ∈ A, alive s = true) (hL : ∀ s ∈ L, lost s = true) (hU : ∀ s ∈ U, allocated s = false) :
    (A ++ L ++ U).filter alive = A ∧ (A ++ L ++ U).filter lost = L ∧
    (A ++ L ++ U).filter allocated = A ++ L := by
  refine ⟨?_, ?_, ?_⟩
  · rw [List.filter_append, List.filter_append, filter_all _ _ hA,
      filter_none _ L (fun s hs => lost_not_alive s (hL s hs)),
      filter_none _ U (fun s hs => (unalloc_not s (hU s hs)).1)]
    simp
  · rw [List.filter_append, List.filter_append, filter_all _ L hL,
      filter_none _ A (fun s hs => alive_not_lost s (hA s hs)),
      filter_none _ U (fun s hs => (unalloc_not s (hU s hs)).2)]
    simp
  · rw [List.filter_append, List.filter_append, filter_none _ U hU,
      filter_all _ A (fun s hs => by rw [alloc_iff, hA s hs]; rfl),
      filter_all _ L (fun s hs => by rw [alloc_iff, hL s hs]; simp)]
    simp

theorem filter_len_le (l : List (Slot α)) :
    (l.filter alive).length + (l.filter lost).length ≤ l.length := by
  induction l with
  | nil => simp
  | cons s l ih =>
    rw [List.filter_cons, List.filter_cons]
    by_cases h1 : alive s = true
    · rw [if_pos h1, if_neg (by rw [alive_not_lost s h1]; simp)]
      simp only [List.length_cons]; omega
    · rw [if_neg h1]
      by_cases h2 : lost s = true
      · rw [if_pos h2]; simp only [List.length_cons]; omega
      · rw [if_neg h2]; simp only [List.length_cons]; omega

/-- If the first `n` slots are alive, where `n` is the number of alive slots, the rest is not. -/
theorem front_alive (l : List (Slot α))
    (h : (l.take (l.filter alive).length).all alive = true) :
    l.filter alive = l.take (l.filter alive).length ∧
    ∀ s ∈ l.drop (l.filter alive).length, alive s = false := by
  have hle := List.length_filter_le alive l
  generalize hn : (l.filter alive).length = n at *
  have hs := List.take_append_drop n l
  have h1 : (l.take n).filter alive = l.take n := filter_all _ _ (List.all_eq_true.mp h)
  have h2 : l.filter alive = l.take n ++ (l.drop n).filter alive := by
    conv => lhs; rw [← hs, List.filter_append, h1]
  have h3 : (l.drop n).filter alive = [] := by
    have hl := congrArg List.length h2
    rw [hn, List.length_append, List.length_take] at hl
    have : ((l.drop n).filter alive).length = 0 := by omega
    exact List.length_eq_zero_iff.mp this
  refine ⟨by rw [h2, h3, List.append_nil], ?_⟩
  intro s hs'
  rw [List.filter_eq_nil_iff] at h3
  simpa using h3 s hs'

theorem reorg_eq (blank : α) (l : List (Slot α)) :
    reorganizeParts blank l =
      if (l.take (l.filter alive).length).all alive then
        ⟨l, (l.filter alive).length, (l.filter lost).length⟩
      else ⟨l.filter alive ++ l.filter lost ++
          List.replicate (l.length - ((l.filter alive).length + (l.filter lost).length)) (blankSlot blank),
        (l.filter alive).length, (l.filter lost).length⟩ := by
  unfold reorganizeParts
  simp only
  by_cases h : (l.take (l.filter alive).length).all alive = true
  · simp [h]
  · simp only [Bool.not_eq_true] at h; simp [h]

theorem filter_lost_all (l : List (Slot α)) : ∀ s ∈ l.filter lost, lost s = true :=
  fun _ hs => (List.mem_filter.mp hs).2

theorem filter_alive_all (l : List (Slot α)) : ∀ s ∈ l.filter alive, alive s = true :=
  fun _ hs => (List.mem_filter.mp hs).2

theorem replicate_unalloc (blank : α) (n : Nat) :
    ∀ s ∈ List.replicate n (blankSlot blank), allocated s = false := by
  intro s hs
  rw [List.eq_of_mem_replicate hs]
  exact blank_unalloc blank

theorem reorg_filters (blank : α) (l : List (Slot α)) :
    (reorganizeParts blank l).slots.filter alive = l.filter alive ∧
    (reorganizeParts blank l).slots.filter lost = l.filter lost ∧
    (reorganizeParts blank l).slots.length = l.length ∧
    (reorganizeParts blank l).nActive = (l.filter alive).length ∧
    (reorganizeParts blank l).nLost = (l.filter lost).length := by
  rw [reorg_eq]
  split
  · exact ⟨rfl, rfl, rfl, rfl, rfl⟩
  · have := Ordered.filters (filter_alive_all l) (filter_lost_all l)
      (replicate_unalloc blank (l.length - ((l.filter alive).length + (l.filter lost).length)))
    refine ⟨this.1, this.2.1, ?_, rfl, rfl⟩
    have := filter_len_le l
    simp only [List.length_append, List.length_replicate]
    omega

theorem reorg_front (blank : α) (l : List (Slot α)) :
    (∀ s ∈ (reorganizeParts blank l).slots.take (reorganizeParts blank l).nActive, alive s = true) ∧
    (∀ s ∈ (reorganizeParts blank l).slots.drop (reorganizeParts blank l).nActive, alive s = false) := by
  rw [reorg_eq]
  split
  · rename_i h
    exact ⟨fun s hs => List.all_eq_true.mp h s hs, (front_alive l h).2⟩
  · simp only [List.append_assoc, List.take_left', List.drop_left']
    refine ⟨filter_alive_all l, ?_⟩
    intro s hs
    rcases List.mem_append.mp hs with hs | hs
    · exact lost_not_alive s (filter_lost_all l s hs)
    · exact (unalloc_not s (replicate_unalloc blank _ s hs)).1

/-- Lost slots come before unallocated ones (whatever the alive ones). -/
def LostBeforeUnalloc (l : List (Slot α)) : Prop :=
  ∀ (i j : Nat) (s t : Slot α), i < j → l[i]? = some s → l[j]? = some t → allocated s = false →
    lost t = false

theorem ordered_of_dead (l : List (Slot α)) (h : LostBeforeUnalloc l)
    (hd : ∀ s ∈ l, alive s = false) :
    ∃ L U, l = L ++ U ∧ (∀ s ∈ L, lost s = true) ∧ (∀ s ∈ U, allocated s = false) := by
  induction l with
  | nil => exact ⟨[], [], rfl, by simp, by simp⟩
  | cons s l ih =>
    by_cases hs : lost s = true
    · obtain ⟨L, U, h1, h2, h3⟩ := ih (fun i j a b hij ha hb => h (i + 1) (j + 1) a b (by omega)
        (by simpa using ha) (by simpa using hb)) (fun t ht => hd t (List.mem_cons_of_mem _ ht))
      refine ⟨s :: L, U, by rw [h1]; rfl, ?_, h3⟩
      intro t ht
      rcases List.mem_cons.mp ht with rfl | ht
      · exact hs
      · exact h2 t ht
    · refine ⟨[], s :: l, rfl, by simp, ?_⟩
      have hsu : allocated s = false := by
        rw [alloc_iff, hd s List.mem_cons_self]; simpa using hs
      intro t ht
      rcases List.mem_cons.mp ht with rfl | ht'
      · exact hsu
      · obtain ⟨k, hk⟩ := List.mem_iff_getElem?.mp ht'
        have := h 0 (k + 1) s t (by omega) (by simp) (by simpa using hk) hsu
        rw [alloc_iff, hd t ht, this]; rfl

theorem reorg_ordered (blank : α) (l : List (Slot α)) (h : LostBeforeUnalloc l) :
    Ordered (reorganizeParts blank l).slots := by
  rw [reorg_eq]
  split
  · rename_i ha
    obtain ⟨h1, h2⟩ := front_alive l ha
    obtain ⟨L, U, e1, e2, e3⟩ := ordered_of_dead (l.drop (l.filter alive).length)
      (fun i j a b hij hi hj => h ((l.filter alive).length + i) ((l.filter alive).length + j) a b
        (by omega) (by rw [List.getElem?_drop] at hi; exact hi)
        (by rw [List.getElem?_drop] at hj; exact hj)) h2
    refine ⟨l.take (l.filter alive).length, L, U, ?_, List.all_eq_true.mp ha, e2, e3⟩
    simp only
    conv => lhs; rw [← List.take_append_drop (l.filter alive).length l]
    rw [List.append_assoc]
    congr 1
  · exact ⟨_, _, _, rfl, filter_alive_all l, filter_lost_all l, replicate_unalloc blank _⟩

theorem Ordered.lostBefore {l : List (Slot α)} (h : Ordered l) : LostBeforeUnalloc l := by
  obtain ⟨A, L, U, rfl, hA, hL, hU⟩ := h
  intro i j s t hij hi hj hs
  by_cases hi' : i < (A ++ L).length
  · rw [List.getElem?_append_left hi'] at hi
    have := List.mem_of_getElem? hi
    exfalso
    rcases List.mem_append.mp this with hm | hm
    · rw [alloc_iff, hA s hm] at hs; simp at hs
    · rw [alloc_iff, hL s hm] at hs; simp at hs
  · rw [List.getElem?_append_right (by omega)] at hj
    exact (unalloc_not t (hU t (List.mem_of_getElem? hj))).2

theorem reorg_of_ordered (blank : α) {A L U : List (Slot α)}
    (hA : ∀ s ∈ A, alive s = true) (hL : ∀ s ∈ L, lost s = true) (hU : ∀ s ∈ U, allocated s = false) :
    reorganizeParts blank (A ++ L ++ U) = ⟨A ++ L ++ U, A.length, L.length⟩ := by
  obtain ⟨f1, f2, -⟩ := Ordered.filters hA hL hU
  rw [reorg_eq, f1, f2, if_pos]
  rw [List.append_assoc, List.take_left']
  · rw [List.all_eq_true]; exact hA
  · rfl

theorem npMax_spec {l : List Int} {m : Int} (h : npMax l = some m) : (∀ x ∈ l, x ≤ m) ∧ m ∈ l := by
  cases l with
  | nil => simp [npMax] at h
  | cons x xs =>
    simp only [npMax, Option.some.injEq] at h
    subst h
    have : ∀ (xs : List Int) (x : Int), (∀ y ∈ x :: xs, y ≤ xs.foldl max x) ∧ xs.foldl max x ∈ x :: xs := by
      intro xs
      induction xs with
      | nil => intro x; simp
      | cons a xs ih =>
        intro x
        obtain ⟨h1, h2⟩ := ih (max x a)
        simp only [List.foldl_cons]
        have hm := h1 (max x a) List.mem_cons_self
        constructor
        · intro y hy
          rcases List.mem_cons.mp hy with rfl | hy
          · exact le_trans (le_max_left _ _) hm
          · rcases List.mem_cons.mp hy with rfl | hy
            · exact le_trans (le_max_right _ _) hm
            · exact h1 y (List.mem_cons_of_mem _ hy)
        · rcases List.mem_cons.mp h2 with h2 | h2
          · rw [h2]
            rcases max_choice x a with h | h <;> rw [h] <;> simp
          · exact List.mem_cons_of_mem _ (List.mem_cons_of_mem _ h2)
    exact this xs x

theorem npMin_spec {l : List Int} {m : Int} (h : npMin l = some m) : (∀ x ∈ l, m ≤ x) ∧ m ∈ l := by
  cases l with
  | nil => simp [npMin] at h
  | cons x xs =>
    simp only [npMin, Option.some.injEq] at h
    subst h
    have : ∀ (xs : List Int) (x : Int), (∀ y ∈ x :: xs, xs.foldl min x ≤ y) ∧ xs.foldl min x ∈ x :: xs := by
      intro xs
      induction xs with
      | nil => intro x; simp
      | cons a xs ih =>
        intro x
        obtain ⟨h1, h2⟩ := ih (min x a)
        simp only [List.foldl_cons]
        have hm := h1 (min x a) List.mem_cons_self
        constructor
        · intro y hy
          rcases List.mem_cons.mp hy with rfl | hy
          · exact le_trans hm (min_le_left _ _)
          · rcases List.mem_cons.mp hy with rfl | hy
            · exact le_trans hm (min_le_right _ _)
            · exact h1 y (List.mem_cons_of_mem _ hy)
        · rcases List.mem_cons.mp h2 with h2 | h2
          · rw [h2]
            rcases min_choice x a with h | h <;> rw [h] <;> simp
          · exact List.mem_cons_of_mem _ (List.mem_cons_of_mem _ h2)
    exact this xs x

theorem renumber_length (f : Int) (l : List (Slot α)) : (renumber f l).length = l.length := by
  induction l generalizing f with
  | nil => rfl
  | cons s l ih => simp [renumber, ih]

theorem renumber_ids (f : Int) (l : List (Slot α)) :
    ((renumber f l).map (·.id)).Nodup ∧ ∀ i ∈ (renumber f l).map (·.id), f ≤ i := by
  induction l generalizing f with
  | nil => simp [renumber]
  | cons s l ih =>
    obtain ⟨h1, h2⟩ := ih (f + 1)
    simp only [renumber, List.map_cons, List.nodup_cons]
    refine ⟨⟨?_, h1⟩, ?_⟩
    · intro hm
      have := h2 f hm
      omega
    · intro i hi
      rcases List.mem_cons.mp hi with rfl | hi
      · exact le_refl _
      · have := h2 i hi; omega

/-- Forget the id. -/
def sameButId (s : Slot α) : Slot α := { s with id := 0 }

theorem renumber_same (f : Int) (l : List (Slot α)) :
    (renumber f l).map sameButId = l.map sameButId := by
  induction l generalizing f with
  | nil => rfl
  | cons s l ih => simp [renumber, ih, sameButId]

theorem renumber_alive (f : Int) (l : List (Slot α)) (h : ∀ s ∈ l, alive s = true) :
    ∀ s ∈ renumber f l, alive s = true := by
  induction l generalizing f with
  | nil => simp [renumber]
  | cons s l ih =>
    intro t ht
    simp only [renumber] at ht
    rcases List.mem_cons.mp ht with rfl | ht
    · exact h s List.mem_cons_self
    · exact ih (f + 1) (fun x hx => h x (List.mem_cons_of_mem _ hx)) t ht

theorem assignSlice_ok {β : Type} (view : List β) (start n : Nat) (vals : List β)
    (h1 : start + n ≤ view.length) (h2 : vals.length = n) :
    assignSlice view start n vals = some (view.take start ++ vals ++ view.drop (start + n)) := by
  unfold assignSlice
  simp only [Nat.min_eq_left (show start ≤ view.length by omega), Nat.min_eq_left h1]
  split
  · rename_i v
    simp only [List.length_singleton] at h2
    subst h2
    rw [show start + 1 - start = 1 by omega]
    rfl
  · rw [if_pos (by omega)]

end Verif.Particles
