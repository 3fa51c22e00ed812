import Mathlib.Data.List.Nodup
import Mathlib.Data.List.Perm.Subperm
import Mathlib.Data.List.Range

/-!
# Names built from numbers, and the search for a free name

Several places of xtrack look for a name that is not in use by counting up:
`while (nn := f'{name}..{idx}') in element_dict: idx += 1`.
-/

namespace Verif.Names

theorem repr_injective : Function.Injective Nat.repr := by
  intro a b h
  have h' : Nat.toDigits 10 a = Nat.toDigits 10 b := by
    rw [← Nat.toList_repr, ← Nat.toList_repr, h]
  have := congrArg (fun l => Nat.ofDigitChars 10 l 0) h'
  simpa [Nat.ofDigitChars_toDigits] using this

theorem append_left_cancel (s a b : String) (h : s ++ a = s ++ b) : a = b := by
  have := congrArg String.toList h
  rw [String.toList_append, String.toList_append] at this
  exact String.toList_inj.mp (List.append_cancel_left this)

/-- Names with different numbers are different. -/
theorem numbered_injective (s : String) : Function.Injective (fun i : Nat => s ++ i.repr) := by
  intro a b h
  exact repr_injective (append_left_cancel s _ _ h)

/-- `while fmt(idx) in used: idx += 1`, started at `idx`; `fuel` bounds the number of steps. -/
def searchFree (fmt : Nat → String) (used : List String) : Nat → Nat → Option Nat
  | 0, _ => none
  | fuel + 1, idx => if fmt idx ∈ used then searchFree fmt used fuel (idx + 1) else some idx

/-- The loop with as many steps as there are names in use, plus one: it always ends (`searchFree_isSome`). -/
def firstFree (fmt : Nat → String) (used : List String) (idx : Nat) : Nat :=
  (searchFree fmt used (used.length + 1) idx).getD idx

theorem searchFree_spec (fmt : Nat → String) (used : List String) (fuel idx k : Nat)
    (h : searchFree fmt used fuel idx = some k) :
    idx ≤ k ∧ fmt k ∉ used ∧ ∀ j, idx ≤ j → j < k → fmt j ∈ used := by
  induction fuel generalizing idx with
  | zero => exact absurd h (by simp [searchFree])
  | succ fuel ih =>
    rw [searchFree] at h
    split at h
    · rename_i hin
      obtain ⟨h1, h2, h3⟩ := ih (idx + 1) h
      refine ⟨by omega, h2, ?_⟩
      intro j hj hjk
      rcases Nat.lt_or_ge idx j with hlt | hge
      · exact h3 j (by omega) hjk
      · have : j = idx := by omega
        exact this ▸ hin
    · rename_i hin
      cases h
      exact ⟨Nat.le_refl _, hin, fun j h1 h2 => absurd h1 (by omega)⟩

theorem searchFree_none (fmt : Nat → String) (used : List String) (fuel idx : Nat)
    (h : searchFree fmt used fuel idx = none) : ∀ j, idx ≤ j → j < idx + fuel → fmt j ∈ used := by
  induction fuel generalizing idx with
  | zero => intro j h1 h2; omega
  | succ fuel ih =>
    rw [searchFree] at h
    split at h
    · rename_i hin
      intro j hj hjk
      rcases Nat.lt_or_ge idx j with hlt | hge
      · exact ih (idx + 1) h j (by omega) (by omega)
      · have : j = idx := by omega
        exact this ▸ hin
    · exact absurd h (by simp)

/-- Among more candidates than names in use one is free, so the search always ends. -/
theorem searchFree_isSome (fmt : Nat → String) (hf : Function.Injective fmt) (used : List String) (idx : Nat) :
    ∃ k, searchFree fmt used (used.length + 1) idx = some k := by
  cases h : searchFree fmt used (used.length + 1) idx with
  | some k => exact ⟨k, rfl⟩
  | none =>
    exfalso
    have hin := searchFree_none fmt used _ idx h
    have hnd : ((List.range (used.length + 1)).map (fun j => fmt (idx + j))).Nodup := by
      apply List.Nodup.map _ List.nodup_range
      intro a b hab
      have := hf hab
      omega
    have hsub : ((List.range (used.length + 1)).map (fun j => fmt (idx + j))) ⊆ used := by
      intro x hx
      obtain ⟨j, hj, rfl⟩ := List.mem_map.mp hx
      exact hin _ (by omega) (by have := List.mem_range.mp hj; omega)
    have := (hnd.subperm hsub).length_le
    simp only [List.length_map, List.length_range] at this
    omega

/-- The name found is free, and it is the first free one. -/
theorem firstFree_spec (fmt : Nat → String) (hf : Function.Injective fmt) (used : List String) (idx : Nat) :
    idx ≤ firstFree fmt used idx ∧ fmt (firstFree fmt used idx) ∉ used ∧
      ∀ j, idx ≤ j → j < firstFree fmt used idx → fmt j ∈ used := by
  obtain ⟨k, hk⟩ := searchFree_isSome fmt hf used idx
  unfold firstFree
  rw [hk]
  exact searchFree_spec fmt used _ idx k hk

/-- A name that ends with a number does not end with the letter `c`. -/
theorem numbered_ne_suffix (s t u : String) (i : Nat) (c : Char) (hu : u.toList.getLast? = some c) (hc : c.isDigit = false) :
    s ++ i.repr ≠ t ++ u := by
  intro h
  have h1 := congrArg (fun x : String => x.toList.getLast?) h
  simp only [String.toList_append] at h1
  have hne : i.repr.toList ≠ [] := by
    rw [Nat.toList_repr]
    exact Nat.toDigits_ne_nil
  have hune : u.toList ≠ [] := by
    intro e; rw [e] at hu; exact absurd hu (by simp)
  rw [List.getLast?_append_of_ne_nil _ hne, List.getLast?_append_of_ne_nil _ hune, hu, Nat.toList_repr] at h1
  have hmem : c ∈ Nat.toDigits 10 i := List.mem_of_getLast? h1
  have := Nat.isDigit_of_mem_toDigits (by decide) (by decide) hmem
  rw [hc] at this
  exact absurd this (by simp)

end Verif.Names
