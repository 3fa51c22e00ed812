import Verif.MultiSetter.Model
import Mathlib.Data.List.Basic

/-!
# C28: MultiSetter
-/

namespace Verif.MultiSetter

/-- The byte at address `a` belongs to the field. -/
def Field.covers (f : Field) (a : Int) : Prop := (f.address : Int) ≤ a ∧ a < f.address + f.type.width

/-- Two fields have no byte in common. -/
def Field.disjoint (f g : Field) : Prop := ∀ a, ¬ (f.covers a ∧ g.covers a)

/-- Value of a field, read directly. -/
def Field.read (f : Field) (w : Nat) (b : Buf) : Value w := fun j => b (f.address + j.val)

theorem load_store_same (w : Nat) (b : Buf) (off : Int) (v : Value w) : load w (store w b off v) off = v := by
  funext j
  unfold load store
  have h : 0 ≤ off + (j.val : Int) - off ∧ (off + (j.val : Int) - off).toNat < w := by
    have := j.isLt
    omega
  rw [dif_pos h]
  congr 1
  apply Fin.ext
  show (off + (j.val : Int) - off).toNat = j.val
  omega

theorem store_outside (w : Nat) (b : Buf) (off : Int) (v : Value w) (a : Int) (h : ¬ (off ≤ a ∧ a < off + w)) :
    store w b off v a = b a := by
  unfold store
  rw [dif_neg]
  intro hh
  omega

/-- Fields selected by a setter, at their position; `none` for skipped elements. -/
def picked (dtype : Ty) (elements : List (Option Field)) (i : Nat) : Option Field :=
  match elements[i]? with
  | some (some f) => if f.type = dtype then some f else none
  | _ => none

theorem new_spec (dtype : Ty) (skip : Bool) (elements : List (Option Field)) (s : Setter)
    (h : Setter.new dtype skip elements = some s) :
    s.dtype = dtype ∧ s.offsets.length = elements.length ∧
      ∀ i, i < elements.length → s.offsets[i]? = some (match picked dtype elements i with
        | some f => (f.address : Int)
        | none => -1) := by
  unfold Setter.new at h
  split at h
  · rename_i he
    subst he
    cases h
    exact ⟨rfl, rfl, fun i hi => absurd hi (by simp)⟩
  · split at h
    · exact absurd h (by simp)
    · obtain ⟨o, ho, rfl⟩ := Option.map_eq_some_iff.mp h
      refine ⟨rfl, ?_⟩
      clear h
      simp only
      rename_i h1 h2
      clear h1 h2
      induction elements generalizing o with
      | nil =>
        simp at ho
        subst ho
        exact ⟨rfl, fun i hi => absurd hi (by simp)⟩
      | cons e es ih =>
        rw [List.mapM_cons] at ho
        cases hx : extractOffset dtype skip e with
        | none => rw [hx] at ho; exact absurd ho (by simp)
        | some x =>
          rw [hx] at ho
          cases hy : es.mapM (extractOffset dtype skip) with
          | none => rw [hy] at ho; exact absurd ho (by simp)
          | some y =>
            rw [hy] at ho
            have : o = x :: y := (Option.some.inj ho).symm
            subst this
            obtain ⟨i1, i2⟩ := ih y hy
            refine ⟨by simp [i1], ?_⟩
            intro i hi
            cases i with
            | zero =>
              simp only [List.getElem?_cons_zero]
              unfold picked
              simp only [List.getElem?_cons_zero]
              unfold extractOffset at hx
              cases e with
              | none => exact absurd hx (by simp)
              | some f =>
                simp only at hx ⊢
                by_cases ht : f.type = dtype
                · rw [if_neg (by simpa using ht)] at hx
                  rw [if_pos ht]
                  exact hx.symm
                · rw [if_pos ht] at hx
                  rw [if_neg ht]
                  cases skip with
                  | true => exact hx.symm
                  | false => exact absurd hx (by simp)
            | succ i =>
              rw [List.getElem?_cons_succ, i2 i (by simpa using hi)]
              rfl

/-- The elements whose field has the requested type occupy disjoint places: distinct elements. -/
def Distinct (dtype : Ty) (elements : List (Option Field)) : Prop :=
  ∀ i j f g, i ≠ j → picked dtype elements i = some f → picked dtype elements j = some g → f.disjoint g

theorem setOne_spec {dtype : Ty} {skip : Bool} {elements : List (Option Field)} {s : Setter}
    (h : Setter.new dtype skip elements = some s) (input : List (Value s.dtype.width)) (b : Buf) (ii : Nat) (f : Field)
    (hp : picked dtype elements ii = some f) (hi : ii < elements.length) (v : Value s.dtype.width) (hv : input[ii]? = some v) :
    s.setOne input b ii = store _ b f.address v := by
  obtain ⟨h1, h2, h3⟩ := new_spec dtype skip elements s h
  unfold Setter.setOne
  rw [h3 ii hi, hp, hv]
  simp only
  rw [if_pos (by omega)]

theorem setOne_skip {dtype : Ty} {skip : Bool} {elements : List (Option Field)} {s : Setter}
    (h : Setter.new dtype skip elements = some s) (input : List (Value s.dtype.width)) (b : Buf) (ii : Nat)
    (hp : picked dtype elements ii = none) : s.setOne input b ii = b := by
  obtain ⟨h1, h2, h3⟩ := new_spec dtype skip elements s h
  unfold Setter.setOne
  by_cases hi : ii < elements.length
  · rw [h3 ii hi, hp]
    simp only
    cases input[ii]? with
    | none => rfl
    | some v =>
      simp only
      rw [if_neg (by omega)]
  · rw [List.getElem?_eq_none (by omega)]

theorem picked_width {dtype : Ty} {elements : List (Option Field)} {i : Nat} {f : Field}
    (h : picked dtype elements i = some f) : f.type = dtype ∧ i < elements.length := by
  unfold picked at h
  split at h
  · rename_i g hg
    split at h
    · cases h
      rename_i ht
      refine ⟨ht, ?_⟩
      by_contra hc
      rw [List.getElem?_eq_none (by omega)] at hg
      exact absurd hg (by simp)
    · exact absurd h (by simp)
  · exact absurd h (by simp)

/-- Bytes that belong to none of the selected fields keep their content (any order of the threads, repeated elements
allowed). -/
theorem setValues_outside {dtype : Ty} {skip : Bool} {elements : List (Option Field)} {s : Setter}
    (h : Setter.new dtype skip elements = some s) (order : List Nat) (input : List (Value s.dtype.width)) (b : Buf) (a : Int)
    (ha : ∀ i ∈ order, ∀ f, picked dtype elements i = some f → ¬ f.covers a) : s.setValues order input b a = b a := by
  have h1 := (new_spec dtype skip elements s h).1
  unfold Setter.setValues
  induction order generalizing b with
  | nil => rfl
  | cons ii order ih =>
    rw [List.foldl_cons, ih _ (fun i hi => ha i (List.mem_cons_of_mem _ hi))]
    cases hp : picked dtype elements ii with
    | none => rw [setOne_skip h input b ii hp]
    | some f =>
      obtain ⟨ht, hi⟩ := picked_width hp
      cases hv : input[ii]? with
      | none =>
        unfold Setter.setOne
        rw [hv]
        cases s.offsets[ii]? <;> rfl
      | some v =>
        rw [setOne_spec h input b ii f hp hi v hv]
        apply store_outside
        intro hc
        apply ha ii List.mem_cons_self f hp
        unfold Field.covers
        rw [ht, ← h1]
        exact hc

/-- **C28.**  For every selection of distinct elements, every order in which the threads run and all values:
a byte outside the selected fields does not change; the selected fields hold the given values afterwards and
`get_values` returns them (zero for the skipped elements). -/
theorem C28_set_get (dtype : Ty) (skip : Bool) (elements : List (Option Field)) (s : Setter)
    (h : Setter.new dtype skip elements = some s) (hd : Distinct dtype elements)
    (input : List (Value s.dtype.width)) (hlen : input.length = elements.length)
    (order : List Nat) (ho : order.Nodup) (hmem : ∀ i, i ∈ order ↔ i < elements.length) (b : Buf) :
    (∀ a, (∀ i f, picked dtype elements i = some f → ¬ f.covers a) → s.setValues order input b a = b a) ∧
    (∀ i f, picked dtype elements i = some f → some (f.read _ (s.setValues order input b)) = input[i]?) ∧
    (∀ i, i < elements.length → (s.getValues (s.setValues order input b))[i]? =
      if (picked dtype elements i).isSome then input[i]? else some (fun _ => 0)) := by
  have main : ∀ i f, picked dtype elements i = some f → some (f.read _ (s.setValues order input b)) = input[i]? := by
    intro i f hp
    obtain ⟨ht, hi⟩ := picked_width hp
    have h1 := (new_spec dtype skip elements s h).1
    obtain ⟨v, hv⟩ : ∃ v, input[i]? = some v := ⟨input[i]'(by omega), List.getElem?_eq_getElem (by omega)⟩
    rw [hv]
    congr 1
    obtain ⟨l1, l2, hl⟩ := List.append_of_mem ((hmem i).mpr hi)
    have hnot : i ∉ l2 := by
      rw [hl] at ho
      have := (List.nodup_append.mp ho).2.1
      exact (List.nodup_cons.mp this).1
    have e : s.setValues order input b = s.setValues l2 input (store _ (s.setValues l1 input b) f.address v) := by
      unfold Setter.setValues
      rw [hl, List.foldl_append, List.foldl_cons, setOne_spec h input _ i f hp hi v hv]
    rw [e]
    funext j
    unfold Field.read
    rw [setValues_outside h l2 input _ _]
    · exact congrFun (load_store_same _ _ _ v) j
    · intro k hk g hg hc
      refine hd i k f g ?_ hp hg _ ⟨?_, hc⟩
      · intro hik; exact hnot (hik ▸ hk)
      · unfold Field.covers
        rw [ht, ← h1]
        have := j.isLt
        omega
  refine ⟨fun a ha => setValues_outside h order input b a (fun i _ f hf => ha i f hf), main, ?_⟩
  intro i hi
  obtain ⟨h1, h2, h3⟩ := new_spec dtype skip elements s h
  unfold Setter.getValues
  rw [List.getElem?_map, h3 i hi]
  cases hp : picked dtype elements i with
  | none =>
    simp only [Option.map_some, Option.isSome_none, Bool.false_eq_true, if_false, Setter.getOne]
    simp
  | some f =>
    simp only [Option.map_some, Option.isSome_some, if_true]
    rw [← main i f hp]
    congr 1

/-- **C28, construction.**  It raises exactly when an element lacks the field, or when one has a field of another type
and skipping was not requested (or the type asked for is not supported). -/
theorem C28_new_raises_iff (dtype : Ty) (skip : Bool) (elements : List (Option Field)) :
    Setter.new dtype skip elements = none ↔ elements ≠ [] ∧
      (dtype = .other ∨ none ∈ elements ∨ (skip = false ∧ ∃ f, some f ∈ elements ∧ f.type ≠ dtype)) := by
  unfold Setter.new
  by_cases he : elements = []
  · rw [if_pos he]
    simp [he]
  · rw [if_neg he]
    by_cases ho : dtype = .other
    · rw [if_pos ho]
      simp [he, ho]
    · rw [if_neg ho, Option.map_eq_none_iff]
      have key : ∀ l : List (Option Field), l.mapM (extractOffset dtype skip) = none ↔
          (none ∈ l ∨ (skip = false ∧ ∃ f, some f ∈ l ∧ f.type ≠ dtype)) := by
        intro l
        induction l with
        | nil => simp
        | cons e l ih =>
          rw [List.mapM_cons]
          cases e with
          | none => simp [extractOffset]
          | some f =>
            by_cases ht : f.type = dtype
            · have : extractOffset dtype skip (some f) = some (f.address : Int) := by
                unfold extractOffset
                simp [ht]
              rw [this]
              constructor
              · intro hx
                have hn : l.mapM (extractOffset dtype skip) = none := by
                  cases hy : l.mapM (extractOffset dtype skip) with
                  | none => rfl
                  | some y => rw [hy] at hx; exact absurd hx (by simp)
                rcases ih.mp hn with hx | ⟨h1, g, h2, h3⟩
                · exact Or.inl (List.mem_cons_of_mem _ hx)
                · exact Or.inr ⟨h1, g, List.mem_cons_of_mem _ h2, h3⟩
              · intro hx
                have hn : l.mapM (extractOffset dtype skip) = none := by
                  apply ih.mpr
                  rcases hx with hx | ⟨h1, g, h2, h3⟩
                  · rcases List.mem_cons.mp hx with hx | hx
                    · exact absurd hx (by simp)
                    · exact Or.inl hx
                  · rcases List.mem_cons.mp h2 with h2 | h2
                    · cases h2; exact absurd ht h3
                    · exact Or.inr ⟨h1, g, h2, h3⟩
                rw [hn]
                rfl
            · cases skip with
              | false =>
                have : extractOffset dtype false (some f) = none := by
                  unfold extractOffset
                  simp [ht]
                rw [this]
                constructor
                · intro _
                  exact Or.inr ⟨rfl, f, List.mem_cons_self, ht⟩
                · intro _; rfl
              | true =>
                have : extractOffset dtype true (some f) = some (-1) := by
                  unfold extractOffset
                  simp [ht]
                rw [this]
                constructor
                · intro hx
                  have hn : l.mapM (extractOffset dtype true) = none := by
                    cases hy : l.mapM (extractOffset dtype true) with
                    | none => rfl
                    | some y => rw [hy] at hx; exact absurd hx (by simp)
                  rcases ih.mp hn with hx | ⟨h1, _⟩
                  · exact Or.inl (List.mem_cons_of_mem _ hx)
                  · exact absurd h1 (by simp)
                · intro hx
                  have hn : l.mapM (extractOffset dtype true) = none := by
                    apply ih.mpr
                    rcases hx with hx | ⟨h1, _⟩
                    · rcases List.mem_cons.mp hx with hx | hx
                      · exact absurd hx (by simp)
                      · exact Or.inl hx
                    · exact absurd h1 (by simp)
                  rw [hn]
                  rfl
      rw [key]
      simp [he, ho]

/-- **C28, repeated elements.**  If elements are repeated and the values are written one after the other, an element holds
the last of its values. -/
theorem C28_repeated_last_wins (dtype : Ty) (skip : Bool) (elements : List (Option Field)) (s : Setter)
    (h : Setter.new dtype skip elements = some s)
    (hd : ∀ i j f g, picked dtype elements i = some f → picked dtype elements j = some g → f = g ∨ f.disjoint g)
    (input : List (Value s.dtype.width)) (hlen : input.length = elements.length) (b : Buf)
    (i : Nat) (f : Field) (hp : picked dtype elements i = some f)
    (hlast : ∀ j, i < j → picked dtype elements j ≠ some f) :
    some (f.read _ (s.setValues (List.range elements.length) input b)) = input[i]? := by
  obtain ⟨ht, hi⟩ := picked_width hp
  have h1 := (new_spec dtype skip elements s h).1
  obtain ⟨v, hv⟩ : ∃ v, input[i]? = some v := ⟨input[i]'(by omega), List.getElem?_eq_getElem (by omega)⟩
  rw [hv]
  congr 1
  obtain ⟨m, hm⟩ : ∃ m, elements.length = i + 1 + m := ⟨elements.length - (i + 1), by omega⟩
  have hl : List.range elements.length = List.range i ++ i :: (List.range m).map (fun k => i + 1 + k) := by
    rw [hm, List.range_add, List.range_succ]
    simp
  have e : s.setValues (List.range elements.length) input b =
      s.setValues ((List.range m).map (fun k => i + 1 + k)) input (store _ (s.setValues (List.range i) input b) f.address v) := by
    unfold Setter.setValues
    rw [hl, List.foldl_append, List.foldl_cons, setOne_spec h input _ i f hp hi v hv]
  rw [e]
  funext j
  unfold Field.read
  rw [setValues_outside h _ input _ _]
  · exact congrFun (load_store_same _ _ _ v) j
  · intro k hk g hg hc
    obtain ⟨k', _, rfl⟩ := List.mem_map.mp hk
    rcases hd i _ f g hp hg with hfg | hfg
    · subst hfg
      exact hlast _ (by omega) hg
    · refine hfg _ ⟨?_, hc⟩
      unfold Field.covers
      rw [ht, ← h1]
      have := j.isLt
      omega

/-- Three elements, the second one with an integer field that is skipped. -/
example : Setter.new .float64 true [some ⟨0, .float64⟩, some ⟨8, .int32⟩, some ⟨16, .float64⟩] = some ⟨.float64, [0, -1, 16]⟩ ∧
    Distinct .float64 [some ⟨0, .float64⟩, some ⟨8, .int32⟩, some ⟨16, .float64⟩] := by
  constructor
  · rfl
  · have hcase : ∀ (i : Nat) (f : Field),
        picked .float64 [some ⟨0, .float64⟩, some ⟨8, .int32⟩, some ⟨16, .float64⟩] i = some f →
          (i = 0 ∧ f = ⟨0, .float64⟩) ∨ (i = 2 ∧ f = ⟨16, .float64⟩) := by
      intro i f hf
      have hi := (picked_width hf).2
      have : i = 0 ∨ i = 1 ∨ i = 2 := by
        simp only [List.length_cons, List.length_nil] at hi
        omega
      rcases this with rfl | rfl | rfl
      · exact Or.inl ⟨rfl, (Option.some.inj hf).symm⟩
      · simp [picked] at hf
      · exact Or.inr ⟨rfl, (Option.some.inj hf).symm⟩
    intro i j f g hij hf hg a
    rintro ⟨c1, c2⟩
    unfold Field.covers Ty.width at c1 c2
    rcases hcase i f hf with ⟨rfl, rfl⟩ | ⟨rfl, rfl⟩ <;> rcases hcase j g hg with ⟨rfl, rfl⟩ | ⟨rfl, rfl⟩
    · exact hij rfl
    · simp only at c1 c2; omega
    · simp only at c1 c2; omega
    · exact hij rfl

end Verif.MultiSetter
