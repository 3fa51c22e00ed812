import Verif.FromSeq.Model

/-!
# C193: lines from sequences have their elements at the given positions
-/

namespace Verif.FromSeq

/-! ## Specification -/

/-- Where the elements of a line begin, from a position on. -/
def starts : Rat → List (String × Option Elem) → List (Rat × String × Option Elem)
  | _, [] => []
  | s, x :: xs => (s, x) :: starts (s + (x.2.map (·.length)).getD 0) xs

/-- The length of a line. -/
def total : List (String × Option Elem) → Rat
  | [] => 0
  | x :: xs => (x.2.map (·.length)).getD 0 + total xs

/-- Where an element at a position has to begin. -/
def begins (r : Refer) (p : Place) : Rat :=
  match r with
  | .entry => p.s
  | .centre => p.s - p.elem.length / 2
  | .exit => p.s - p.elem.length

/-- The elements do not overlap and fit between a position and another one. -/
def Fits (r : Refer) (stop : Rat) : Rat → List Place → Prop
  | last, [] => last ≤ stop
  | last, p :: ps => last ≤ begins r p ∧ Fits r stop (begins r p + p.elem.length) ps

/-! ## Lemmas -/

theorem begins_eq (r : Refer) (p : Place) : p.s + offset r p.elem = begins r p := by
  cases r <;> simp only [begins, offset] <;> grind

/-- Names and elements without the dictionary. -/
def plain (l : List Item) : List (String × Option Elem) := l.map fun i => (i.name, some i.elem)

theorem find_nodup : ∀ (l : List Item), (l.map (·.name)).Nodup → ∀ i ∈ l, l.find? (fun j => j.name = i.name) = some i := by
  intro l
  induction l with
  | nil => intro _ i hi; cases hi
  | cons x xs ih =>
    intro hn i hi
    simp only [List.map_cons, List.nodup_cons] at hn
    rcases List.mem_cons.1 hi with rfl | hi
    · simp
    · have : x.name ≠ i.name := by
        intro h
        exact hn.1 (h ▸ List.mem_map_of_mem hi)
      simp [List.find?_cons, this, ih hn.2 i hi]

theorem constructed_nodup (l : List Item) (h : (l.map (·.name)).Nodup) : constructed l = plain l := by
  unfold constructed plain
  apply List.map_congr_left
  intro i hi
  have hr : (l.reverse.map (·.name)).Nodup := by
    rw [List.map_reverse]
    exact List.pairwise_reverse.2 (h.imp Ne.symm)
  simp only [lookup, find_nodup l.reverse hr i (List.mem_reverse.2 hi), Option.map_some]

theorem total_append (a b : List Item) : total (plain (a ++ b)) = total (plain a) + total (plain b) := by
  induction a with
  | nil => simp only [List.nil_append, plain, List.map_nil, total]; grind
  | cons x xs ih =>
    simp only [plain, List.cons_append, List.map_cons, total] at ih ⊢
    rw [ih]
    grind

theorem starts_append (a b : List Item) : ∀ s, starts s (plain (a ++ b)) = starts s (plain a) ++ starts (s + total (plain a)) (plain b) := by
  induction a with
  | nil =>
    intro s
    simp only [List.nil_append, plain, List.map_nil, total, starts]
    rw [show s + 0 = s by grind]
  | cons x xs ih =>
    intro s
    have := ih (s + x.elem.length)
    simp only [plain, List.cons_append, List.map_cons, total, starts, Option.map_some, Option.getD_some] at this ⊢
    rw [this]
    rw [show s + x.elem.length + total (List.map (fun i => (i.name, some i.elem)) xs) =
      s + (x.elem.length + total (List.map (fun i => (i.name, some i.elem)) xs)) by grind]

/-- The places among what is in the list, with their positions. -/
def shown (l : List Item) : List (Rat × Item) :=
  ((starts 0 (plain l)).zip l).filterMap fun x => if x.2.made then none else some (x.1.1, x.2)

theorem starts_length (l : List Item) : ∀ s, (starts s (plain l)).length = l.length := by
  induction l with
  | nil => intro s; rfl
  | cons x xs ih => intro s; simp only [plain, List.map_cons, starts, List.length_cons]; rw [← ih]; rfl

theorem shown_append (a b : List Item) : shown (a ++ b) = shown a ++
    ((starts (total (plain a)) (plain b)).zip b).filterMap fun x => if x.2.made then none else some (x.1.1, x.2) := by
  unfold shown
  rw [starts_append, List.zip_append (starts_length a 0), List.filterMap_append]
  rw [show (0 : Rat) + total (plain a) = total (plain a) by grind]

/-- The place as it is in the line. -/
def Place.item (p : Place) : Item := ⟨p.name, p.elem, false⟩

theorem addPlaces_spec (sch : Scheme) (r : Refer) : ∀ (ps : List Place) (acc : List Item) (last : Rat) (out : List Item) (e : Rat),
    total (plain acc) = last → addPlaces sch r ps acc last = .ok (out, e) →
      total (plain out) = e ∧ shown out = shown acc ++ ps.map fun p => (begins r p, p.item) := by
  intro ps
  induction ps with
  | nil =>
    intro acc last out e ht h
    simp only [addPlaces, Except.ok.injEq, Prod.mk.injEq] at h
    obtain ⟨rfl, rfl⟩ := h
    exact ⟨ht, by simp⟩
  | cons p ps ih =>
    intro acc last out e ht h
    simp only [addPlaces, begins_eq] at h
    split at h
    · exact absurd h (by simp)
    · rename_i h1
      split at h
      · rename_i h2
        cases hn : nextName sch "drift" (acc.map (·.name)) with
        | error x => rw [hn] at h; exact absurd h (by simp [bind, Except.bind])
        | ok name =>
          rw [hn] at h
          simp only [bind, Except.bind] at h
          have := ih _ _ out e ?_ h
          · refine ⟨this.1, ?_⟩
            rw [this.2, shown_append]
            simp only [plain, drift, List.map_cons, List.map_nil, starts, Option.map_some, Option.getD_some, List.zip_cons_cons, List.zip_nil_right,
              List.filterMap_cons, List.filterMap_nil, if_true, List.append_assoc]
            have he : total (List.map (fun i => (i.name, some i.elem)) acc) + (begins r p - last) = begins r p := by
              have : total (List.map (fun i => (i.name, some i.elem)) acc) = last := ht
              rw [this]; grind
            simp [he, Place.item]
          · rw [total_append, ht]
            simp only [plain, drift, List.map_cons, List.map_nil, total, Option.map_some, Option.getD_some]
            grind
      · rename_i h2
        have hl : begins r p = last := by grind
        have := ih _ _ out e ?_ h
        · refine ⟨this.1, ?_⟩
          rw [this.2, shown_append]
          simp [plain, starts, Place.item, hl]
          exact ht
        · rw [total_append, ht]
          simp only [plain, List.map_cons, List.map_nil, total, Option.map_some, Option.getD_some]
          grind

theorem search_fresh (sch : Scheme) (pre : String) (names : List String) : ∀ k i n, search sch pre names k i = .ok n → n ∉ names := by
  intro k
  induction k with
  | zero => intro i n h; exact absurd h (by simp [search])
  | succ k ih =>
    intro i n h
    simp only [search] at h
    split at h
    · exact ih _ _ h
    · rename_i hn
      simp only [Except.ok.injEq] at h
      exact h ▸ hn

theorem nextName_fresh (sch : Scheme) (pre : String) (names : List String) (n : String) (h : nextName sch pre names = .ok n) :
    n ∉ names := by
  unfold nextName at h
  split at h
  · exact search_fresh sch pre names _ _ n h
  · rename_i hn
    simp only [Except.ok.injEq] at h
    exact h ▸ hn

/-! ## C193 -/

/-- What the function has made before the constructor: the length, and the places with their positions in their order. -/
theorem items_spec (sch : Scheme) (r : Refer) (reorder : Bool) (nodes : List Node) (length : Rat) (l : List Item)
    (h : items sch r reorder nodes length = .ok l) :
    ∃ flat, flatten sch nodes = .ok flat ∧ total (plain l) = length ∧
      shown l = (if reorder then sortPlaces flat else flat).map fun p => (begins r p, p.item) := by
  unfold items at h
  cases hf : flatten sch nodes with
  | error x => rw [hf] at h; exact absurd h (by simp [bind, Except.bind])
  | ok flat =>
    refine ⟨flat, rfl, ?_⟩
    rw [hf] at h
    simp only [bind, Except.bind] at h
    split at h
    · exact absurd h (by simp)
    · rename_i x hx
      obtain ⟨out, e⟩ := x
      have hs := addPlaces_spec sch r _ [] 0 out e (by simp [plain, total]) hx
      simp only [close, bind, Except.bind] at h
      split at h
      · exact absurd h (by simp)
      · split at h
        · exact absurd h (by simp)
        · simp only [Except.ok.injEq] at h
          subst h
          refine ⟨?_, ?_⟩
          · rw [total_append, hs.1]
            simp only [plain, drift, List.map_cons, List.map_nil, total, Option.map_some, Option.getD_some]
            grind
          · rw [shown_append, hs.2]
            simp [plain, starts, shown]

theorem sublist_aux (l : List Item) : ∀ s, (((((starts s (plain l)).zip l).filterMap fun x => if x.2.made then none else some (x.1.1, x.2))).map
    fun x => (x.1, x.2.name, some x.2.elem)).Sublist (starts s (plain l)) := by
  induction l with
  | nil => intro s; simp [plain, starts]
  | cons x xs ih =>
    intro s
    have := ih (s + x.elem.length)
    simp only [plain, List.map_cons, starts, Option.map_some, Option.getD_some, List.zip_cons_cons, List.filterMap_cons] at this ⊢
    cases x.made with
    | true => exact this.cons _
    | false => exact this.cons₂ _

/-- C193: if all names of the line are different, it has the given length, and all elements in their order at the given positions. -/
theorem C193_positions_partial (sch : Scheme) (r : Refer) (reorder : Bool) (nodes : List Node) (length : Rat)
    (line : List (String × Option Elem)) (h : fromSequence sch r reorder nodes length = .ok line) (hn : (line.map (·.1)).Nodup) :
    total line = length ∧ ∃ flat, flatten sch nodes = .ok flat ∧
      ((if reorder then sortPlaces flat else flat).map fun p => (begins r p, p.name, some p.elem)).Sublist (starts 0 line) := by
  unfold fromSequence at h
  cases hi : items sch r reorder nodes length with
  | error x => rw [hi] at h; exact absurd h (by simp [Except.map])
  | ok l =>
    rw [hi] at h
    simp only [Except.map, Except.ok.injEq] at h
    subst h
    have hl : (l.map (·.name)).Nodup := by simpa [constructed, Function.comp_def] using hn
    rw [constructed_nodup l hl]
    obtain ⟨flat, h1, h2, h3⟩ := items_spec sch r reorder nodes length l hi
    refine ⟨h2, flat, h1, ?_⟩
    have := sublist_aux l 0
    rw [show (((starts 0 (plain l)).zip l).filterMap fun x => if x.2.made then none else some (x.1.1, x.2)) = shown l from rfl, h3,
      List.map_map] at this
    exact this

theorem mem_insertPlace (p q : Place) (l : List Place) : q ∈ insertPlace p l ↔ q = p ∨ q ∈ l := by
  induction l with
  | nil => simp [insertPlace]
  | cons x xs ih =>
    simp only [insertPlace]
    split
    · simp
    · simp only [List.mem_cons, ih]
      constructor
      · rintro (h | h | h) <;> simp [h]
      · rintro (h | h | h) <;> simp [h]

theorem mem_sort_aux (q : Place) : ∀ (l acc : List Place), q ∈ l.foldl (fun acc p => insertPlace p acc) acc ↔ q ∈ l ∨ q ∈ acc := by
  intro l
  induction l with
  | nil => intro acc; simp
  | cons x xs ih =>
    intro acc
    simp only [List.foldl_cons, ih, mem_insertPlace, List.mem_cons]
    constructor
    · rintro (h | h | h) <;> simp [h]
    · rintro ((h | h) | h) <;> simp [h]

theorem mem_sortPlaces (q : Place) (l : List Place) : q ∈ sortPlaces l ↔ q ∈ l := by
  simp [sortPlaces, mem_sort_aux]

/-- C193: each of the elements is at its position, whether they are reordered or not. -/
theorem C193_each_partial (sch : Scheme) (r : Refer) (reorder : Bool) (nodes : List Node) (length : Rat)
    (line : List (String × Option Elem)) (h : fromSequence sch r reorder nodes length = .ok line) (hn : (line.map (·.1)).Nodup) :
    ∃ flat, flatten sch nodes = .ok flat ∧ ∀ p ∈ flat, (begins r p, p.name, some p.elem) ∈ starts 0 line := by
  obtain ⟨-, flat, h1, h2⟩ := C193_positions_partial sch r reorder nodes length line h hn
  refine ⟨flat, h1, fun p hp => h2.subset (List.mem_map.2 ⟨p, ?_, rfl⟩)⟩
  cases reorder with
  | true => exact (mem_sortPlaces p flat).2 hp
  | false => exact hp

/-! ### Names -/

/-- A scheme gives different names for different numbers. -/
def Scheme.Good (sch : Scheme) : Prop := ∀ p i j, sch.num p i = sch.num p j → i = j

theorem length_le_of_subset : ∀ (l m : List String), l.Nodup → (∀ x ∈ l, x ∈ m) → l.length ≤ m.length := by
  intro l
  induction l with
  | nil => intro m _ _; simp
  | cons x xs ih =>
    intro m hn hs
    simp only [List.nodup_cons] at hn
    have hx : x ∈ m := hs x List.mem_cons_self
    have := ih (m.erase x) hn.2 (by
      intro y hy
      have hne : y ≠ x := by
        rintro rfl
        exact hn.1 hy
      exact (List.mem_erase_of_ne hne).2 (hs y (List.mem_cons_of_mem _ hy)))
    rw [List.length_erase_of_mem hx] at this
    have : 0 < m.length := List.length_pos_of_mem hx
    simp only [List.length_cons]
    omega

theorem search_error (sch : Scheme) (pre : String) (names : List String) : ∀ k i e, search sch pre names k i = .error e →
    ∀ j, i ≤ j → j < i + k → sch.num pre j ∈ names := by
  intro k
  induction k with
  | zero => intro i e _ j h1 h2; omega
  | succ k ih =>
    intro i e h j h1 h2
    simp only [search] at h
    split at h
    · rename_i hi
      by_cases hj : j = i
      · exact hj ▸ hi
      · exact ih (i + 1) e h j (by omega) (by omega)
    · exact absurd h (by simp)

/-- The search for a name ends. -/
theorem nextName_ok (sch : Scheme) (hg : sch.Good) (pre : String) (names : List String) : ∃ n, nextName sch pre names = .ok n := by
  unfold nextName
  split
  · cases h : search sch pre names (names.length + 1) 1 with
    | ok n => exact ⟨n, rfl⟩
    | error e =>
      have hall := search_error sch pre names _ _ e h
      have := length_le_of_subset ((List.range (names.length + 1)).map fun i => sch.num pre (i + 1)) names
        (by
          refine List.pairwise_map.2 (List.nodup_range.imp ?_)
          intro a b hab heq
          exact hab (by have := hg pre _ _ heq; omega))
        (by
          intro x hx
          obtain ⟨i, hi, rfl⟩ := List.mem_map.1 hx
          have := List.mem_range.1 hi
          exact hall (i + 1) (by omega) (by omega))
      simp at this
      omega
  · exact ⟨pre, rfl⟩

theorem addPlaces_ok (sch : Scheme) (hg : sch.Good) (r : Refer) (stop : Rat) : ∀ (ps : List Place) (acc : List Item) (last : Rat),
    ((∃ x, addPlaces sch r ps acc last = .ok x ∧ x.2 ≤ stop) ↔ Fits r stop last ps) := by
  intro ps
  induction ps with
  | nil => intro acc last; simp [addPlaces, Fits]
  | cons p ps ih =>
    intro acc last
    simp only [addPlaces, begins_eq, Fits]
    split
    · rename_i h
      constructor
      · rintro ⟨x, hx, -⟩; exact absurd hx (by simp)
      · rintro ⟨h1, -⟩; grind
    · rename_i h
      have h1 : last ≤ begins r p := by grind
      split
      · obtain ⟨n, hn⟩ := nextName_ok sch hg "drift" (acc.map (·.name))
        rw [hn]
        simp only [bind, Except.bind]
        rw [ih]
        simp [h1]
      · rw [ih]
        simp [h1]

/-- C193: a line is made if and only if the elements in their order do not overlap and fit into the length. -/
theorem C193_accepts (sch : Scheme) (hg : sch.Good) (r : Refer) (reorder : Bool) (nodes : List Node) (length : Rat) (flat : List Place)
    (hf : flatten sch nodes = .ok flat) :
    (∃ line, fromSequence sch r reorder nodes length = .ok line) ↔ Fits r length 0 (if reorder then sortPlaces flat else flat) := by
  rw [← addPlaces_ok sch hg r length _ [] 0]
  unfold fromSequence items
  rw [hf]
  simp only [bind, Except.bind]
  cases hx : addPlaces sch r (if reorder then sortPlaces flat else flat) [] 0 with
  | error e => simp [Except.map]
  | ok x =>
    simp only [close, bind, Except.bind]
    obtain ⟨n, hn⟩ := nextName_ok sch hg "drift" (x.1.map (·.name))
    rw [hn]
    split
    · rename_i h
      constructor
      · rintro ⟨l, hl⟩; exact absurd hl (by simp [Except.map])
      · rintro ⟨y, hy, h2⟩
        simp only [Except.ok.injEq] at hy
        subst hy
        grind
    · rename_i h
      constructor
      · intro _; exact ⟨x, rfl, by grind⟩
      · intro _; exact ⟨_, rfl⟩

/-- C193: nodes which are elements, not sequences, get different names whatever names are asked for. -/
theorem C193_names_partial (sch : Scheme) (nodes : List Node) (he : ∀ n ∈ nodes, ∃ e, n.what = .elem e) (flat : List Place)
    (h : flatten sch nodes = .ok flat) : (flat.map (·.name)).Nodup := by
  have key : ∀ (nodes : List Node) (acc : List Place), (∀ n ∈ nodes, ∃ e, n.what = .elem e) → (acc.map (·.name)).Nodup →
      ∀ flat, nodes.foldlM (addNode sch) acc = .ok flat → (flat.map (·.name)).Nodup := by
    intro nodes
    induction nodes with
    | nil =>
      intro acc _ ha flat h
      simp only [List.foldlM_nil, pure, Except.pure, Except.ok.injEq] at h
      exact h ▸ ha
    | cons n ns ih =>
      intro acc hn ha flat h
      rw [List.foldlM_cons] at h
      cases hx : addNode sch acc n with
      | error x => rw [hx] at h; exact absurd h (by simp [bind, Except.bind])
      | ok acc' =>
        rw [hx] at h
        refine ih acc' (fun m hm => hn m (List.mem_cons_of_mem _ hm)) ?_ flat h
        obtain ⟨e, hw⟩ := hn n List.mem_cons_self
        unfold addNode at hx
        rw [hw] at hx
        cases hs : absolute acc n with
        | error x => rw [hs] at hx; exact absurd hx (by simp [bind, Except.bind])
        | ok s =>
          cases hm : nextName sch n.name (acc.map (·.name)) with
          | error x => rw [hs, hm] at hx; exact absurd hx (by simp [bind, Except.bind])
          | ok name =>
            rw [hs, hm] at hx
            simp only [bind, Except.bind, Except.ok.injEq] at hx
            subst hx
            have hfresh := nextName_fresh sch _ _ _ hm
            rw [List.map_append, List.nodup_append]
            refine ⟨ha, by simp, ?_⟩
            intro a ha' b hb hab
            simp only [List.map_cons, List.map_nil, List.mem_singleton] at hb
            exact hfresh (hb ▸ hab ▸ ha')
  exact key nodes [] he (by simp) flat h

/-- C193: a further node leaves what was there; it is placed relative to the given position or to an element of the given name, under its
own name if that is free and under another free one if not; a sequence is placed with all of its elements relative to it. -/
theorem C193_nodes (sch : Scheme) (nodes : List Node) (n : Node) (flat out : List Place) (h : flatten sch nodes = .ok flat)
    (ho : flatten sch (nodes ++ [n]) = .ok out) :
    ∃ s name new, out = flat ++ new ∧ name ∉ flat.map (·.name) ∧ (n.name ∉ flat.map (·.name) → name = n.name) ∧
      (∀ p, n.origin = .pos p → s = n.s + p) ∧ (∀ m, n.origin = .name m → ∃ p ∈ flat, p.name = m ∧ s = n.s + p.s) ∧
      (∀ e, n.what = .elem e → new = [⟨s, e, name⟩]) ∧
      (∀ l, n.what = .seq l → ∃ first rest, new = first :: rest ∧ first.s = s ∧ first.name = name ∧ first.elem.length = 0 ∧
        rest.map (·.elem) = l.map (·.elem) ∧ rest.map (·.s) = l.map (s + ·.s)) := by
  unfold flatten at h ho
  rw [List.foldlM_append, h] at ho
  simp only [bind, Except.bind, List.foldlM_cons, List.foldlM_nil] at ho
  unfold addNode at ho
  cases hs : absolute flat n with
  | error x => rw [hs] at ho; exact absurd ho (by simp [bind, Except.bind])
  | ok s =>
    cases hm : nextName sch n.name (flat.map (·.name)) with
    | error x => rw [hs, hm] at ho; exact absurd ho (by simp [bind, Except.bind])
    | ok name =>
      rw [hs, hm] at ho
      have hfresh := nextName_fresh sch _ _ _ hm
      have hown : n.name ∉ flat.map (·.name) → name = n.name := by
        intro hh
        unfold nextName at hm
        rw [if_neg hh] at hm
        exact (Except.ok.inj hm).symm
      have hpos : ∀ p, n.origin = .pos p → s = n.s + p := by
        intro p hp
        unfold absolute at hs
        rw [hp] at hs
        exact (Except.ok.inj hs).symm
      have hname : ∀ m, n.origin = .name m → ∃ p ∈ flat, p.name = m ∧ s = n.s + p.s := by
        intro m hp
        unfold absolute at hs
        rw [hp] at hs
        dsimp only at hs
        split at hs
        · rename_i p hf
          exact ⟨p, List.mem_of_find?_eq_some hf, by simpa using List.find?_some hf, (Except.ok.inj hs).symm⟩
        · exact absurd hs (by simp)
      cases hw : n.what with
      | elem e =>
        rw [hw] at ho
        simp only [bind, Except.bind, pure, Except.pure, Except.ok.injEq] at ho
        refine ⟨s, name, [⟨s, e, name⟩], ho.symm, hfresh, hown, hpos, hname, ?_, ?_⟩
        · intro e' he; cases he; rfl
        · intro l hl; cases hl
      | seq l =>
        rw [hw] at ho
        simp only [bind, Except.bind, pure, Except.pure, Except.ok.injEq] at ho
        refine ⟨s, name, ⟨s, marker, name⟩ :: l.map fun p => ⟨s + p.s, p.elem, sch.join name p.name⟩, by rw [← ho]; simp, hfresh, hown, hpos, hname, ?_, ?_⟩
        · intro e' he; cases he
        · intro l' hl
          cases hl
          exact ⟨_, _, rfl, rfl, rfl, rfl, by simp [Function.comp_def], by simp [Function.comp_def]⟩

/-! ### Reordering -/

theorem insert_sorted (p : Place) (l : List Place) (h : l.Pairwise fun a b => a.s ≤ b.s) :
    (insertPlace p l).Pairwise fun a b => a.s ≤ b.s := by
  induction l with
  | nil => simp [insertPlace]
  | cons x xs ih =>
    simp only [insertPlace]
    rw [List.pairwise_cons] at h
    split
    · rename_i hp
      rw [List.pairwise_cons, List.pairwise_cons]
      refine ⟨?_, h⟩
      intro b hb
      rcases List.mem_cons.1 hb with rfl | hb
      · grind
      · have := h.1 b hb; grind
    · rename_i hp
      rw [List.pairwise_cons]
      refine ⟨?_, ih h.2⟩
      intro b hb
      rcases (mem_insertPlace p b xs).1 hb with rfl | hb
      · grind
      · exact h.1 b hb

theorem sort_sorted (l : List Place) : (sortPlaces l).Pairwise fun a b => a.s ≤ b.s := by
  have key : ∀ (l acc : List Place), acc.Pairwise (fun a b => a.s ≤ b.s) →
      (l.foldl (fun acc p => insertPlace p acc) acc).Pairwise fun a b => a.s ≤ b.s := by
    intro l
    induction l with
    | nil => intro acc h; exact h
    | cons x xs ih => intro acc h; exact ih _ (insert_sorted x acc h)
  exact key l [] List.Pairwise.nil

theorem fits_thin (r : Refer) (stop : Rat) : ∀ (l : List Place) (last : Rat), (∀ p ∈ l, p.elem.length = 0 ∧ last ≤ p.s ∧ p.s ≤ stop) → last ≤ stop →
    l.Pairwise (fun a b => a.s ≤ b.s) → Fits r stop last l := by
  intro l
  induction l with
  | nil => intro last _ h _; exact h
  | cons p ps ih =>
    intro last h hl hp
    rw [List.pairwise_cons] at hp
    have h0 := h p List.mem_cons_self
    have hb : begins r p = p.s := by
      cases r <;> simp only [begins, h0.1] <;> grind
    simp only [Fits, hb, h0.1]
    refine ⟨h0.2.1, ?_⟩
    rw [show p.s + 0 = p.s by grind]
    refine ih _ (fun q hq => ?_) h0.2.2 hp.2
    have := h q (List.mem_cons_of_mem _ hq)
    exact ⟨this.1, hp.1 q hq, this.2.2⟩

/-- C193: thin elements within the length can be given in any order, if they are reordered. -/
theorem C193_reorder_partial (sch : Scheme) (hg : sch.Good) (r : Refer) (nodes : List Node) (length : Rat) (flat : List Place)
    (hf : flatten sch nodes = .ok flat) (hl : 0 ≤ length) (ht : ∀ p ∈ flat, p.elem.length = 0 ∧ 0 ≤ p.s ∧ p.s ≤ length) :
    ∃ line, fromSequence sch r true nodes length = .ok line :=
  (C193_accepts sch hg r true nodes length flat hf).2
    (fits_thin r length _ 0 (fun p hp => ht p ((mem_sortPlaces p flat).1 hp)) hl (sort_sorted flat))

/-! ### Where it does not hold -/

/-- The default scheme, with strokes for numbers. -/
def strokes : Scheme := ⟨fun p i => p ++ String.ofList (List.replicate i '|'), fun a b => a ++ b⟩

/-- Different numbers are different names. -/
theorem strokes_good : strokes.Good := by
  intro p i j h
  have := congrArg String.length h
  simpa [strokes, String.length_append] using this

theorem of_check {α : Type} {r : Except Err α} {P : α → Prop} [DecidablePred P]
    (h : (match r with | .ok l => decide (P l) | .error _ => false) = true) : ∃ l, r = .ok l ∧ P l := by
  cases r with
  | error e => exact absurd h (by simp)
  | ok l => exact ⟨l, rfl, of_decide_eq_true h⟩

/-- C193, violated: an element called "drift" replaces the drift in front of it: the line has not its length, and the element twice. -/
theorem C193_drift_violated : ∃ line, fromSequence strokes .entry false [⟨1, .elem ⟨3, 7⟩, .pos 0, "drift"⟩] 10 = .ok line ∧
    total line ≠ 10 ∧ line.count ("drift", some ⟨3, 7⟩) = 2 := by
  apply of_check
  decide +kernel

/-- C193, violated: names of elements of a sequence within another one can be those of others, which are then lost. -/
theorem C193_nested_violated : ∃ line, fromSequence strokes .entry false
    [⟨0, .elem ⟨1, 7⟩, .pos 0, "ab"⟩, ⟨1, .seq [⟨0, ⟨2, 8⟩, "b"⟩], .pos 0, "a"⟩] 3 = .ok line ∧
      (∀ x ∈ line, x.2 ≠ some ⟨1, 7⟩) ∧ total line = 4 := by
  apply of_check
  decide +kernel

/-- C193, violated: a marker at the entrance of an element given after it is an error even if elements are reordered, although there is an order
in which they fit. -/
theorem C193_reorder_violated : (¬ ∃ line, fromSequence strokes .entry true
      [⟨0, .elem ⟨1, 7⟩, .pos 0, "a"⟩, ⟨0, .elem ⟨0, 8⟩, .pos 0, "b"⟩] 1 = .ok line) ∧
    ∃ line, fromSequence strokes .entry true [⟨0, .elem ⟨0, 8⟩, .pos 0, "b"⟩, ⟨0, .elem ⟨1, 7⟩, .pos 0, "a"⟩] 1 = .ok line ∧
      total line = 1 := by
  constructor
  · rintro ⟨line, h⟩
    have : (match fromSequence strokes .entry true [⟨0, .elem ⟨1, 7⟩, .pos 0, "a"⟩, ⟨0, .elem ⟨0, 8⟩, .pos 0, "b"⟩] 1 with
      | .ok _ => true | .error _ => false) = false := by decide +kernel
    rw [h] at this
    exact absurd this (by simp)
  · apply of_check
    decide +kernel

/-- A line with elements at positions relative to others, and repeated names. -/
example : ∃ line, fromSequence strokes .centre false [⟨1, .elem ⟨1, 7⟩, .pos 0, "a"⟩, ⟨2, .elem ⟨1, 8⟩, .name "a", "a"⟩] 10 = .ok line ∧
    (line.map (·.1)).Nodup ∧ line.length = 5 ∧ total line = 10 := by
  apply of_check
  decide +kernel

/-- Thin elements in any order. -/
example : ∃ flat, flatten strokes [⟨2, .elem ⟨0, 7⟩, .pos 0, "a"⟩, ⟨1, .elem ⟨0, 8⟩, .pos 0, "b"⟩] = .ok flat ∧
    ∀ p ∈ flat, p.elem.length = 0 ∧ 0 ≤ p.s ∧ p.s ≤ 3 := by
  apply of_check
  decide +kernel

end Verif.FromSeq
