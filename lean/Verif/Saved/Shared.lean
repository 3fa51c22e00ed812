import Verif.Saved.Model

/-!
# C139: a copy of a line is independent of the line

`Line.copy()` (`xtrack/line.py:1218-1252`): the elements are copied, `_extra_config` and `metadata` are copied one level deep
(`update(self._extra_config.copy())`, `metadata.update(self.metadata)`). Containers in them (`twiss_default`, lists of monitors and
correctors, nested metadata) are objects of the heap and stay shared. The same lines of code are used by `Environment.import_line`
(`environment.py:1004-1008`) and, for `_extra_config`, by `to_dict`/`from_dict` and hence `env.copy()` (`line.py:803, 483-484`).
-/

namespace Verif.Saved

/-- A value in a dictionary of a line: a number (or text, flag, ...) or a reference to a container. -/
inductive Cell where
  | num (x : ℚ)
  | ref (a : ℕ)
  deriving DecidableEq

/-- The heap: contents of containers and elements; addresses from `next` on are free. -/
structure Heap where
  at' : ℕ → List (String × ℚ)
  next : ℕ

/-- A line: its extra configuration, its metadata and its elements by address. -/
structure HLine where
  extra : List (String × Cell)
  metadata : List (String × Cell)
  elems : List (String × ℕ)

/-- Set a key of a dictionary. -/
def put {α : Type} (d : List (String × α)) (k : String) (v : α) : List (String × α) := (k, v) :: d.filter fun e => e.1 ≠ k

/-- Write to the object at an address. -/
def Heap.write (h : Heap) (a : ℕ) (c : List (String × ℚ)) : Heap := { h with at' := fun b => if b = a then c else h.at' b }

/-- What a user does with a line. -/
inductive Op where
  /-- assign an attribute of the configuration, e.g. `line.steering_monitors_x = ...` or `line.reset_s_at_end_turn = ...` -/
  | setExtra (k : String) (v : ℚ)
  /-- `line.metadata[k] = v` -/
  | setMeta (k : String) (v : ℚ)
  /-- `line[name].field = v` -/
  | setElem (name field : String) (v : ℚ)
  /-- add an element -/
  | newElem (name : String) (fields : List (String × ℚ))
  /-- edit a container in the configuration, e.g. `line.twiss_default[key] = v` -/
  | editExtra (k key : String) (v : ℚ)
  /-- edit a container in the metadata -/
  | editMeta (k key : String) (v : ℚ)

/-- Look up. -/
def find {α : Type} (d : List (String × α)) (k : String) : Option α := (d.find? fun e => e.1 = k).map (·.2)

/-- Edit the container stored under a key. -/
def editAt (h : Heap) (d : List (String × Cell)) (k key : String) (v : ℚ) : Heap :=
  match find d k with
  | some (.ref a) => h.write a (put (h.at' a) key v)
  | _ => h

/-- One operation. -/
def step (h : Heap) (l : HLine) : Op → Heap × HLine
  | .setExtra k v => (h, { l with extra := put l.extra k (.num v) })
  | .setMeta k v => (h, { l with metadata := put l.metadata k (.num v) })
  | .setElem n f v =>
    match find l.elems n with
    | some a => (h.write a (put (h.at' a) f v), l)
    | none => (h, l)
  | .newElem n c => ({ at' := fun b => if b = h.next then c else h.at' b, next := h.next + 1 }, { l with elems := put l.elems n h.next })
  | .editExtra k key v => (editAt h l.extra k key v, l)
  | .editMeta k key v => (editAt h l.metadata k key v, l)

/-- A program. -/
def run (h : Heap) (l : HLine) : List Op → Heap × HLine
  | [] => (h, l)
  | o :: t => run (step h l o).1 (step h l o).2 t

/-- Copies of elements at the free addresses. -/
def copyElems (h : Heap) : List (String × ℕ) → Heap × List (String × ℕ)
  | [] => (h, [])
  | (n, a) :: t =>
    let r := copyElems { at' := fun b => if b = h.next then h.at' a else h.at' b, next := h.next + 1 } t
    (r.1, (n, h.next) :: r.2)

/-- `Line.copy()`, line.py:1218-1246. -/
def copyLine (h : Heap) (l : HLine) : Heap × HLine :=
  let r := copyElems h l.elems
  (r.1, { extra := l.extra, metadata := l.metadata, elems := r.2 })

/-- What a user sees of a cell. -/
def Cell.see (h : Heap) : Cell → ℚ ⊕ List (String × ℚ)
  | .num x => .inl x
  | .ref a => .inr (h.at' a)

/-- What a user sees of a line: configuration, metadata, elements. -/
def see (h : Heap) (l : HLine) :
    List (String × (ℚ ⊕ List (String × ℚ))) × List (String × (ℚ ⊕ List (String × ℚ))) × List (String × List (String × ℚ)) :=
  (l.extra.map fun e => (e.1, e.2.see h), l.metadata.map fun e => (e.1, e.2.see h), l.elems.map fun e => (e.1, h.at' e.2))

/-- All addresses a line refers to. -/
def HLine.uses (l : HLine) (a : ℕ) : Prop :=
  (∃ k, (k, Cell.ref a) ∈ l.extra) ∨ (∃ k, (k, Cell.ref a) ∈ l.metadata) ∨ ∃ n, (n, a) ∈ l.elems

/-- No reference to free memory. -/
def Valid (h : Heap) (l : HLine) : Prop := ∀ a, l.uses a → a < h.next

/-- The elements are not themselves containers in the configuration or the metadata. -/
def Typed (l : HLine) : Prop := ∀ n a, (n, a) ∈ l.elems → ∀ k, (k, Cell.ref a) ∉ l.extra ∧ (k, Cell.ref a) ∉ l.metadata

/-- The operation does not edit a container in place. -/
def Op.assigns : Op → Prop
  | .editExtra _ _ _ => False
  | .editMeta _ _ _ => False
  | _ => True

/-- No element of `l` is seen through `m`. -/
def Apart (l m : HLine) : Prop := ∀ n a, (n, a) ∈ l.elems → ¬ m.uses a

theorem find_mem {α : Type} {d : List (String × α)} {k : String} {v : α} (h : find d k = some v) : (k, v) ∈ d := by
  simp only [find, Option.map_eq_some_iff] at h
  obtain ⟨e, he, rfl⟩ := h
  have h1 : e.1 = k := by simpa using List.find?_some he
  have h2 := List.mem_of_find?_eq_some he
  rw [← h1]; exact h2

theorem mem_put {α : Type} {d : List (String × α)} {k : String} {v : α} {e : String × α} (h : e ∈ put d k v) : e = (k, v) ∨ e ∈ d := by
  simp only [put, List.mem_cons, List.mem_filter] at h
  rcases h with h | h
  · exact .inl h
  · exact .inr h.1

theorem see_congr {h h' : Heap} {m : HLine} (e : ∀ a, m.uses a → h'.at' a = h.at' a) : see h' m = see h m := by
  have c : ∀ d : List (String × Cell), (∀ k a, (k, Cell.ref a) ∈ d → h'.at' a = h.at' a) →
      (d.map fun e => (e.1, e.2.see h')) = d.map fun e => (e.1, e.2.see h) := by
    intro d hd
    apply List.map_congr_left
    rintro ⟨k, c⟩ hm
    cases c with
    | num x => rfl
    | ref a => simp [Cell.see, hd k a hm]
  simp only [see, Prod.mk.injEq]
  refine ⟨c _ fun k a hm => e a (.inl ⟨k, hm⟩), c _ fun k a hm => e a (.inr (.inl ⟨k, hm⟩)), ?_⟩
  apply List.map_congr_left
  rintro ⟨n, a⟩ hm
  simp [e a (.inr (.inr ⟨n, hm⟩))]

theorem uses_put_extra {l : HLine} {k : String} {v : ℚ} {a : ℕ} (h : { l with extra := put l.extra k (.num v) : HLine }.uses a) : l.uses a := by
  rcases h with ⟨k', h⟩ | h
  · rcases mem_put h with e | e
    · simp at e
    · exact .inl ⟨k', e⟩
  · exact .inr h

theorem uses_put_meta {l : HLine} {k : String} {v : ℚ} {a : ℕ} (h : { l with metadata := put l.metadata k (.num v) : HLine }.uses a) : l.uses a := by
  rcases h with h | ⟨k', h⟩ | h
  · exact .inl h
  · rcases mem_put h with e | e
    · simp at e
    · exact .inr (.inl ⟨k', e⟩)
  · exact .inr (.inr h)

/-- One assignment to `l` is not seen through `m`. -/
theorem step_apart {h : Heap} {l m : HLine} (hv : Valid h l) (hm : Valid h m) (ha : Apart l m) {o : Op} (ho : o.assigns) :
    see (step h l o).1 m = see h m ∧ Valid (step h l o).1 (step h l o).2 ∧ Valid (step h l o).1 m ∧ Apart (step h l o).2 m := by
  cases o with
  | editExtra => exact absurd ho (by simp [Op.assigns])
  | editMeta => exact absurd ho (by simp [Op.assigns])
  | setExtra k v => exact ⟨rfl, fun a hu => hv a (uses_put_extra hu), hm, ha⟩
  | setMeta k v => exact ⟨rfl, fun a hu => hv a (uses_put_meta hu), hm, ha⟩
  | setElem n f v =>
    simp only [step]
    cases hf : find l.elems n with
    | none => exact ⟨rfl, hv, hm, ha⟩
    | some a =>
      refine ⟨see_congr ?_, hv, hm, ha⟩
      intro b hb
      simp only [Heap.write]
      rw [if_neg]
      rintro rfl
      exact ha n b (find_mem hf) hb
  | newElem n c =>
    simp only [step]
    refine ⟨see_congr ?_, ?_, ?_, ?_⟩
    · intro b hb
      have := hm b hb
      simp only
      rw [if_neg (by omega)]
    · rintro a (hu | hu | ⟨n', hu⟩)
      · exact Nat.lt_succ_of_lt (hv a (.inl hu))
      · exact Nat.lt_succ_of_lt (hv a (.inr (.inl hu)))
      · rcases mem_put hu with e | e
        · cases e; exact Nat.lt_succ_self _
        · exact Nat.lt_succ_of_lt (hv a (.inr (.inr ⟨n', e⟩)))
    · exact fun a hu => Nat.lt_succ_of_lt (hm a hu)
    · intro n' a hu hb
      rcases mem_put hu with e | e
      · cases e; exact absurd (hm _ hb) (lt_irrefl _)
      · exact ha n' a e hb

theorem run_apart {h : Heap} {l m : HLine} (hv : Valid h l) (hm : Valid h m) (ha : Apart l m) :
    ∀ ops : List Op, (∀ o ∈ ops, o.assigns) → see (run h l ops).1 m = see h m
  | [], _ => rfl
  | o :: t, ho => by
    obtain ⟨e, v1, v2, a'⟩ := step_apart hv hm ha (ho o List.mem_cons_self)
    rw [run, run_apart v1 v2 a' t fun o' h' => ho o' (List.mem_cons_of_mem _ h'), e]

theorem copyElems_spec : ∀ (l : List (String × ℕ)) (h : Heap), (∀ e ∈ l, e.2 < h.next) →
    h.next ≤ (copyElems h l).1.next ∧ (∀ a < h.next, (copyElems h l).1.at' a = h.at' a) ∧
    (∀ e ∈ (copyElems h l).2, h.next ≤ e.2 ∧ e.2 < (copyElems h l).1.next) ∧
    ((copyElems h l).2.map fun e => (e.1, (copyElems h l).1.at' e.2)) = l.map fun e => (e.1, h.at' e.2)
  | [], h, _ => by simp [copyElems]
  | (n, a) :: t, h, hb => by
    let h1 : Heap := { at' := fun b => if b = h.next then h.at' a else h.at' b, next := h.next + 1 }
    have hlt : ∀ e ∈ t, e.2 < h.next := fun e he => hb e (List.mem_cons_of_mem _ he)
    obtain ⟨i1, i2, i3, i4⟩ := copyElems_spec t h1 fun e he => Nat.lt_succ_of_lt (hlt e he)
    have hn1 : h1.next = h.next + 1 := rfl
    refine ⟨by simp only [copyElems]; exact le_trans (Nat.le_succ _) i1, ?_, ?_, ?_⟩
    · intro b hbn
      show (copyElems h1 t).1.at' b = h.at' b
      rw [i2 b (by omega)]
      show (if b = h.next then h.at' a else h.at' b) = h.at' b
      rw [if_neg (by omega)]
    · intro e he
      change e ∈ (n, h.next) :: (copyElems h1 t).2 at he
      show h.next ≤ e.2 ∧ e.2 < (copyElems h1 t).1.next
      rcases List.mem_cons.1 he with rfl | he
      · exact ⟨le_refl _, i1⟩
      · have := i3 e he; omega
    · show ((n, h.next) :: (copyElems h1 t).2).map (fun e => (e.1, (copyElems h1 t).1.at' e.2)) = _
      rw [List.map_cons, List.map_cons, i4]
      congr 1
      · simp only
        rw [i2 h.next (by omega)]
        show (n, if h.next = h.next then h.at' a else _) = _
        rw [if_pos rfl]
      · apply List.map_congr_left
        intro e he
        show (e.1, if e.2 = h.next then h.at' a else h.at' e.2) = _
        rw [if_neg (by have := hlt e he; omega)]

/-- Right after copying, the copy looks like the line, and the line looks as before. -/
theorem C139_same (h : Heap) (l : HLine) (hv : Valid h l) :
    see (copyLine h l).1 (copyLine h l).2 = see h l ∧ see (copyLine h l).1 l = see h l := by
  obtain ⟨i1, i2, i3, i4⟩ := copyElems_spec l.elems h fun e he => hv e.2 (.inr (.inr ⟨e.1, he⟩))
  have e : see (copyLine h l).1 l = see h l := see_congr fun a ha => i2 a (hv a ha)
  refine ⟨?_, e⟩
  rw [← e]
  simp only [see, copyLine]
  rw [i4]
  refine Prod.ext rfl (Prod.ext rfl ?_)
  simp only
  apply List.map_congr_left
  intro x hx
  rw [i2 x.2 (hv x.2 (.inr (.inr ⟨x.1, hx⟩)))]

/-- Whatever is assigned on the copy (attributes of its configuration, metadata, fields of elements, new elements), in any order and
number, the line looks as before; and whatever is assigned on the line, the copy looks as before.

What is missing: editing containers in place (`C139_twiss_default_violated`, `C139_metadata_violated`). -/
theorem C139_assign_partial (h : Heap) (l : HLine) (hv : Valid h l) (ht : Typed l) (ops : List Op) (ho : ∀ o ∈ ops, o.assigns) :
    see (run (copyLine h l).1 (copyLine h l).2 ops).1 l = see h l ∧
    see (run (copyLine h l).1 l ops).1 (copyLine h l).2 = see h l := by
  obtain ⟨i1, i2, i3, i4⟩ := copyElems_spec l.elems h fun e he => hv e.2 (.inr (.inr ⟨e.1, he⟩))
  have hv1 : Valid (copyLine h l).1 l := fun a ha => lt_of_lt_of_le (hv a ha) i1
  have hv2 : Valid (copyLine h l).1 (copyLine h l).2 := by
    rintro a (hu | hu | ⟨n, hu⟩)
    · exact hv1 a (.inl hu)
    · exact hv1 a (.inr (.inl hu))
    · exact (i3 _ hu).2
  obtain ⟨s1, s2⟩ := C139_same h l hv
  constructor
  · rw [run_apart hv2 hv1 ?_ ops ho, s2]
    intro n a hu hc
    exact absurd (hv a hc) (not_lt.2 (i3 _ hu).1)
  · rw [run_apart hv1 hv2 ?_ ops ho, s1]
    rintro n a hu (⟨k, hc⟩ | ⟨k, hc⟩ | ⟨n', hc⟩)
    · exact (ht n a hu k).1 hc
    · exact (ht n a hu k).2 hc
    · exact absurd (hv a (.inr (.inr ⟨n, hu⟩))) (not_lt.2 (i3 _ hc).1)

/-- A line with a dictionary `twiss_default` at address 0 and an element at address 1. -/
def sampleLine : HLine := ⟨[("twiss_default", .ref 0), ("tol", .num 1)], [("layout", .ref 2)], [("q", 1)]⟩

/-- Its heap. -/
def sampleHeap : Heap := ⟨fun a => if a = 1 then [("k1", 2)] else [], 3⟩

example : Valid sampleHeap sampleLine ∧ Typed sampleLine := by
  constructor
  · rintro a (⟨k, h⟩ | ⟨k, h⟩ | ⟨k, h⟩) <;> simp [sampleLine] at h <;> simp [sampleHeap] <;> omega
  · intro n a h k
    simp [sampleLine] at h ⊢
    omega

/-- **Violation.** Editing `twiss_default` (or any container in the configuration) of the copy edits that of the line: for every line
which has one, the line shows the new entry after the edit of the copy. -/
theorem C139_twiss_default_violated (h : Heap) (l : HLine) (hv : Valid h l) (k key : String) (v : ℚ) (a : ℕ)
    (hk : find l.extra k = some (.ref a)) :
    (step (copyLine h l).1 (copyLine h l).2 (.editExtra k key v)).1.at' a = put (h.at' a) key v := by
  obtain ⟨-, i2, -, -⟩ := copyElems_spec l.elems h fun e he => hv e.2 (.inr (.inr ⟨e.1, he⟩))
  have : (copyLine h l).1.at' a = h.at' a := i2 a (hv a (.inl ⟨k, find_mem hk⟩))
  have hk' : find (copyLine h l).2.extra k = some (.ref a) := hk
  simp only [step, editAt, hk', Heap.write, if_true, this]

example : see (step (copyLine sampleHeap sampleLine).1 (copyLine sampleHeap sampleLine).2 (.editExtra "twiss_default" "reverse" 1)).1 sampleLine
    ≠ see sampleHeap sampleLine := by
  simp [see, step, copyLine, copyElems, sampleHeap, sampleLine, editAt, find, Heap.write, put, Cell.see]

/-- **Violation.** The same for containers in the metadata. -/
theorem C139_metadata_violated (h : Heap) (l : HLine) (hv : Valid h l) (k key : String) (v : ℚ) (a : ℕ)
    (hk : find l.metadata k = some (.ref a)) :
    (step (copyLine h l).1 (copyLine h l).2 (.editMeta k key v)).1.at' a = put (h.at' a) key v := by
  obtain ⟨-, i2, -, -⟩ := copyElems_spec l.elems h fun e he => hv e.2 (.inr (.inr ⟨e.1, he⟩))
  have : (copyLine h l).1.at' a = h.at' a := i2 a (hv a (.inr (.inl ⟨k, find_mem hk⟩)))
  have hk' : find (copyLine h l).2.metadata k = some (.ref a) := hk
  simp only [step, editAt, hk', Heap.write, if_true, this]

end Verif.Saved
