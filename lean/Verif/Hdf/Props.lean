import Verif.Hdf.Model

/-!
# C189: tables survive HDF5 files
-/

namespace Verif.Hdf

variable {D J : Type}

/-! ## Specification -/

/-- A column which HDF5 can hold as it is: objects are all texts, or some are lists, arrays or dictionaries. -/
def Col.Ok : Col D J → Prop
  | .nums _ => True
  | .texts _ => True
  | .objs l => (∀ c ∈ l, ∃ s, c = .str s) ∨ ∃ j, Cell.nested j ∈ l

/-- An attribute which HDF5 can hold. -/
def Attr.Ok : Attr D J → Prop
  | .str s => ascii s = true
  | .texts _ => False
  | _ => True

structure Tab.Ok (t : Tab D J) : Prop where
  colNames : ∀ c ∈ t.cols, ascii c.1 = true
  attrNames : ∀ a ∈ t.attrs, ascii a.1 = true
  cols : ∀ c ∈ t.cols, c.2.Ok
  attrs : ∀ a ∈ t.attrs, a.2.Ok

/-! ## Lemmas -/

theorem all_map {A B : Type} (f : A → Except Err B) (g : A → B) (l : List A) (h : ∀ a ∈ l, f a = .ok (g a)) :
    all f l = .ok (l.map g) := by
  induction l with
  | nil => rfl
  | cons a as ih =>
    simp only [all, h a List.mem_cons_self, ih (fun b hb => h b (List.mem_cons_of_mem _ hb)), List.map_cons]

theorem all_error {A B : Type} (f : A → Except Err B) (l : List A) (a : A) (ha : a ∈ l) (h : ∀ b, f a ≠ .ok b) :
    ∀ bs, all f l ≠ .ok bs := by
  induction l with
  | nil => simp at ha
  | cons x xs ih =>
    intro bs
    rcases List.mem_cons.mp ha with rfl | ha
    · cases hf : f a with
      | error e => simp [all, hf]
      | ok b => exact absurd hf (h b)
    · cases hf : f x with
      | error e => simp [all, hf]
      | ok b =>
        cases hr : all f xs with
        | error e => simp [all, hf, hr]
        | ok cs => exact absurd hr (ih ha cs)

theorem col_round (c : Col D J) (h : c.Ok) : ∃ s, writeCol c = .ok s ∧ readCol s = c := by
  cases c with
  | nums l => exact ⟨_, rfl, rfl⟩
  | texts l => exact ⟨_, rfl, rfl⟩
  | objs l =>
    by_cases hn : needsJson l = true
    · refine ⟨.json (l.map .of), by simp [writeCol, hn], ?_⟩
      simp only [readCol, List.map_map]
      exact congrArg Col.objs (List.map_id l)
    · have hs : ∀ c ∈ l, ∃ s, c = .str s := by
        rcases h with h | ⟨j, hj⟩
        · exact h
        · exact absurd (List.any_eq_true.mpr ⟨_, hj, rfl⟩) hn
      let g : Cell D J → String := fun | .str s => s | _ => ""
      have ht : all cellText l = .ok (l.map g) := by
        apply all_map
        intro a ha
        obtain ⟨s, rfl⟩ := hs a ha
        rfl
      refine ⟨.texts true (l.map g), by simp [writeCol, hn, ht], ?_⟩
      simp only [readCol, List.map_map]
      refine congrArg Col.objs ((List.map_congr_left (g := id) ?_).trans (List.map_id l))
      intro a ha
      obtain ⟨s, rfl⟩ := hs a ha
      rfl

theorem attr_round (a : Attr D J) (h : a.Ok) : ∃ s, writeAttr a = .ok s ∧ readAttr s = a := by
  cases a with
  | num d => exact ⟨_, rfl, rfl⟩
  | str s =>
    have h : ascii s = true := h
    exact ⟨.str s, by simp [writeAttr, h], rfl⟩
  | nums l => exact ⟨_, rfl, rfl⟩
  | texts l => exact absurd h id
  | json j => exact ⟨_, rfl, rfl⟩

theorem named_round {A B : Type} (f : A → Except Err B) (r : B → A) (l : List (String × A))
    (h : ∀ x ∈ l, ∃ s, f x.2 = .ok s ∧ r s = x.2) :
    ∃ m, all (named f) l = .ok m ∧ m.map (fun c => (c.1, r c.2)) = l := by
  induction l with
  | nil => exact ⟨[], rfl, rfl⟩
  | cons x xs ih =>
    obtain ⟨s, h1, h2⟩ := h x List.mem_cons_self
    obtain ⟨m, h3, h4⟩ := ih (fun y hy => h y (List.mem_cons_of_mem _ hy))
    refine ⟨(x.1, s) :: m, by simp [all, named, h1, h3], ?_⟩
    simp [h2, h4]

theorem store_load (t : Tab D J) (h : t.Ok) : ∃ s, store t = .ok s ∧ load s = t := by
  obtain ⟨cs, h1, h2⟩ := named_round writeCol readCol t.cols (fun x hx => col_round x.2 (h.cols x hx))
  obtain ⟨as, h3, h4⟩ := named_round writeAttr readAttr t.attrs (fun x hx => attr_round x.2 (h.attrs x hx))
  have hc : (t.cols.all fun c => ascii c.1) = true := List.all_eq_true.mpr h.colNames
  have ha : (t.attrs.all fun c => ascii c.1) = true := List.all_eq_true.mpr h.attrNames
  cases he : t.attrs.isEmpty with
  | true =>
    refine ⟨⟨cs, none⟩, by simp [store, hc, h1, he], ?_⟩
    have : t.attrs = [] := List.isEmpty_iff.mp he
    obtain ⟨tc, ta⟩ := t
    simp only at this h2
    simp [load, h2, this]
  | false =>
    refine ⟨⟨cs, some as⟩, by simp [store, hc, h1, he, ha, h3], ?_⟩
    simp [load, h2, h4]

theorem lookup_putGroup (gs : List (String × Stored D J)) (g : String) (s : Stored D J) (k : String) :
    (putGroup gs g s).lookup k = if k = g then some s else gs.lookup k := by
  induction gs with
  | nil => simp only [putGroup, List.lookup_cons, List.lookup_nil]; split <;> simp_all
  | cons x xs ih =>
    obtain ⟨n, v⟩ := x
    simp only [putGroup]
    by_cases hx : n = g
    · subst hx
      rw [if_pos rfl, List.lookup_cons, List.lookup_cons]
      by_cases hk : k = n
      · simp [hk]
      · have : (k == n) = false := by simp [hk]
        simp [this, hk]
    · rw [if_neg hx, List.lookup_cons, List.lookup_cons, ih]
      by_cases hkx : k = n
      · subst hkx; simp [hx]
      · have : (k == n) = false := by simp [hkx]
        simp [this]

/-! ## C189 -/

/-- C189 (round trip): a table which can be held is written to any group of any file and read from it as it was. -/
theorem C189_group_partial (f : File D J) (how how' : How) (g : String) (t : Tab D J) (h : t.Ok) :
    (write f how (some g) t).1 = .ok () ∧ read (write f how (some g) t).2 how' (some g) = .ok t := by
  obtain ⟨s, h1, h2⟩ := store_load t h
  refine ⟨by simp [write, h1], ?_⟩
  simp only [write, h1, read, lookup_putGroup, if_true, h2]

/-- C189 (round trip): after writing to a path with a group (as a twiss table always does) the group need not be given
to read. -/
theorem C189_single_partial (f : File D J) (g : String) (t : Tab D J) (h : t.Ok) :
    read (write f .path (some g) t).2 .path none = .ok t := by
  obtain ⟨s, h1, h2⟩ := store_load t h
  simp [write, h1, read, candidates, putGroup, h2]

/-- C189 (other tables): writing a group of an open file changes no other group, whether it succeeds or not. -/
theorem C189_others (f : File D J) (g k : String) (hk : k ≠ g) (t : Tab D J) (how : How) :
    read (write f .handle (some g) t).2 how (some k) = read f how (some k) := by
  have hf : ∀ l : List (String × Stored D J), (l.filter fun x => decide (x.1 ≠ g)).lookup k = l.lookup k := by
    intro l
    induction l with
    | nil => rfl
    | cons x xs ih =>
      by_cases hx : x.1 = g
      · have hkx : (k == x.1) = false := by simp [hx, hk]
        rw [List.filter_cons_of_neg (by simp [hx]), ih, List.lookup_cons, hkx]
      · rw [List.filter_cons_of_pos (by simp [hx]), List.lookup_cons, List.lookup_cons, ih]
  cases hs : store t with
  | ok s => simp [write, hs, read, lookup_putGroup, hk]
  | error e => simp only [write, hs, read, hf]

/-- C189 (other tables): writing to a path, with whatever group, removes all other tables from the file. -/
theorem C189_path_replaces (f : File D J) (g k : String) (hk : k ≠ g) (t : Tab D J) (how : How) :
    read (write f .path (some g) t).2 how (some k) = .error .key := by
  cases hs : store t with
  | ok s => simp [write, hs, read, lookup_putGroup, hk]
  | error e => simp [write, hs, read]

/-- C189 (round trip), violated: what is written with the defaults of `Table.to_hdf5` (every table but twiss tables) cannot be
read with the defaults of `Table.from_hdf5`, nor by `xt.load`. -/
theorem C189_default_violated (f : File D J) (t : Tab D J) (h : t.Ok) :
    (write f .path none t).1 = .ok () ∧ read (write f .path none t).2 .path none = .error .value := by
  obtain ⟨s, h1, -⟩ := store_load t h
  refine ⟨by simp [write, h1], ?_⟩
  cases ha : s.attrs with
  | none => simp [write, h1, read, candidates, ha]
  | some a => simp [write, h1, read, candidates, ha]

/-- C189 (handles), violated: from an open file no table can be read without a group, although it is allowed. -/
theorem C189_handle_violated (f : File D J) : read f .handle none = .error .type := rfl

/-- C189 (values), violated: `None` in a column of texts comes back as the text `null`. -/
theorem C189_none_violated (f : File D J) (how : How) (g c : String) (hc : ascii c = true) (s : String) :
    read (write f how (some g) ⟨[(c, .objs [.str s, .none])], []⟩).2 .path (some g) =
      .ok ⟨[(c, .objs [.str s, .str "null"])], []⟩ := by
  have : store (⟨[(c, .objs [.str s, .none])], []⟩ : Tab D J) = .ok ⟨[(c, .texts true [s, "null"])], none⟩ := by
    simp [store, hc, all, named, writeCol, needsJson, cellText]
  simp [write, this, read, lookup_putGroup, load, readCol]

/-- C189 (values), violated: a table with a text attribute which is not ASCII, or an array of texts, cannot be
written; and the file which was there before is lost. -/
theorem C189_attribute_violated (f : File D J) (g : String) (t : Tab D J) (n : String) (a : Attr D J) (hm : (n, a) ∈ t.attrs)
    (ha : ¬ a.Ok) : (∃ e, (write f .path (some g) t).1 = .error e) ∧ (write f .path (some g) t).2 = ⟨none, []⟩ := by
  have hw : ∀ b, named writeAttr (n, a) ≠ .ok b := by
    intro b
    cases a with
    | num d => exact absurd trivial ha
    | str s =>
      have : ascii s = false := by
        cases hs : ascii s with
        | false => rfl
        | true => exact absurd hs ha
      simp [named, writeAttr, this]
    | nums l => exact absurd trivial ha
    | texts l => simp [named, writeAttr]
    | json j => exact absurd trivial ha
  have hs : ∃ e, store t = .error e := by
    cases hst : store t with
    | error e => exact ⟨e, rfl⟩
    | ok s =>
      exfalso
      have hne : t.attrs.isEmpty = false := by
        cases he : t.attrs with
        | nil => rw [he] at hm; simp at hm
        | cons x xs => rfl
      unfold store at hst
      split at hst
      · simp at hst
      · split at hst
        · simp at hst
        · rw [hne] at hst
          simp only [Bool.false_eq_true, if_false] at hst
          split at hst
          · simp at hst
          · split at hst
            · simp at hst
            · rename_i as h2
              exact all_error _ _ _ hm hw as h2
  obtain ⟨e, hs⟩ := hs
  refine ⟨⟨e, by simp [write, hs]⟩, by simp [write, hs]⟩

/-- A table with columns and attributes of all kinds. -/
example : (⟨[("name", .objs [.str "a", .str "b"]), ("s", .nums [0, 1]), ("w", .objs [.nested 7, .none])],
    [("method", .str "6d"), ("qx", .num 3), ("cov", .nums [1, 2]), ("co", .json 5)]⟩ : Tab Nat Nat).Ok where
  colNames := by decide
  attrNames := by decide
  cols := by
    intro c hc
    simp only [List.mem_cons, List.not_mem_nil, or_false] at hc
    rcases hc with rfl | rfl | rfl
    · exact .inl (by simp)
    · trivial
    · exact .inr ⟨7, by simp⟩
  attrs := by
    intro a ha
    simp only [List.mem_cons, List.not_mem_nil, or_false] at ha
    rcases ha with rfl | rfl | rfl | rfl
    · show ascii "6d" = true; decide
    · trivial
    · trivial
    · trivial

example : ¬ (Attr.str "é" : Attr Nat Nat).Ok := by show ¬ ascii "é" = true; decide

end Verif.Hdf
