import Verif.Composer.BuildProps

/-!
# C36: nested components
-/

namespace Verif.Composer

open Slicing (St getDrift rowLen isThick Grow Ext CacheOk getDrift_spec)

/-! ### Specification -/

mutual
  /-- The names of a tree without positions, in order; mirrored composers reversed. -/
  def contents (lines : String → Option (List String)) : List Comp → List String
    | [] => []
    | c :: cs => content lines c ++ contents lines cs

  /-- The names of one component without position. -/
  def content (lines : String → Option (List String)) : Comp → List String
    | .name n => (lines n).getD [n]
    | .place p => (lines p.name).getD [p.name]
    | .line names _ => names
    | .compose cs _ _ _ mirror _ => if mirror then (contents lines cs).reverse else contents lines cs
    | .seq cs => contents lines cs
end

mutual
  /-- No positions, no requested lengths. -/
  def plains (lines : String → Option (List String)) : List Comp → Prop
    | [] => True
    | c :: cs => plain lines c ∧ plains lines cs

  /-- One component without position (a `Place` of a line without `at` is allowed) and without requested length. -/
  def plain (lines : String → Option (List String)) : Comp → Prop
    | .name _ => True
    | .place p => p.at_ = none ∧ lines p.name ≠ none
    | .line _ pos => ∀ p, pos = some p → p.at_ = none
    | .compose cs _ _ length _ pos => plains lines cs ∧ length = none ∧ ∀ p, pos = some p → p.at_ = none
    | .seq cs => plains lines cs
end

/-! ### Trees without positions -/

theorem expandLine_plain (st : St) (refer : Anchor) (names : List String) (pos : Option Pos) (h : ∀ p, pos = some p → p.at_ = none) :
    expandLine st refer names pos = some (names.map Entry.str) := by
  unfold expandLine
  cases pos with
  | none => rfl
  | some p =>
    cases names with
    | nil => rfl
    | cons n rest => simp only [h p rfl]

theorem assemble_plain (sort : List (Item Nat) → List (Item Nat)) (refer : Anchor) (tol : ℝ) (mirror : Bool) (st : St)
    (names : List String) : assemble sort refer tol none mirror st (names.map Entry.str) =
      some (st, if mirror then names.reverse else names) := by
  have hall : (names.map Entry.str).all Entry.isStr = true := by
    rw [List.all_map, List.all_eq_true]; intro x _; rfl
  have hnames : (names.map Entry.str).map (fun e => e.toPlace.name) = names := by
    rw [List.map_map]; exact List.map_id _
  unfold assemble
  simp only [hall, hnames, if_true, Option.map_some]

mutual
  theorem flatten_plain (sort : List (Item Nat) → List (Item Nat)) (lines : String → Option (List String)) (refer : Anchor) (st : St) :
      ∀ cs : List Comp, plains lines cs → flatten sort lines refer st cs = some (st, (contents lines cs).map Entry.str)
    | [], _ => rfl
    | c :: cs, h => by
      rw [flatten, flattenOne_plain sort lines refer st c h.1]
      simp only [flatten_plain sort lines refer st cs h.2, Option.map_some, contents, List.map_append]

  theorem flattenOne_plain (sort : List (Item Nat) → List (Item Nat)) (lines : String → Option (List String)) (refer : Anchor) (st : St) :
      ∀ c : Comp, plain lines c → flattenOne sort lines refer st c = some (st, (content lines c).map Entry.str)
    | .name n, _ => by
      rw [flattenOne, content]
      cases h : lines n with
      | none => rfl
      | some names => simp only [expandLine_plain st refer names none (by simp), Option.map_some, Option.getD_some]
    | .place p, hp => by
      rw [plain] at hp
      rw [flattenOne, content]
      cases h : lines p.name with
      | none => exact absurd h hp.2
      | some names =>
        simp only [Option.getD_some]
        rw [expandLine_plain st refer names _ (by intro q hq; rw [Option.some.injEq] at hq; rw [← hq]; exact hp.1)]
        rfl
    | .line names pos, hp => by
      rw [plain] at hp
      rw [flattenOne, content, expandLine_plain st refer names pos hp]
      rfl
    | .compose cs refer' tol length mirror pos, hp => by
      rw [plain] at hp
      obtain ⟨h1, rfl, h3⟩ := hp
      rw [flattenOne, content, flatten_plain sort lines refer' st cs h1]
      simp only [assemble_plain, expandLine_plain st refer _ pos h3, Option.map_some]
    | .seq cs, hp => by
      rw [plain] at hp
      rw [flattenOne, content, flatten_plain sort lines refer st cs hp]
end

/-- C36: a tree of names, lists, lines and composers without positions gives the concatenation of the element names in order, mirrored
parts reversed; the environment is not changed. -/
theorem C36_concatenation (sort : List (Item Nat) → List (Item Nat)) (lines : String → Option (List String)) (cs : List Comp)
    (refer : Anchor) (tol : ℝ) (mirror : Bool) (st : St) (h : plains lines cs) :
    build sort lines cs refer tol none mirror st =
      some (st, if mirror then (contents lines cs).reverse else contents lines cs) := by
  unfold build
  rw [flatten_plain sort lines refer st cs h]
  exact assemble_plain sort refer tol mirror st _

/-- C36: a mirrored composer gives the reversed line. -/
theorem C36_mirror (sort : List (Item Nat) → List (Item Nat)) (lines : String → Option (List String)) (cs : List Comp)
    (refer : Anchor) (tol : ℝ) (length : Option ℝ) (st : St) :
    build sort lines cs refer tol length true st =
      (build sort lines cs refer tol length false st).map (fun t => (t.1, t.2.reverse)) := by
  unfold build
  cases flatten sort lines refer st cs with
  | none => rfl
  | some t =>
    obtain ⟨st1, es⟩ := t
    simp only [assemble, if_true, Bool.false_eq_true, if_false, Option.map_map]
    rfl

/-- C36: nesting a composer is the same as building it first and using the line. -/
theorem C36_nested (sort : List (Item Nat) → List (Item Nat)) (lines : String → Option (List String)) (cs sub : List Comp)
    (refer refer' : Anchor) (tol tol' : ℝ) (length length' : Option ℝ) (mirror mirror' : Bool) (pos : Option Pos) (st st1 : St)
    (names : List String) (hb : build sort lines sub refer' tol' length' mirror' st = some (st1, names)) :
    build sort lines (.compose sub refer' tol' length' mirror' pos :: cs) refer tol length mirror st =
      build sort lines (.line names pos :: cs) refer tol length mirror st1 := by
  unfold build at hb
  unfold build
  rw [flatten, flatten, flattenOne, flattenOne]
  cases hf : flatten sort lines refer' st sub with
  | none => rw [hf] at hb; cases hb
  | some t =>
    obtain ⟨st0, es⟩ := t
    rw [hf] at hb
    simp only at hb ⊢
    rw [hb]

/-- C36: the name of a line stands for the line, in a `Place` or not. -/
theorem C36_by_name (sort : List (Item Nat) → List (Item Nat)) (lines : String → Option (List String)) (cs1 cs2 : List Comp)
    (refer : Anchor) (tol : ℝ) (length : Option ℝ) (mirror : Bool) (st : St) (n : String) (names : List String) (h : lines n = some names) :
    build sort lines (cs1 ++ .name n :: cs2) refer tol length mirror st =
        build sort lines (cs1 ++ .line names none :: cs2) refer tol length mirror st ∧
      ∀ at_ from_ anchor fromAnchor,
        build sort lines (cs1 ++ .place ⟨n, at_, from_, anchor, fromAnchor⟩ :: cs2) refer tol length mirror st =
          build sort lines (cs1 ++ .line names (some ⟨at_, from_, anchor, fromAnchor⟩) :: cs2) refer tol length mirror st := by
  have key : ∀ (c c' : Comp), (∀ s, flattenOne sort lines refer s c = flattenOne sort lines refer s c') → ∀ (l : List Comp) (s : St),
      flatten sort lines refer s (l ++ c :: cs2) = flatten sort lines refer s (l ++ c' :: cs2) := by
    intro c c' hc l
    induction l with
    | nil => intro s; rw [List.nil_append, List.nil_append, flatten, flatten, hc]
    | cons a l ih =>
      intro s
      rw [List.cons_append, List.cons_append, flatten, flatten]
      cases flattenOne sort lines refer s a with
      | none => rfl
      | some t => obtain ⟨s1, es⟩ := t; simp only [ih]
  constructor
  · unfold build
    rw [key _ (.line names none) (fun s => by rw [flattenOne, flattenOne, h])]
  · intro a f an fa
    unfold build
    rw [key _ (.line names (some ⟨a, f, an, fa⟩)) (fun s => by rw [flattenOne, flattenOne, h])]

/-! ### The environment only grows -/

theorem fill_grow (tol : ℝ) (rows : List Placed) : ∀ (st : St) (e : ℝ) (st' : St) (names : List String),
    CacheOk st → fill tol st e rows = some (st', names) → Grow st.dict st'.dict ∧ CacheOk st' := by
  induction rows with
  | nil =>
    intro st e st' names hc h
    simp only [fill, Option.some.injEq, Prod.mk.injEq] at h
    obtain ⟨rfl, -⟩ := h
    exact ⟨Grow.refl _, hc⟩
  | cons r rows ih =>
    intro st e st' names hc h
    rw [fill] at h
    split at h
    · split at h
      · cases h
      · rw [Option.map_eq_some_iff] at h
        obtain ⟨⟨st1, ns⟩, h, hpair⟩ := h
        simp only [Prod.mk.injEq] at hpair
        obtain ⟨rfl, -⟩ := hpair
        obtain ⟨hg, hc1, -⟩ := getDrift_spec st (r.s - e) hc
        obtain ⟨hg', hc'⟩ := ih _ _ _ _ hc1 h
        exact ⟨hg.trans hg', hc'⟩
    · rw [Option.map_eq_some_iff] at h
      obtain ⟨⟨st1, ns⟩, h, hpair⟩ := h
      simp only [Prod.mk.injEq] at hpair
      obtain ⟨rfl, -⟩ := hpair
      exact ih _ _ _ _ hc h

theorem generate_grow (tol : ℝ) (length : Option ℝ) (st : St) (rows : List Placed) (st' : St) (names : List String)
    (hc : CacheOk st) (h : generate tol length st rows = some (st', names)) : Grow st.dict st'.dict ∧ CacheOk st' := by
  unfold generate at h
  split at h
  · split at h
    · split at h
      · simp only [Option.some.injEq, Prod.mk.injEq] at h
        obtain ⟨rfl, -⟩ := h
        obtain ⟨hg, hc1, -⟩ := getDrift_spec st _ hc
        exact ⟨hg, hc1⟩
      · simp only [Option.some.injEq, Prod.mk.injEq] at h
        obtain ⟨rfl, -⟩ := h
        exact ⟨Grow.refl _, hc⟩
    · simp only [Option.some.injEq, Prod.mk.injEq] at h
      obtain ⟨rfl, -⟩ := h
      exact ⟨Grow.refl _, hc⟩
  · split at h
    · cases h
    · next st1 ns hf =>
      obtain ⟨hg, hc1⟩ := fill_grow tol rows st 0 st1 ns hc hf
      split at h
      · simp only [Option.some.injEq, Prod.mk.injEq] at h
        obtain ⟨rfl, -⟩ := h
        exact ⟨hg, hc1⟩
      · split at h
        · cases h
        · split at h
          · simp only [Option.some.injEq, Prod.mk.injEq] at h
            obtain ⟨rfl, -⟩ := h
            obtain ⟨hg2, hc2, -⟩ := getDrift_spec st1 _ hc1
            exact ⟨hg.trans hg2, hc2⟩
          · simp only [Option.some.injEq, Prod.mk.injEq] at h
            obtain ⟨rfl, -⟩ := h
            exact ⟨hg, hc1⟩

theorem assemble_grow (sort : List (Item Nat) → List (Item Nat)) (refer : Anchor) (tol : ℝ) (length : Option ℝ) (mirror : Bool)
    (st st' : St) (es : List Entry) (names : List String) (hc : CacheOk st)
    (h : assemble sort refer tol length mirror st es = some (st', names)) : Grow st.dict st'.dict ∧ CacheOk st' := by
  unfold assemble at h
  simp only at h
  rw [Option.map_eq_some_iff] at h
  obtain ⟨⟨st1, ns⟩, h, hpair⟩ := h
  simp only [Prod.mk.injEq] at hpair
  obtain ⟨rfl, -⟩ := hpair
  split at h
  · split at h
    · simp only [Option.some.injEq, Prod.mk.injEq] at h
      obtain ⟨rfl, -⟩ := h
      exact ⟨Grow.refl _, hc⟩
    · split at h
      · cases h
      · split at h
        · cases h
        · split at h
          · simp only [Option.some.injEq, Prod.mk.injEq] at h
            obtain ⟨rfl, -⟩ := h
            have hf := (Names.firstFree_spec Slicing.driftName Slicing.driftName_injective (Slicing.keys st.dict) (st.counter + 1)).2.1
            generalize Names.firstFree Slicing.driftName (Slicing.keys st.dict) (st.counter + 1) = i at hf ⊢
            refine ⟨Slicing.grow_cons _ _ _ hf (Slicing.notMarker_numbered _ _), ?_⟩
            intro x n hx
            exact Slicing.ext_cons _ _ _ hf _ _ (hc x n hx)
          · simp only [Option.some.injEq, Prod.mk.injEq] at h
            obtain ⟨rfl, -⟩ := h
            exact ⟨Grow.refl _, hc⟩
  · unfold buildPlaces at h
    split at h
    · cases h
    · split at h
      · cases h
      · split at h
        · cases h
        · exact generate_grow _ _ _ _ _ _ hc h

mutual
  theorem flatten_grow (sort : List (Item Nat) → List (Item Nat)) (lines : String → Option (List String)) (refer : Anchor) (st st' : St)
      (hc : CacheOk st) : ∀ (cs : List Comp) (es : List Entry), flatten sort lines refer st cs = some (st', es) →
      Grow st.dict st'.dict ∧ CacheOk st'
    | [], es, h => by
      rw [flatten] at h
      simp only [Option.some.injEq, Prod.mk.injEq] at h
      obtain ⟨rfl, -⟩ := h
      exact ⟨Grow.refl _, hc⟩
    | c :: cs, es, h => by
      rw [flatten] at h
      cases h1 : flattenOne sort lines refer st c with
      | none => rw [h1] at h; cases h
      | some t =>
        obtain ⟨st1, es1⟩ := t
        rw [h1] at h
        simp only at h
        obtain ⟨hg, hc1⟩ := flattenOne_grow sort lines refer st st1 hc c es1 h1
        rw [Option.map_eq_some_iff] at h
        obtain ⟨⟨st2, es2⟩, h2, hpair⟩ := h
        simp only [Prod.mk.injEq] at hpair
        obtain ⟨rfl, -⟩ := hpair
        obtain ⟨hg2, hc2⟩ := flatten_grow sort lines refer st1 st2 hc1 cs es2 h2
        exact ⟨hg.trans hg2, hc2⟩

  theorem flattenOne_grow (sort : List (Item Nat) → List (Item Nat)) (lines : String → Option (List String)) (refer : Anchor)
      (st st' : St) (hc : CacheOk st) : ∀ (c : Comp) (es : List Entry), flattenOne sort lines refer st c = some (st', es) →
      Grow st.dict st'.dict ∧ CacheOk st'
    | .name n, es, h => by
      rw [flattenOne] at h
      split at h
      · rw [Option.map_eq_some_iff] at h
        obtain ⟨l, -, hpair⟩ := h
        simp only [Prod.mk.injEq] at hpair
        obtain ⟨rfl, -⟩ := hpair
        exact ⟨Grow.refl _, hc⟩
      · simp only [Option.some.injEq, Prod.mk.injEq] at h
        obtain ⟨rfl, -⟩ := h
        exact ⟨Grow.refl _, hc⟩
    | .place p, es, h => by
      rw [flattenOne] at h
      split at h
      · rw [Option.map_eq_some_iff] at h
        obtain ⟨l, -, hpair⟩ := h
        simp only [Prod.mk.injEq] at hpair
        obtain ⟨rfl, -⟩ := hpair
        exact ⟨Grow.refl _, hc⟩
      · simp only [Option.some.injEq, Prod.mk.injEq] at h
        obtain ⟨rfl, -⟩ := h
        exact ⟨Grow.refl _, hc⟩
    | .line names pos, es, h => by
      rw [flattenOne, Option.map_eq_some_iff] at h
      obtain ⟨l, -, hpair⟩ := h
      simp only [Prod.mk.injEq] at hpair
      obtain ⟨rfl, -⟩ := hpair
      exact ⟨Grow.refl _, hc⟩
    | .compose cs refer' tol length mirror pos, es, h => by
      rw [flattenOne] at h
      cases h1 : flatten sort lines refer' st cs with
      | none => rw [h1] at h; cases h
      | some t =>
        obtain ⟨st1, es1⟩ := t
        rw [h1] at h
        simp only at h
        obtain ⟨hg, hc1⟩ := flatten_grow sort lines refer' st st1 hc cs es1 h1
        cases h2 : assemble sort refer' tol length mirror st1 es1 with
        | none => rw [h2] at h; cases h
        | some t =>
          obtain ⟨st2, ns⟩ := t
          rw [h2] at h
          simp only at h
          obtain ⟨hg2, hc2⟩ := assemble_grow sort refer' tol length mirror st1 st2 es1 ns hc1 h2
          rw [Option.map_eq_some_iff] at h
          obtain ⟨l, -, hpair⟩ := h
          simp only [Prod.mk.injEq] at hpair
          obtain ⟨rfl, -⟩ := hpair
          exact ⟨hg.trans hg2, hc2⟩
    | .seq cs, es, h => by
      rw [flattenOne] at h
      exact flatten_grow sort lines refer st st' hc cs es h
end

/-- C34, C36: building a line, whatever its components, changes nothing that was in the environment. -/
theorem C36_environment_kept (sort : List (Item Nat) → List (Item Nat)) (lines : String → Option (List String)) (cs : List Comp)
    (refer : Anchor) (tol : ℝ) (length : Option ℝ) (mirror : Bool) (st st' : St) (names : List String) (hc : CacheOk st)
    (h : build sort lines cs refer tol length mirror st = some (st', names)) : Ext st.dict st'.dict ∧ CacheOk st' := by
  unfold build at h
  cases hf : flatten sort lines refer st cs with
  | none => rw [hf] at h; cases h
  | some t =>
    obtain ⟨st1, es⟩ := t
    rw [hf] at h
    simp only at h
    obtain ⟨hg, hc1⟩ := flatten_grow sort lines refer st st1 hc cs es hf
    obtain ⟨hg2, hc2⟩ := assemble_grow sort refer tol length mirror st1 st' es names hc1 h
    exact ⟨hg.1.trans hg2.1, hc2⟩

/-! ### Placed lines -/

theorem flatten_append (sort : List (Item Nat) → List (Item Nat)) (lines : String → Option (List String)) (refer : Anchor)
    (cs1 cs2 : List Comp) : ∀ st st' es, flatten sort lines refer st (cs1 ++ cs2) = some (st', es) →
    ∃ st1 es1 es2, flatten sort lines refer st cs1 = some (st1, es1) ∧ flatten sort lines refer st1 cs2 = some (st', es2) ∧
      es = es1 ++ es2 := by
  induction cs1 with
  | nil => intro st st' es h; exact ⟨st, [], es, rfl, h, rfl⟩
  | cons c cs ih =>
    intro st st' es h
    rw [List.cons_append, flatten] at h
    rw [flatten]
    cases h1 : flattenOne sort lines refer st c with
    | none => rw [h1] at h; cases h
    | some t =>
      obtain ⟨st1, l⟩ := t
      rw [h1] at h
      simp only at h ⊢
      rw [Option.map_eq_some_iff] at h
      obtain ⟨⟨st2, l2⟩, h2, hpair⟩ := h
      simp only [Prod.mk.injEq] at hpair
      obtain ⟨rfl, rfl⟩ := hpair
      obtain ⟨st3, es1, es2, e1, e2, e3⟩ := ih st1 st2 l2 h2
      refine ⟨st3, l ++ es1, es2, by rw [e1]; rfl, e2, by rw [e3, List.append_assoc]⟩

theorem Grow.lenOf {st st' : St} (h : Grow st.dict st'.dict) {n : String} {l : ℝ} (hl : rowLen st.dict n = some l) :
    lenOf st' n = l := by
  unfold Composer.lenOf
  rw [h.1.rowLen hl]; rfl

/-- Starts of the elements of a block that follow each other. -/
theorem block_starts (ps : List Place) (len : String → ℝ) (refer : Anchor) (s : Nat → ℝ) (hd : Demands ps len refer s) (i : Nat)
    (names : List String) (h : ∀ (j : Nat) (n : String), names[j]? = some n → ∃ p, ps[i + j]? = some p ∧ p.name = n ∧ (0 < j → p.at_ = none)) :
    ∀ j, j < names.length → s (i + j) = s i + ((names.take j).map len).sum := by
  intro j
  induction j with
  | zero => intro _; simp
  | succ j ih =>
    intro hj
    obtain ⟨p, hp, -, ha⟩ := h (j + 1) _ (List.getElem?_eq_getElem hj)
    obtain ⟨q, hq, hqn, -⟩ := h j _ (List.getElem?_eq_getElem (by omega))
    have hdp := hd (i + (j + 1)) p hp
    simp only [ha (by omega)] at hdp
    have := hdp.2 q (by omega) (by rw [show i + (j + 1) - 1 = i + j by omega]; exact hq)
    rw [show i + (j + 1) - 1 = i + j by omega, hqn] at this
    rw [this, ih (by omega), List.take_succ, List.getElem?_eq_getElem (by omega)]
    simp only [Option.toList_some, List.map_append, List.map_cons, List.map_nil, List.sum_append, List.sum_cons, List.sum_nil]
    ring

theorem totalLen_sum (st : St) (names : List String) (T : ℝ) (h : totalLen st names = some T) :
    T = (names.map (lenOf st)).sum ∧ ∀ n ∈ names, rowLen st.dict n = some (lenOf st n) := by
  induction names generalizing T with
  | nil => simp only [totalLen, Option.some.injEq] at h; simp [← h]
  | cons n l ih =>
    simp only [totalLen] at h
    split at h
    · next u v hu hv =>
      obtain ⟨h1, h2⟩ := ih v hv
      simp only [Option.some.injEq] at h
      refine ⟨by rw [← h, List.map_cons, List.sum_cons, ← h1, lenOf, hu]; rfl, ?_⟩
      intro m hm
      rcases List.mem_cons.mp hm with rfl | hm
      · rw [lenOf, hu]; rfl
      · exact h2 m hm
    · cases h

/-- C36: a line placed at a position is shifted as a whole: its elements follow each other, and its anchor is at
the requested position (relative to the reference component when there is one).  `es1`, `es2` are the
components before and after it. -/
theorem C36_placed_line (sort : List (Item Nat) → List (Item Nat)) (hp : PySort (cmpLt (1 / 10 ^ 10)) sort)
    (lines : String → Option (List String)) (cs1 cs2 : List Comp) (names : List String) (pos : Pos) (a : ℝ) (refer : Anchor)
    (tol : ℝ) (h0 : 0 ≤ tol) (length : Option ℝ) (st st' : St) (out : List String) (hc : CacheOk st) (hne : names ≠ [])
    (ha : pos.at_ = some a) (h : build sort lines (cs1 ++ .line names (some pos) :: cs2) refer tol length false st = some (st', out)) :
    ∃ (ps1 block ps2 : List Place) (s : Nat → ℝ) (order : List Nat) (marks : List (String × Bool)) (len : String → ℝ),
      out = marks.map (fun m => m.1) ∧ IsLine tol (ps1 ++ block ++ ps2) s order st' marks ∧
      Demands (ps1 ++ block ++ ps2) len refer s ∧ block.map (fun p => p.name) = names ∧
      (∀ p ∈ ps1 ++ block ++ ps2, rowLen st'.dict p.name = some (len p.name)) ∧
      (∀ j < names.length, s (ps1.length + j) = s ps1.length + ((names.take j).map len).sum) ∧
      (pos.from_ = none → anchorPos (pos.anchor.getD refer) (s ps1.length) (names.map len).sum = a) ∧
      (∀ f, pos.from_ = some f → ∃ (j : Nat) (q : Place), (ps1 ++ block ++ ps2)[j]? = some q ∧ q.name = f ∧
        anchorPos (pos.anchor.getD refer) (s ps1.length) (names.map len).sum = anchorPos (pos.fromAnchor.getD refer) (s j) (len f) + a) := by
  unfold build at h
  cases hf : flatten sort lines refer st (cs1 ++ .line names (some pos) :: cs2) with
  | none => rw [hf] at h; cases h
  | some t =>
  obtain ⟨st3, es⟩ := t
  rw [hf] at h
  simp only at h
  obtain ⟨st1, es1, es2, e1, e2, rfl⟩ := flatten_append sort lines refer cs1 _ _ _ _ hf
  obtain ⟨hg1, hc1⟩ := flatten_grow sort lines refer st st1 hc cs1 es1 e1
  rw [flatten, flattenOne] at e2
  cases names with
  | nil => exact absurd rfl hne
  | cons n rest =>
  unfold expandLine at e2
  simp only [ha] at e2
  cases hT : totalLen st1 (n :: rest) with
  | none => rw [hT] at e2; cases e2
  | some L =>
  rw [hT] at e2
  simp only [Option.map_some] at e2
  rw [Option.map_eq_some_iff] at e2
  obtain ⟨⟨st2, es3⟩, e3, hpair⟩ := e2
  simp only [Prod.mk.injEq] at hpair
  obtain ⟨rfl, rfl⟩ := hpair
  obtain ⟨hg2, hc2⟩ := flatten_grow sort lines refer st1 st2 hc1 cs2 es3 e3
  set p0 : Place := ⟨n, some (a - offset (pos.anchor.getD refer) L), pos.from_, some .start, pos.fromAnchor⟩ with hp0
  have hns : ¬ (es1 ++ ((Entry.place p0 :: rest.map Entry.str) ++ es3)).all Entry.isStr = true := by
    rw [List.all_eq_true]
    intro hcon
    have := hcon (.place p0) (by simp)
    simp [Entry.isStr] at this
  unfold assemble at h
  rw [if_neg hns] at h
  simp only [Bool.false_eq_true, if_false] at h
  rw [Option.map_eq_some_iff] at h
  obtain ⟨⟨st4, out'⟩, h, hpair⟩ := h
  simp only [Prod.mk.injEq] at hpair
  obtain ⟨rfl, rfl⟩ := hpair
  set block : List Place := p0 :: rest.map (fun m => (⟨m, none, none, none, none⟩ : Place)) with hb
  have hps : (es1 ++ ((Entry.place p0 :: rest.map Entry.str) ++ es3)).map Entry.toPlace =
      es1.map Entry.toPlace ++ block ++ es3.map Entry.toPlace := by
    simp [hb, Entry.toPlace, Function.comp_def]
  rw [hps] at h
  obtain ⟨s, order, marks, hd, hout, hline, hext, -⟩ := C34_line sort hp refer tol h0 length st2 st4 _ out' hc2 h
  have hknown : ∀ p ∈ es1.map Entry.toPlace ++ block ++ es3.map Entry.toPlace, rowLen st4.dict p.name = some (lenOf st2 p.name) := by
    unfold buildPlaces at h
    split at h
    · cases h
    · next hm =>
      push Not at hm
      intro p hp'
      obtain ⟨l, hl⟩ := Option.ne_none_iff_exists'.mp (hm p hp')
      rw [hext.rowLen hl, lenOf, hl]; rfl
  obtain ⟨hsum, hlens⟩ := totalLen_sum st1 (n :: rest) L hT
  have hmap : (n :: rest).map (lenOf st2) = (n :: rest).map (lenOf st1) := by
    apply List.map_congr_left
    intro m hm
    exact Grow.lenOf hg2 (hlens m hm)
  have hblock : ∀ j, (es1.map Entry.toPlace ++ block ++ es3.map Entry.toPlace)[(es1.map Entry.toPlace).length + j]? =
      (block ++ es3.map Entry.toPlace)[j]? := by
    intro j
    rw [List.append_assoc, List.getElem?_append_right (by omega), Nat.add_sub_cancel_left]
  refine ⟨es1.map Entry.toPlace, block, es3.map Entry.toPlace, s, order, marks, lenOf st2, hout, hline, hd, ?_, hknown, ?_, ?_, ?_⟩
  · simp [hb, hp0, Function.comp_def]
  · apply block_starts _ _ _ s hd
    intro j m hj
    have hjl : j < block.length := by
      have := lt_of_getElem? hj
      simpa [hb] using this
    rw [hblock, List.getElem?_append_left hjl]
    cases j with
    | zero =>
      simp only [List.getElem?_cons_zero, Option.some.injEq] at hj
      exact ⟨p0, rfl, hj, fun hlt => absurd hlt (lt_irrefl _)⟩
    | succ j =>
      rw [List.getElem?_cons_succ] at hj
      exact ⟨⟨m, none, none, none, none⟩, by rw [hb, List.getElem?_cons_succ, List.getElem?_map, hj]; rfl, rfl, fun _ => rfl⟩
  · intro hfn
    have := hd (es1.map Entry.toPlace).length p0 (by rw [← Nat.add_zero (es1.map Entry.toPlace).length, hblock]; rfl)
    simp only [hp0, hfn, Option.getD_some, anchorPos_eq, offset] at this
    rw [hmap, ← hsum, anchorPos_eq]
    simp only [offset] at *
    linarith
  · intro f hff
    have := hd (es1.map Entry.toPlace).length p0 (by rw [← Nat.add_zero (es1.map Entry.toPlace).length, hblock]; rfl)
    simp only [hp0, hff, Option.getD_some, anchorPos_eq] at this
    obtain ⟨j, q, hq, hqn, hj⟩ := this
    refine ⟨j, q, hq, hqn, ?_⟩
    rw [hmap, ← hsum, ← hqn, anchorPos_eq, anchorPos_eq]
    have e : offset Anchor.start (lenOf st2 n) = 0 := rfl
    linarith

/-! ### Cases that meet the hypotheses -/

/-- A quadrupole of 2 m and a marker. -/
noncomputable def sampleEnv : St := ⟨[("q", .body Slicing.driftKind 2), ("m", .thin)], [], 0⟩

theorem sampleEnv_cacheOk : CacheOk sampleEnv := by
  intro l n h
  simp [sampleEnv, Slicing.cacheGet] at h

theorem sample_q : rowLen sampleEnv.dict "q" = some 2 := by
  simp [sampleEnv, rowLen, Slicing.baseEl, Slicing.baseName, Slicing.get, Slicing.elLen]

theorem sample_m : rowLen sampleEnv.dict "m" = some 0 := by
  simp [sampleEnv, rowLen, Slicing.baseEl, Slicing.baseName, Slicing.get, Slicing.elLen]

/-- The marker at 5 m and the quadrupole with its center 2 m before it, given in that order, in a line of 7 m. -/
def samplePlaces : List Place := [absAt "m" 5, relTo "q" "m" (-2)]

theorem sample_resolve : resolve samplePlaces (lenOf sampleEnv) .center = some [⟨"m", 5, none⟩, ⟨"q", 2, some (0, none)⟩] := by
  simp [resolve, Place.consistent, samplePlaces, absAt, relTo, outer, init, scanAll, visit, position, RSt.put, unresolved, List.range,
    List.range.loop, offset, Nat.lt_succ_iff, Nat.le_succ_iff, lenOf, sample_q, sample_m]
  norm_num

open Classical in
theorem sample_sort : sortPlaces (isort (cmpLt (1 / 10 ^ 10))) (1 / 10 ^ 10) false
    (toItems sampleEnv [⟨"m", 5, none⟩, ⟨"q", 2, some (0, none)⟩]) =
      some [⟨1, 2, true, 2, some 0, none⟩, ⟨0, 0, false, 5, none, none⟩] := by
  have hq : isThick sampleEnv.dict "q" = some true := by
    simp [sampleEnv, isThick, Slicing.baseEl, Slicing.baseName, Slicing.get]
  have hm : isThick sampleEnv.dict "m" = some false := by
    simp [sampleEnv, isThick, Slicing.baseEl, Slicing.baseName, Slicing.get]
  have hi : toItems sampleEnv [⟨"m", 5, none⟩, ⟨"q", 2, some (0, none)⟩] =
      [⟨0, 0, false, 5, none, none⟩, ⟨1, 2, true, 2, some 0, none⟩] := by
    simp [toItems, lenOf, sample_q, sample_m, hq, hm]
  rw [hi]
  have hg : groupSameS (1 / 10 ^ 10) (isort (cmpLt (1 / 10 ^ 10))
      [(⟨0, 0, false, 5, none, none⟩ : Item Nat), ⟨1, 2, true, 2, some 0, none⟩]) =
        [[⟨1, 2, true, 2, some 0, none⟩], [⟨0, 0, false, 5, none, none⟩]] := by
    norm_num [isort, insertSorted, cmpLt, Item.center, groupSameS, groupAux, Item.isThick, Item.stop]
  unfold sortPlaces
  rw [hg]
  simp [orderGroups, orderGroup]

open Classical in
/-- The hypotheses of `C34_line` and `C34_no_overlap` are met by this line, with gaps before, between and after. -/
example : CacheOk sampleEnv ∧ PySort (cmpLt (1 / 10 ^ 10)) (isort (cmpLt (κ := Nat) (1 / 10 ^ 10))) ∧
    (∀ p ∈ samplePlaces, ∃ l : ℝ, 0 ≤ l ∧ rowLen sampleEnv.dict p.name = some l) ∧
    ∃ t, buildPlaces (isort (cmpLt (1 / 10 ^ 10))) .center (1 / 10 ^ 6) (some 7) sampleEnv samplePlaces = some t := by
  have hk : ∀ p ∈ samplePlaces, ∃ l : ℝ, 0 ≤ l ∧ rowLen sampleEnv.dict p.name = some l := by
    intro p hp
    simp only [samplePlaces, List.mem_cons, List.not_mem_nil, or_false] at hp
    rcases hp with rfl | rfl
    · exact ⟨0, le_refl _, sample_m⟩
    · exact ⟨2, by norm_num, sample_q⟩
  refine ⟨sampleEnv_cacheOk, isort_pySort _, hk, ?_⟩
  unfold buildPlaces
  rw [if_neg (by push Not; intro p hp; obtain ⟨l, -, h⟩ := hk p hp; rw [h]; simp), sample_resolve]
  simp only [sample_sort]
  rw [← C34_validate (1 / 10 ^ 6) (by norm_num) (some 7)]
  simp [toPlaced, valid, lastEnd]
  norm_num

open Classical in
/-- A shorter requested length raises (`C34_raises_only`, third case). -/
example : buildPlaces (isort (cmpLt (1 / 10 ^ 10))) .center (1 / 10 ^ 6) (some 4) sampleEnv samplePlaces = none := by
  unfold buildPlaces
  rw [if_neg (by
    push Not
    intro p hp
    simp only [samplePlaces, List.mem_cons, List.not_mem_nil, or_false] at hp
    rcases hp with rfl | rfl
    · rw [show (absAt "m" 5).name = "m" from rfl, sample_m]; simp
    · rw [show (relTo "q" "m" (-2)).name = "q" from rfl, sample_q]; simp), sample_resolve]
  simp only [sample_sort]
  by_contra hne
  have := (C34_validate (1 / 10 ^ 6) (by norm_num) (some 4) sampleEnv _).mpr (Option.ne_none_iff_exists'.mp hne)
  simp [toPlaced, valid, lastEnd] at this
  norm_num at this

/-- A nested tree: a list in a mirrored composer, the name of a line, a line in a `Place` without position. -/
example : plains (fun n => if n = "arc" then some ["x", "y"] else none)
      [.compose [.name "a", .seq [.name "b", .name "arc"]] .center 0 none true none, .place ⟨"arc", none, none, none, none⟩, .line ["z"] none] ∧
    contents (fun n => if n = "arc" then some ["x", "y"] else none)
      [.compose [.name "a", .seq [.name "b", .name "arc"]] .center 0 none true none, .place ⟨"arc", none, none, none, none⟩, .line ["z"] none] =
        ["y", "x", "b", "a", "x", "y", "z"] := by
  simp [plains, plain, contents, content]

/-- The position of a placed line: 4 m long, centre at 10, so the second element (after 1 m) starts at 9. -/
example : (10 : ℝ) - offset (Option.getD none Anchor.center) 4 + 1 = 9 := by
  norm_num [offset]

end Verif.Composer
