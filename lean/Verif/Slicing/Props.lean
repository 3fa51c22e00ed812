import Verif.Slicing.Lemmas
import Mathlib.Data.List.Flatten

/-!
# C31: slicing a line
-/

namespace Verif.Slicing

/-! ## Lengths of the slices -/

/-- The elements have lengths, which add up to `x`. -/
def Total (d : Dict) (els : List El) (x : ℝ) : Prop := ∃ ls : List ℝ, els.map (elLen d) = ls.map some ∧ ls.sum = x

theorem total_nil (d : Dict) : Total d [] 0 := ⟨[], rfl, rfl⟩

theorem total_cons (d : Dict) (e : El) (els : List El) (l x : ℝ) (h : elLen d e = some l) (ht : Total d els x) :
    Total d (e :: els) (l + x) := by
  obtain ⟨ls, h1, h2⟩ := ht
  exact ⟨l :: ls, by simp only [List.map_cons, h, h1], by rw [List.sum_cons, h2]⟩

theorem total_append (d : Dict) (a b : List El) (x y : ℝ) (ha : Total d a x) (hb : Total d b y) : Total d (a ++ b) (x + y) := by
  obtain ⟨l1, h1, h2⟩ := ha
  obtain ⟨l2, h3, h4⟩ := hb
  exact ⟨l1 ++ l2, by simp only [List.map_append, h1, h3], by rw [List.sum_append, h2, h4]⟩

/-- What is known of the object being sliced. -/
structure Ctx.Ok (d : Dict) (c : Ctx) : Prop where
  body : ∃ b, bodyOf d c.parent = some b ∧ b.1 = c.kind ∧ c.len = b.2 * c.ew
  auto : c.auto = true → c.ew = 1

theorem ok_ext {d d' : Dict} (h : Ext d d') {c : Ctx} (hc : c.Ok d) : c.Ok d' := by
  obtain ⟨⟨b, h1, h2⟩, h3⟩ := hc
  exact ⟨⟨b, h.bodyOf h1, h2⟩, h3⟩

theorem elLen_drift (d : Dict) (c : Ctx) (hc : c.Ok d) (w off : ℝ) :
    elLen d (if c.auto then .body driftKind (c.len * w * c.ew) else .slice .drift c.parent (w * c.ew) off) = some (c.len * w) := by
  obtain ⟨⟨b, h1, h2, h3⟩, h4⟩ := hc
  split
  · rename_i ha
    rw [elLen, h4 ha, mul_one]
  · rw [elLen, h1, h3]
    simp only [Option.map_some, Option.some.injEq]
    ring

theorem elLen_thick (d : Dict) (c : Ctx) (hc : c.Ok d) (w off : ℝ) :
    elLen d (if c.auto then .body driftKind (c.len * w * c.ew) else .slice c.thickKind c.parent (w * c.ew) off) =
      some (c.len * w) := by
  obtain ⟨⟨b, h1, h2, h3⟩, h4⟩ := hc
  split
  · rename_i ha
    rw [elLen, h4 ha, mul_one]
  · unfold Ctx.thickKind
    split <;>
    · rw [elLen, h1, h3]
      simp only [Option.map_some, Option.some.injEq]
      ring

theorem thinEls_total (d : Dict) (c : Ctx) (hc : c.Ok d) (ws : List (ℝ × Bool)) (off : ℝ) :
    Total d (thinEls c ws off) (c.len * (driftPart ws).sum) := by
  induction ws generalizing off with
  | nil => simpa [thinEls, driftPart] using total_nil d
  | cons x r ih =>
    obtain ⟨w, b⟩ := x
    cases b with
    | true =>
      rw [thinEls]
      have : (driftPart ((w, true) :: r)).sum = w + (driftPart r).sum := by simp [driftPart]
      rw [this, mul_add]
      exact total_cons d _ _ _ _ (elLen_drift d c hc w off) (ih _)
    | false =>
      rw [thinEls]
      have : (driftPart ((w, false) :: r)).sum = (driftPart r).sum := by simp [driftPart]
      rw [this]
      split
      · rw [← zero_add (c.len * _)]
        exact total_cons d _ _ _ _ rfl (ih _)
      · exact ih _

theorem thickEls_total (d : Dict) (c : Ctx) (hc : c.Ok d) (ws : List (ℝ × Bool)) (off : ℝ) :
    Total d (thickEls c ws off) (c.len * (ws.map Prod.fst).sum) := by
  induction ws generalizing off with
  | nil => simpa [thickEls] using total_nil d
  | cons x r ih =>
    obtain ⟨w, b⟩ := x
    rw [thickEls]
    rw [List.map_cons, List.sum_cons, mul_add]
    exact total_cons d _ _ _ _ (elLen_thick d c hc w off) (ih _)

/-- The weights of a scheme, whatever it is: drifts add up to one; in thick mode there are only drifts; in thin mode the
element weights add up to one. -/
theorem iterWeights_spec (s : Scheme) (length : ℝ) (ws : List (ℝ × Bool)) (h : s.iterWeights length = some ws) :
    (driftPart ws).sum = 1 ∧ (s.mode = .thick → driftPart ws = ws.map Prod.fst ∧ elementPart ws = []) ∧
      (s.mode = .thin → (elementPart ws).sum = 1) := by
  unfold Scheme.iterWeights at h
  cases hd : s.driftWeights length with
  | none => rw [hd] at h; exact absurd h (by simp)
  | some ds =>
    cases he : s.elementWeights with
    | none => rw [hd, he] at h; exact absurd h (by simp)
    | some es =>
      rw [hd, he] at h
      simp only at h
      have hc := driftWeights_count s length ds hd
      obtain ⟨e1, e2⟩ := elementWeights_spec s es he
      have hall : ∀ l : List (ℝ × Bool), elementPart l = [] → driftPart l = l.map Prod.fst := by
        intro l hl
        unfold elementPart at hl
        unfold driftPart
        rw [List.filter_eq_self.mpr]
        intro e he
        by_contra hne
        have : e ∈ l.filter (fun e => !e.2) := List.mem_filter.mpr ⟨he, by simpa using hne⟩
        rw [List.map_eq_nil_iff.mp hl] at this
        exact absurd this (by simp)
      cases hm : s.mode with
      | thin =>
        have he' : ds.length = es.length + 1 := by
          rcases e2 with h2 | ⟨_, h2, _⟩
          · omega
          · rw [hm] at h2; exact absurd h2 (by simp)
        obtain ⟨l, h1, h2, h3, _⟩ := zipWeights_thin ds es he'
        rw [hm, h1] at h
        cases h
        refine ⟨by rw [h2]; exact driftWeights_sum s length ds hd, fun hx => absurd hx (by simp), fun _ => ?_⟩
        rw [h3]; exact e1
      | thick =>
        have he' : ds.length = es.length + 1 ∨ ds.length = es.length := by
          rcases e2 with h2 | ⟨h2, _, h3⟩
          · left; omega
          · right; rw [hc, h2, h3]; rfl
        obtain ⟨l, h1, h2, h3, _⟩ := zipWeights_thick ds es he'
        rw [hm, h1] at h
        cases h
        exact ⟨by rw [h2]; exact driftWeights_sum s length ds hd, fun _ => ⟨hall _ h3, h3⟩, fun hx => absurd hx (by simp)⟩

theorem edge_total (d : Dict) (has : Bool) (p : String) (off : ℝ) : Total d (edgeEls has p off) 0 := by
  unfold edgeEls
  cases has with
  | false => exact total_nil d
  | true => exact ⟨[0], rfl, by simp⟩

theorem block_total (d : Dict) (sch : Scheme) (c : Ctx) (hc : c.Ok d) (p : String) (edges : Bool) (ws : List (ℝ × Bool))
    (h : sch.iterWeights c.len = some ws) : Total d (blockEls sch c p edges ws) c.len := by
  obtain ⟨h1, h2, _⟩ := iterWeights_spec sch c.len ws h
  unfold blockEls
  have key : Total d (if sch.mode = .thin ∨ c.isDriftSlice = true then thinEls c ws 0 else thickEls c ws 0) c.len := by
    split
    · have := thinEls_total d c hc ws 0
      rwa [h1, mul_one] at this
    · rename_i hm
      have hmode : sch.mode = .thick := by
        cases hx : sch.mode with
        | thin => exact absurd (Or.inl hx) hm
        | thick => rfl
      have := thickEls_total d c hc ws 0
      rwa [← (h2 hmode).1, h1, mul_one] at this
  have := total_append d _ _ _ _ (edge_total d edges p 0) (total_append d _ _ _ _ key (edge_total d edges p c.len))
  rwa [zero_add, add_zero] at this

theorem withMarkers_total (d : Dict) (m : Bool) (els : List El) (x : ℝ) (h : Total d els x) : Total d (withMarkers m els) x := by
  unfold withMarkers
  cases m with
  | false => exact h
  | true =>
    have h2 := total_append d els [.thin] x 0 h ⟨[0], rfl, by simp⟩
    have := total_cons d .thin _ 0 _ rfl h2
    rwa [zero_add, add_zero] at this

theorem context_ok (d : Dict) (name : String) (c : Ctx) (h : context d name = some c) :
    c.Ok d ∧ rowLen d name = some c.len := by
  unfold context at h
  cases hb : baseName d name with
  | none => rw [hb] at h; exact absurd h (by simp)
  | some p =>
    rw [hb] at h
    simp only at h
    have hel : ∀ e, get d p = some e → rowLen d name = elLen d e := by
      intro e he
      unfold rowLen baseEl
      rw [hb]
      simp only [he]
    cases hg : get d p with
    | none => rw [hg] at h; exact absurd h (by simp)
    | some e =>
      rw [hg] at h
      rw [hel e hg]
      cases e with
      | thin => exact absurd h (by simp)
      | replica q => exact absurd h (by simp)
      | body k l =>
        simp only [Option.some.injEq] at h
        subst h
        refine ⟨⟨⟨(k, l), ?_, rfl, (mul_one l).symm⟩, fun _ => rfl⟩, rfl⟩
        unfold bodyOf
        rw [hg]
      | slice k q w o =>
        cases k with
        | thin => exact absurd h (by simp)
        | edge => exact absurd h (by simp)
        | thick =>
          simp only at h
          cases hq : bodyOf d q with
          | none => rw [hq] at h; exact absurd h (by simp)
          | some b =>
            rw [hq] at h
            simp only [Option.map_some, Option.some.injEq] at h
            subst h
            refine ⟨⟨⟨b, hq, rfl, rfl⟩, fun hx => absurd hx (by simp)⟩, ?_⟩
            rw [elLen, hq]
            rfl
        | drift =>
          simp only at h
          cases hq : bodyOf d q with
          | none => rw [hq] at h; exact absurd h (by simp)
          | some b =>
            rw [hq] at h
            simp only [Option.map_some, Option.some.injEq] at h
            subst h
            refine ⟨⟨⟨b, hq, rfl, rfl⟩, fun hx => absurd hx (by simp)⟩, ?_⟩
            rw [elLen, hq]
            rfl

theorem rowLen_of_get (d : Dict) (n : String) (e : El) (h : get d n = some e) (he : NotReplica e) : rowLen d n = elLen d e := by
  unfold rowLen baseEl baseName
  rw [h]
  cases e with
  | replica p => exact absurd he (by simp [NotReplica])
  | thin => simp only [h]
  | body k l => simp only [h]
  | slice k p w o => simp only [h]

theorem names_total (d : Dict) (ns : List String) (els : List El) (x : ℝ) (h : ns.map (get d) = els.map some)
    (ht : Total d els x) : ∃ ls : List ℝ, ns.map (rowLen d) = ls.map some ∧ ls.sum = x := by
  obtain ⟨ls, h1, h2⟩ := ht
  refine ⟨ls, ?_, h2⟩
  rw [← h1]
  clear h2
  induction ns generalizing els ls with
  | nil =>
    cases els with
    | nil => rfl
    | cons e els => exact absurd h (by simp)
  | cons n ns ih =>
    cases els with
    | nil => exact absurd h (by simp)
    | cons e els =>
      cases ls with
      | nil => exact absurd h1 (by simp)
      | cons l ls =>
        simp only [List.map_cons, List.cons.injEq] at h h1 ⊢
        refine ⟨?_, ih els h.2 ls h1.2⟩
        apply rowLen_of_get d n e h.1
        cases e with
        | replica p => exact absurd h1.1 (by simp [elLen])
        | thin => trivial
        | body k l => trivial
        | slice k p w o => trivial

/-- One row of the line. -/
theorem sliceRow_spec (markers : Bool) (strategies : List Strategy) (st st' : St) (tname name : String) (l : List String)
    (names : List String) (x : ℝ) (hc : CacheOk st) (hn : markers = true → NoClash st.dict names) (hm : name ∈ names)
    (hx : rowLen st.dict name = some x) (h : sliceRow markers strategies st tname name = some (st', l)) :
    Ext st.dict st'.dict ∧ CacheOk st' ∧ (markers = true → NoClash st'.dict names) ∧
      ∃ ls : List ℝ, l.map (rowLen st'.dict) = ls.map some ∧ ls.sum = x := by
  have same : some (st, [name]) = some (st', l) → Ext st.dict st'.dict ∧ CacheOk st' ∧
      (markers = true → NoClash st'.dict names) ∧ ∃ ls : List ℝ, l.map (rowLen st'.dict) = ls.map some ∧ ls.sum = x := by
    intro he
    simp only [Option.some.injEq, Prod.mk.injEq] at he
    obtain ⟨rfl, rfl⟩ := he
    exact ⟨Ext.refl _, hc, hn, [x], by simp [hx], by simp⟩
  unfold sliceRow at h
  split at h
  · split at h
    · exact same h
    · split at h
      · exact absurd h (by simp)
      · exact same h
      · rename_i sch _
        obtain ⟨h1, h2, h3, c, p, ws, h4, h5, h6, h7⟩ := sliceElement_spec markers sch st st' name l names hc hn hm h
        refine ⟨h1, h2, h3, ?_⟩
        obtain ⟨hok, hlen⟩ := context_ok st.dict name c h4
        rw [hx] at hlen
        cases hlen
        exact names_total st'.dict l _ _ h7 (withMarkers_total _ _ _ _ (block_total _ sch c (ok_ext h1 hok) p _ ws h6))
  · exact absurd h (by simp)

theorem lens_ext {d d' : Dict} (h : Ext d d') (ns : List String) (ls : List ℝ) (hl : ns.map (rowLen d) = ls.map some) :
    ns.map (rowLen d') = ls.map some := by
  induction ns generalizing ls with
  | nil => exact hl
  | cons n ns ih =>
    cases ls with
    | nil => exact absurd hl (by simp)
    | cons l ls =>
      simp only [List.map_cons, List.cons.injEq] at hl ⊢
      exact ⟨h.rowLen hl.1, ih ls hl.2⟩

theorem sliceLine_spec (markers : Bool) (strategies : List Strategy) (names : List String) (rows : List (String × String)) :
    ∀ (st st' : St) (blocks : List (List String)) (lens : List ℝ), CacheOk st →
      (markers = true → NoClash st.dict names) → (∀ r ∈ rows, r.2 ∈ names) →
      rows.map (fun r => rowLen st.dict r.2) = lens.map some →
      sliceLine markers strategies st rows = some (st', blocks) →
      Ext st.dict st'.dict ∧ CacheOk st' ∧ blocks.length = rows.length ∧
        ∃ ls : List (List ℝ), blocks.map (fun b => b.map (rowLen st'.dict)) = ls.map (fun x => x.map some) ∧ ls.map List.sum = lens := by
  induction rows with
  | nil =>
    intro st st' blocks lens hc hn hr hl h
    rw [sliceLine] at h
    simp only [Option.some.injEq, Prod.mk.injEq] at h
    obtain ⟨rfl, rfl⟩ := h
    refine ⟨Ext.refl _, hc, rfl, [], rfl, ?_⟩
    cases lens with
    | nil => rfl
    | cons a b => exact absurd hl (by simp)
  | cons row rows ih =>
    intro st st' blocks lens hc hn hr hl h
    rw [sliceLine] at h
    cases h1 : sliceRow markers strategies st row.1 row.2 with
    | none => rw [h1] at h; exact absurd h (by simp)
    | some t =>
      obtain ⟨st1, b⟩ := t
      rw [h1] at h
      simp only at h
      cases h2 : sliceLine markers strategies st1 rows with
      | none => rw [h2] at h; exact absurd h (by simp)
      | some t2 =>
        obtain ⟨st2, bs⟩ := t2
        rw [h2] at h
        simp only [Option.some.injEq, Prod.mk.injEq] at h
        obtain ⟨rfl, rfl⟩ := h
        cases lens with
        | nil => exact absurd hl (by simp)
        | cons x lens =>
          simp only [List.map_cons, List.cons.injEq] at hl
          obtain ⟨e1, e2, e3, ls1, e4, e5⟩ := sliceRow_spec markers strategies st st1 row.1 row.2 b names x hc hn
            (hr row List.mem_cons_self) hl.1 h1
          have hl' : rows.map (fun r => rowLen st1.dict r.2) = lens.map some := by
            have := lens_ext e1 (rows.map Prod.snd) lens (by rw [List.map_map]; exact hl.2)
            rw [List.map_map] at this
            exact this
          obtain ⟨f1, f2, f3, ls2, f4, f5⟩ := ih st1 st2 bs lens e2 e3 (fun r hr' => hr r (List.mem_cons_of_mem _ hr')) hl' h2
          refine ⟨e1.trans f1, f2, by simp [f3], ls1 :: ls2, ?_, ?_⟩
          · simp only [List.map_cons, List.cons.injEq]
            exact ⟨lens_ext f1 b ls1 e4, f4⟩
          · simp only [List.map_cons, e5, f5]

/-! ## The theorems -/

/-- Position of the start of the `i`-th row of a list of lengths. -/
noncomputable def startOf (lens : List ℝ) (i : Nat) : ℝ := (lens.take i).sum

theorem sum_flatten (ls : List (List ℝ)) : ls.flatten.sum = (ls.map List.sum).sum := by
  induction ls with
  | nil => rfl
  | cons a l ih => rw [List.flatten_cons, List.sum_append, ih, List.map_cons, List.sum_cons]

/-- **C31 (partial), lengths and positions.**  Slicing with any strategies replaces every element by a block of elements.  The
blocks have the lengths of the elements they replace, so every block starts where its element started and the line
has the same length; and every element that was in the environment is still there, unchanged.  Missing: it is
assumed that the names of the edge markers are free (see `C31_marker_overwrites_violated`) and that the cache of
drifts agrees with the environment. -/
theorem C31_lengths_partial (markers : Bool) (strategies : List Strategy) (rows : List (String × String)) (st st' : St)
    (blocks : List (List String)) (lens : List ℝ) (hc : CacheOk st)
    (hn : markers = true → NoClash st.dict (rows.map Prod.snd))
    (hl : rows.map (fun r => rowLen st.dict r.2) = lens.map some)
    (h : sliceLine markers strategies st rows = some (st', blocks)) :
    blocks.length = rows.length ∧ Ext st.dict st'.dict ∧
      ∃ ls : List (List ℝ), blocks.map (fun b => b.map (rowLen st'.dict)) = ls.map (fun x => x.map some) ∧
        ls.map List.sum = lens ∧ (∀ i, (ls.take i).flatten.sum = startOf lens i) ∧ ls.flatten.sum = lens.sum := by
  obtain ⟨h1, h2, h3, ls, h4, h5⟩ := sliceLine_spec markers strategies (rows.map Prod.snd) rows st st' blocks lens hc hn
    (fun r hr => List.mem_map_of_mem hr) hl h
  refine ⟨h3, h1, ls, h4, h5, ?_, ?_⟩
  · intro i
    unfold startOf
    rw [sum_flatten, List.map_take, h5]
  · rw [sum_flatten, h5]

/-- Weights of the slices of kind `k` among `els`. -/
def weightsOf (k : SliceKind) : List El → List ℝ
  | [] => []
  | .slice k' _ w _ :: r => if k' = k then w :: weightsOf k r else weightsOf k r
  | _ :: r => weightsOf k r

theorem weightsOf_append (k : SliceKind) (a b : List El) : weightsOf k (a ++ b) = weightsOf k a ++ weightsOf k b := by
  induction a with
  | nil => rfl
  | cons e a ih =>
    cases e with
    | slice k' p w o =>
      rw [List.cons_append, weightsOf, weightsOf]
      split
      · rw [ih]; rfl
      · exact ih
    | thin => exact ih
    | body k l => exact ih
    | replica p => exact ih

theorem weightsOf_thin_thinEls (c : Ctx) (hd : c.isDriftSlice = false) (ht : c.kind.thinSlices = true) (ws : List (ℝ × Bool))
    (off : ℝ) : weightsOf .thin (thinEls c ws off) = (elementPart ws).map (· * c.ew) := by
  induction ws generalizing off with
  | nil => rfl
  | cons x r ih =>
    obtain ⟨w, b⟩ := x
    cases b with
    | true =>
      rw [thinEls]
      have he : elementPart ((w, true) :: r) = elementPart r := by simp [elementPart]
      rw [he, ← ih (off + c.len * w * c.ew)]
      split <;> simp [weightsOf]
    | false =>
      rw [thinEls, if_pos ⟨hd, ht⟩]
      have he : elementPart ((w, false) :: r) = w :: elementPart r := by simp [elementPart]
      rw [he, weightsOf, if_pos rfl, ih]
      rfl

theorem weightsOf_edge (k : SliceKind) (hk : k ≠ .edge) (has : Bool) (p : String) (off : ℝ) : weightsOf k (edgeEls has p off) = [] := by
  unfold edgeEls
  cases has with
  | false => rfl
  | true =>
    simp only [if_true]
    rw [weightsOf, if_neg (fun h => hk h.symm), weightsOf]

theorem weightsOf_markers (k : SliceKind) (m : Bool) (els : List El) : weightsOf k (withMarkers m els) = weightsOf k els := by
  unfold withMarkers
  cases m with
  | false => rfl
  | true =>
    simp only [if_true]
    rw [weightsOf]
    · rw [weightsOf_append]
      simp [weightsOf]
    · intro k' p w o h
      cases h

theorem sum_map_mul (l : List ℝ) (x : ℝ) : (l.map (· * x)).sum = l.sum * x := by
  induction l with
  | nil => simp
  | cons a l ih => rw [List.map_cons, List.sum_cons, ih, List.sum_cons]; ring

/-- **C31, strength of thin slices.**  Slicing an element (or a slice of one) with a thin scheme distributes its whole strength:
the weights of the kicks add up to one (to the weight of the slice that is sliced). -/
theorem C31_thin_weights (markers : Bool) (sch : Scheme) (st st' : St) (name : String) (l : List String) (hc : CacheOk st)
    (hn : markers = true → NoClash st.dict [name]) (hm : sch.mode = .thin) (c : Ctx) (hcx : context st.dict name = some c)
    (hd : c.isDriftSlice = false) (ht : c.kind.thinSlices = true)
    (h : sliceElement markers sch st name = some (st', l)) :
    ∃ els : List El, l.map (get st'.dict) = els.map some ∧ (weightsOf .thin els).sum = c.ew ∧ weightsOf .thick els = [] := by
  obtain ⟨h1, h2, h3, c', p, ws, h4, h5, h6, h7⟩ := sliceElement_spec markers sch st st' name l [name] hc hn
    (List.mem_singleton.mpr rfl) h
  rw [hcx] at h4
  cases h4
  have hthick : ∀ (ws : List (ℝ × Bool)) (off : ℝ), weightsOf .thick (thinEls c ws off) = [] := by
    intro ws
    induction ws with
    | nil => intro off; rfl
    | cons x r ih =>
      intro off
      obtain ⟨w, b⟩ := x
      cases b with
      | true =>
        rw [thinEls]
        split
        · simp [weightsOf, ih]
        · simp [weightsOf, ih]
      | false =>
        rw [thinEls, if_pos ⟨hd, ht⟩]
        simp [weightsOf, ih]
  refine ⟨_, h7, ?_, ?_⟩
  · rw [weightsOf_markers]
    unfold blockEls
    rw [if_pos (Or.inl hm), weightsOf_append, weightsOf_append, weightsOf_edge _ (by simp), weightsOf_edge _ (by simp),
      weightsOf_thin_thinEls c hd ht, List.append_nil, List.nil_append, sum_map_mul, (iterWeights_spec sch c.len ws h6).2.2 hm,
      one_mul]
  · rw [weightsOf_markers]
    unfold blockEls
    rw [if_pos (Or.inl hm), weightsOf_append, weightsOf_append, weightsOf_edge _ (by simp), weightsOf_edge _ (by simp),
      hthick]
    rfl

/-- **C31, strength of thick slices.**  Slicing an element (or a slice of one) with a thick scheme: the weights of the slices add
up to one (to the weight of the slice that is sliced). -/
theorem C31_thick_weights (markers : Bool) (sch : Scheme) (st st' : St) (name : String) (l : List String) (hc : CacheOk st)
    (hn : markers = true → NoClash st.dict [name]) (hm : sch.mode = .thick) (c : Ctx) (hcx : context st.dict name = some c)
    (hd : c.isDriftSlice = false) (ha : c.auto = false)
    (h : sliceElement markers sch st name = some (st', l)) :
    ∃ els : List El, l.map (get st'.dict) = els.map some ∧ (weightsOf c.thickKind els).sum = c.ew ∧ weightsOf .thin els = [] := by
  obtain ⟨h1, h2, h3, c', p, ws, h4, h5, h6, h7⟩ := sliceElement_spec markers sch st st' name l [name] hc hn
    (List.mem_singleton.mpr rfl) h
  rw [hcx] at h4
  cases h4
  have hk1 : c.thickKind ≠ .edge := by unfold Ctx.thickKind; split <;> simp
  have hk2 : c.thickKind ≠ .thin := by unfold Ctx.thickKind; split <;> simp
  have key : ∀ (ws : List (ℝ × Bool)) (off : ℝ), weightsOf c.thickKind (thickEls c ws off) = (ws.map Prod.fst).map (· * c.ew) ∧
      weightsOf .thin (thickEls c ws off) = [] := by
    intro ws
    induction ws with
    | nil => intro off; exact ⟨rfl, rfl⟩
    | cons x r ih =>
      intro off
      obtain ⟨w, b⟩ := x
      rw [thickEls, ha]
      simp only [Bool.false_eq_true, if_false]
      constructor
      · rw [weightsOf, if_pos rfl, (ih _).1]
        rfl
      · rw [weightsOf, if_neg hk2, (ih _).2]
  have hbranch : ¬ (sch.mode = .thin ∨ c.isDriftSlice = true) := by
    rw [hm, hd]; simp
  obtain ⟨i1, i2, _⟩ := iterWeights_spec sch c.len ws h6
  refine ⟨_, h7, ?_, ?_⟩
  · rw [weightsOf_markers]
    unfold blockEls
    rw [if_neg hbranch, weightsOf_append, weightsOf_append, weightsOf_edge _ hk1, weightsOf_edge _ hk1,
      (key ws 0).1, List.append_nil, List.nil_append, sum_map_mul, ← (i2 hm).1, i1, one_mul]
  · rw [weightsOf_markers]
    unfold blockEls
    rw [if_neg hbranch, weightsOf_append, weightsOf_append, weightsOf_edge _ (by simp), weightsOf_edge _ (by simp),
      (key ws 0).2]
    rfl

/-! ## Offsets of the slices -/

/-- The slices among `els` carry the distance from `off` at which they start. -/
def OffsetsFrom (d : Dict) : ℝ → List El → Prop
  | _, [] => True
  | off, e :: r => (∀ k p w o, e = .slice k p w o → o = off) ∧ ∃ l, elLen d e = some l ∧ OffsetsFrom d (off + l) r

theorem offsets_append (d : Dict) (a b : List El) (off x : ℝ) (ha : OffsetsFrom d off a) (ht : Total d a x)
    (hb : OffsetsFrom d (off + x) b) : OffsetsFrom d off (a ++ b) := by
  induction a generalizing off x with
  | nil =>
    obtain ⟨ls, h1, h2⟩ := ht
    cases ls with
    | nil =>
      simp only [List.sum_nil] at h2
      rw [← h2, add_zero] at hb
      exact hb
    | cons l ls => exact absurd h1 (by simp)
  | cons e a ih =>
    obtain ⟨h1, l, h2, h3⟩ := ha
    obtain ⟨ls, h4, h5⟩ := ht
    cases ls with
    | nil => exact absurd h4 (by simp)
    | cons l' ls =>
      simp only [List.map_cons, List.cons.injEq] at h4
      rw [h2] at h4
      obtain ⟨h4a, h4b⟩ := h4
      cases h4a
      refine ⟨h1, l, h2, ih (off + l) ls.sum h3 ⟨ls, h4b, rfl⟩ ?_⟩
      rw [List.sum_cons] at h5
      rw [add_assoc, h5]
      exact hb

theorem offsets_take (d : Dict) (els : List El) (off : ℝ) (h : OffsetsFrom d off els) (i : Nat) (k : SliceKind) (p : String)
    (w o : ℝ) (hi : els[i]? = some (.slice k p w o)) : Total d (els.take i) (o - off) := by
  induction els generalizing off i with
  | nil => exact absurd hi (by simp)
  | cons e els ih =>
    obtain ⟨h1, l, h2, h3⟩ := h
    cases i with
    | zero =>
      simp only [List.getElem?_cons_zero, Option.some.injEq] at hi
      rw [h1 k p w o hi, sub_self]
      exact total_nil d
    | succ i =>
      rw [List.take_succ_cons]
      have := total_cons d e _ l _ h2 (ih (off + l) h3 i (by simpa using hi))
      have e : l + (o - (off + l)) = o - off := by ring
      rwa [e] at this

theorem thinEls_offsets (d : Dict) (c : Ctx) (hc : c.Ok d) (h1 : c.ew = 1) (ws : List (ℝ × Bool)) (off : ℝ) :
    OffsetsFrom d off (thinEls c ws off) := by
  induction ws generalizing off with
  | nil => exact trivial
  | cons x r ih =>
    obtain ⟨w, b⟩ := x
    cases b with
    | true =>
      rw [thinEls]
      refine ⟨?_, c.len * w, elLen_drift d c hc w off, ?_⟩
      · intro k p w' o he
        split at he
        · cases he
        · cases he; rfl
      · rw [h1, mul_one]
        exact ih _
    | false =>
      rw [thinEls]
      split
      · refine ⟨?_, 0, rfl, ?_⟩
        · intro k p w' o he
          cases he; rfl
        · rw [add_zero]; exact ih _
      · exact ih _

theorem thickEls_offsets (d : Dict) (c : Ctx) (hc : c.Ok d) (h1 : c.ew = 1) (ws : List (ℝ × Bool)) (off : ℝ) :
    OffsetsFrom d off (thickEls c ws off) := by
  induction ws generalizing off with
  | nil => exact trivial
  | cons x r ih =>
    obtain ⟨w, b⟩ := x
    rw [thickEls]
    refine ⟨?_, c.len * w, elLen_thick d c hc w off, ?_⟩
    · intro k p w' o he
      split at he
      · cases he
      · cases he; rfl
    · rw [h1, mul_one]
      exact ih _

theorem edge_offsets (d : Dict) (has : Bool) (p : String) (off : ℝ) : OffsetsFrom d off (edgeEls has p off) := by
  unfold edgeEls
  cases has with
  | false => exact trivial
  | true =>
    refine ⟨?_, 0, rfl, trivial⟩
    intro k q w o he
    cases he; rfl

/-- **C31 (partial), offsets.**  In the block that replaces an element, every slice carries as offset the distance from the start
of the element at which it is.  Missing: slices of slices, see `C31_reslice_offset_violated`. -/
theorem C31_offsets_partial (markers : Bool) (sch : Scheme) (st st' : St) (name : String) (l : List String) (hc : CacheOk st)
    (hn : markers = true → NoClash st.dict [name]) (k : Kind) (len : ℝ) (hb : baseEl st.dict name = some (.body k len))
    (h : sliceElement markers sch st name = some (st', l)) :
    ∃ els : List El, l.map (get st'.dict) = els.map some ∧
      ∀ i k p w o, els[i]? = some (.slice k p w o) → Total st'.dict (els.take i) o := by
  obtain ⟨h1, h2, h3, c, p, ws, h4, h5, h6, h7⟩ := sliceElement_spec markers sch st st' name l [name] hc hn
    (List.mem_singleton.mpr rfl) h
  obtain ⟨hok, hlen⟩ := context_ok st.dict name c h4
  have hew : c.ew = 1 := by
    unfold context at h4
    unfold baseEl at hb
    rw [h5] at h4 hb
    simp only at h4 hb
    rw [hb] at h4
    simp only [Option.some.injEq] at h4
    rw [← h4]
  have hok' := ok_ext h1 hok
  refine ⟨_, h7, ?_⟩
  have key : OffsetsFrom st'.dict 0 (withMarkers (markers && wantsMarkers st.dict name)
      (blockEls sch c p (edgesOf st.dict name) ws)) := by
    have hblock : OffsetsFrom st'.dict 0 (blockEls sch c p (edgesOf st.dict name) ws) := by
      obtain ⟨i1, i2, _⟩ := iterWeights_spec sch c.len ws h6
      unfold blockEls
      apply offsets_append _ _ _ _ 0 (edge_offsets _ _ _ _) (edge_total _ _ _ _)
      rw [add_zero]
      apply offsets_append _ _ _ _ c.len
      · split
        · exact thinEls_offsets _ c hok' hew ws 0
        · exact thickEls_offsets _ c hok' hew ws 0
      · split
        · have := thinEls_total st'.dict c hok' ws 0
          rwa [i1, mul_one] at this
        · rename_i hm
          have hmode : sch.mode = .thick := by
            cases hx : sch.mode with
            | thin => exact absurd (Or.inl hx) hm
            | thick => rfl
          have := thickEls_total st'.dict c hok' ws 0
          rwa [← (i2 hmode).1, i1, mul_one] at this
      · rw [zero_add]
        exact edge_offsets _ _ _ _
    unfold withMarkers
    split
    · refine ⟨fun k p w o he => (by cases he), 0, rfl, ?_⟩
      rw [add_zero]
      apply offsets_append _ _ _ _ c.len hblock (block_total _ sch c hok' p _ ws h6)
      exact ⟨fun k p w o he => (by cases he), 0, rfl, trivial⟩
    · exact hblock
  intro i k p w o hi
  have := offsets_take st'.dict _ 0 key i k p w o hi
  rwa [sub_zero] at this

/-! ## Which strategy -/

/-- **C31, the last matching strategy decides.** -/
theorem C31_last_matching (pre post : List Strategy) (s : Strategy) (name : String) (el base : El)
    (hs : s.matchesEl name el base = true) (hpost : ∀ t ∈ post, t.matchesEl name el base = false) :
    schemeFor (pre ++ s :: post) name el base = some s.slicing := by
  unfold schemeFor
  have hskip : ∀ (l r : List Strategy), (∀ t ∈ l, t.matchesEl name el base = false) →
      pick name el base (l ++ r) = pick name el base r := by
    intro l r hl
    induction l with
    | nil => rfl
    | cons a l ih =>
      rw [List.cons_append, pick, hl a List.mem_cons_self]
      exact ih (fun t ht => hl t (List.mem_cons_of_mem _ ht))
  rw [List.reverse_cons, List.reverse_append, List.reverse_cons, List.append_assoc, List.append_assoc,
    hskip _ _ (fun t ht => hpost t (List.mem_reverse.mp ht)), List.singleton_append, pick, hs]
  rfl

/-- **C31, drifts are left alone** unless a strategy names them or their type. -/
theorem C31_drifts_by_default (strategies : List Strategy) (name : String) (k : Kind) (hk : k.isDrift = true) (l : ℝ)
    (h : ∀ t ∈ strategies, t.matchesEl name (.body k l) (.body k l) = false) :
    schemeFor strategies name (.body k l) (.body k l) = some none := by
  unfold schemeFor
  have hskip : ∀ (l' r : List Strategy), (∀ t ∈ l', t.matchesEl name (.body k l) (.body k l) = false) →
      pick name (.body k l) (.body k l) (l' ++ r) = pick name (.body k l) (.body k l) r := by
    intro l' r hl
    induction l' with
    | nil => rfl
    | cons a l' ih =>
      rw [List.cons_append, pick, hl a List.mem_cons_self]
      exact ih (fun t ht => hl t (List.mem_cons_of_mem _ ht))
  rw [List.reverse_cons, hskip _ _ (fun t ht => h t (List.mem_reverse.mp ht)), pick]
  simp [Strategy.matchesEl, isDriftEl, hk, defaultStrategy]

/-- **C31, elements that are not to be sliced stay as they are**: elements without length, and elements for which the strategy
chosen says so. -/
theorem C31_untouched (markers : Bool) (strategies : List Strategy) (st : St) (tname name : String) (el base : El)
    (hel : get st.dict name = some el) (hbase : baseEl st.dict name = some base)
    (h : isThick st.dict name = some false ∨ schemeFor strategies tname el base = some none) :
    sliceRow markers strategies st tname name = some (st, [name]) := by
  unfold sliceRow
  rw [hel, hbase]
  cases ht : isThick st.dict name with
  | none =>
    unfold isThick at ht
    rw [hbase] at ht
    split at ht <;> simp_all
  | some b =>
    simp only
    split
    · rfl
    · rename_i hn
      rcases h with h | h
      · rw [ht] at h
        simp only [Option.some.injEq] at h
        exact absurd (Or.inl h) hn
      · rw [h]

/-! ## Violations -/

/-- A quadrupole. -/
abbrev quadKind : Kind := ⟨false, false, true, true, true⟩

/-- Cuts a line with a quadrupole `q` of length 2 and an element `q_exit` of length 5. -/
noncomputable def clashSt : St := ⟨[("q", .body quadKind 2), ("q_exit", .body quadKind 5)], [], 0⟩

/-- **C31 violated**: the edge markers of `q` are written over an element of the line that has the name `q_exit`; the line loses
its length. -/
theorem C31_marker_overwrites_violated :
    rowLen clashSt.dict "q_exit" = some 5 ∧
      ∀ st' l, sliceElement true (.uniform 1 .thick) clashSt "q" = some (st', l) → rowLen st'.dict "q_exit" = some 0 := by
  constructor
  · rw [rowLen_of_get clashSt.dict "q_exit" (.body quadKind 5) (by simp [clashSt, get]) trivial]
    rfl
  · intro st' l h
    unfold sliceElement at h
    cases hm : makeSlices (.uniform 1 .thick) clashSt "q" with
    | none => rw [hm] at h; exact absurd h (by simp)
    | some t =>
      rw [hm] at h
      have hw : wantsMarkers clashSt.dict "q" = true := by simp [wantsMarkers, clashSt, get]
      simp only [hw, Bool.and_self, if_true, Option.some.injEq, Prod.mk.injEq] at h
      rw [← h.1]
      apply rowLen_of_get _ "q_exit" .thin _ trivial
      rw [show ("q_exit" : String) = "q" ++ "_exit" by decide +kernel]
      exact get_cons_self _ _ _

/-- ... and slicing does succeed there. -/
theorem C31_marker_overwrites_happens : ∃ st' l, sliceElement true (.uniform 1 .thick) clashSt "q" = some (st', l) := by
  have h1 : context clashSt.dict "q" = some ⟨"q", "q", quadKind, 2, 1, false, false⟩ := by
    simp [context, baseName, clashSt, get]
  have h2 : baseName clashSt.dict "q" = some "q" := by simp [baseName, clashSt, get]
  have h3 : (Scheme.uniform 1 .thick).iterWeights 2 = some [(1, true)] := by
    simp [Scheme.iterWeights, Scheme.driftWeights, Scheme.elementWeights, Scheme.order, Scheme.mode, Scheme.arg, zipWeights]
  unfold sliceElement makeSlices
  rw [h1, h2]
  simp only [h3]
  have hm : ¬ ((Scheme.uniform 1 .thick).mode = .thin ∨ false = true) := by simp [Scheme.mode]
  rw [if_neg hm]
  simp only
  split <;> exact ⟨_, _, rfl⟩

/-- A quadrupole of length 4 cut in two; `q1` is its second half. -/
noncomputable def halfSt : St := ⟨[("q1", .slice .thick "q" (1 / 2) 2), ("q", .body quadKind 4)], [], 0⟩

theorem halfSt_block : ∃ c ws, context halfSt.dict "q1" = some c ∧ (Scheme.uniform 2 .thick).iterWeights c.len = some ws ∧
    ∀ p, blockEls (.uniform 2 .thick) c p (edgesOf halfSt.dict "q1") ws =
        [.slice .thick "q" (1 / 4) 0, .slice .thick "q" (1 / 4) (1 / 2)] := by
  refine ⟨⟨"q1", "q", quadKind, 4 * (1 / 2), 1 / 2, false, false⟩, [(1 / 2, true), (1 / 2, true)], ?_, ?_, ?_⟩
  · simp [context, baseName, bodyOf, halfSt, get]
  · simp [Scheme.iterWeights, Scheme.driftWeights, Scheme.elementWeights, Scheme.order, Scheme.mode, Scheme.arg, zipWeights,
      List.replicate]
  · intro p
    have he : edgesOf halfSt.dict "q1" = false := by simp [edgesOf, baseEl, baseName, halfSt, get]
    rw [he]
    unfold blockEls edgeEls
    simp [thickEls, Scheme.mode, Ctx.thickKind]
    norm_num

/-- **C31 violated**: the second half of an element of length 4, which starts 2 m after the start of the element, is cut in two
again.  The two new slices start 2 m and 3 m after the start of the element, but their offsets are 0 and 1/2. -/
theorem C31_reslice_offset_violated (st' : St) (l : List String)
    (h : sliceElement false (.uniform 2 .thick) halfSt "q1" = some (st', l)) :
    l.map (get st'.dict) = [some (.slice .thick "q" (1 / 4) 0), some (.slice .thick "q" (1 / 4) (1 / 2))] := by
  have hc : CacheOk halfSt := fun l n hl => absurd hl (by simp [halfSt, cacheGet])
  obtain ⟨_, _, _, c, p, ws, h4, h5, h6, h7⟩ := sliceElement_spec false _ halfSt st' "q1" l ["q1"] hc (fun hx => absurd hx (by simp))
    (List.mem_singleton.mpr rfl) h
  obtain ⟨c', ws', g1, g2, g3⟩ := halfSt_block
  rw [g1] at h4
  cases h4
  rw [g2] at h6
  cases h6
  rw [h7, g3]
  rfl

/-- ... and slicing does succeed there. -/
theorem C31_reslice_happens : ∃ st' l, sliceElement false (.uniform 2 .thick) halfSt "q1" = some (st', l) := by
  obtain ⟨c, ws, g1, g2, g3⟩ := halfSt_block
  have h2 : baseName halfSt.dict "q1" = some "q1" := by simp [baseName, halfSt, get]
  have h1 : c.isDriftSlice = false := by
    have : context halfSt.dict "q1" = some ⟨"q1", "q", quadKind, 4 * (1 / 2), 1 / 2, false, false⟩ := by
      simp [context, baseName, bodyOf, halfSt, get]
    rw [this] at g1
    cases g1
    rfl
  unfold sliceElement makeSlices
  rw [g1, h2]
  simp only [g2]
  rw [if_neg (by rw [h1]; simp [Scheme.mode])]
  exact ⟨_, _, rfl⟩

/-- An environment with a replica, without clashes: the hypotheses of `C31_lengths_partial` are met. -/
example : ∃ (st : St) (rows : List (String × String)) (lens : List ℝ), CacheOk st ∧ NoClash st.dict (rows.map Prod.snd) ∧
    rows.map (fun r => rowLen st.dict r.2) = lens.map some ∧ lens = [4, 1, 4] := by
  refine ⟨⟨[("q", .body quadKind 4), ("r", .replica "q"), ("d", .body driftKind 1)], [], 0⟩,
    [("q", "q"), ("d", "d"), ("r", "r")], [4, 1, 4], ?_, ?_, ?_, rfl⟩
  · intro l n h
    exact absurd h (by simp [cacheGet])
  · intro n hn u hu
    left
    rw [get_none_iff]
    simp only [List.map_cons, List.map_nil, List.mem_cons, List.not_mem_nil, or_false] at hn
    simp only [markerSuffixes, List.mem_cons, List.not_mem_nil, or_false] at hu
    simp only [keys, List.map_cons, List.map_nil]
    rcases hn with rfl | rfl | rfl <;> rcases hu with rfl | rfl <;> decide +kernel
  · simp [rowLen, baseEl, baseName, resolve, resolveLoop, get, elLen]

end Verif.Slicing
