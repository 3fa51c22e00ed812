import Verif.Slicing.ReplicaProps
import Verif.Slicing.WeightsProps

/-!
# Lemmas on the slicer
-/

namespace Verif.Slicing

/-- Everything that was in the dictionary is still there, unchanged. -/
def Ext (d d' : Dict) : Prop := ∀ n e, get d n = some e → get d' n = some e

theorem Ext.refl (d : Dict) : Ext d d := fun _ _ h => h

theorem Ext.trans {a b c : Dict} (h1 : Ext a b) (h2 : Ext b c) : Ext a c := fun n e h => h2 n e (h1 n e h)

theorem get_cons_self (d : Dict) (n : String) (e : El) : get ((n, e) :: d) n = some e := by
  rw [get, if_pos rfl]

theorem get_cons_ne (d : Dict) (n m : String) (e : El) (h : n ≠ m) : get ((n, e) :: d) m = get d m := by
  rw [get, if_neg h]

theorem ext_cons (d : Dict) (n : String) (e : El) (h : n ∉ keys d) : Ext d ((n, e) :: d) := by
  intro m e' hm
  rw [get_cons_ne]
  · exact hm
  · rintro rfl
    exact h (get_mem d _ _ hm)

theorem Ext.leads {d d' : Dict} (h : Ext d d') {a b : String} (hl : Leads d a b) : Leads d' a b :=
  Relation.ReflTransGen.mono (r := Step d) (p := Step d') (fun _ _ hs => h _ _ hs) a b hl

theorem Ext.baseName {d d' : Dict} (h : Ext d d') {n t : String} (hb : baseName d n = some t) :
    Slicing.baseName d' n = some t := by
  unfold Slicing.baseName at hb ⊢
  cases hg : get d n with
  | none => rw [hg] at hb; exact absurd hb (by simp)
  | some e =>
    rw [hg] at hb
    rw [h n e hg]
    cases e with
    | replica p =>
      simp only at hb ⊢
      cases hr : resolve d p with
      | found r =>
        rw [hr] at hb
        simp only [Option.some.injEq] at hb
        subst hb
        obtain ⟨h1, e, h2, h3⟩ := (C55_found d p r).mp hr
        rw [(C55_found d' p r).mpr ⟨h.leads h1, e, h _ _ h2, h3⟩]
      | keyError => rw [hr] at hb; exact absurd hb (by simp)
      | circular => rw [hr] at hb; exact absurd hb (by simp)
      | running => rw [hr] at hb; exact absurd hb (by simp)
    | thin => exact hb
    | body k l => exact hb
    | slice k p w o => exact hb

theorem Ext.baseEl {d d' : Dict} (h : Ext d d') {n : String} {e : El} (hb : baseEl d n = some e) :
    Slicing.baseEl d' n = some e := by
  unfold Slicing.baseEl at hb ⊢
  cases hn : Slicing.baseName d n with
  | none => rw [hn] at hb; exact absurd hb (by simp)
  | some t =>
    rw [hn] at hb
    rw [h.baseName hn]
    exact h _ _ hb

theorem Ext.bodyOf {d d' : Dict} (h : Ext d d') {n : String} {b : Kind × ℝ} (hb : bodyOf d n = some b) :
    Slicing.bodyOf d' n = some b := by
  unfold Slicing.bodyOf at hb ⊢
  cases hg : get d n with
  | none => rw [hg] at hb; exact absurd hb (by simp)
  | some e => rw [hg] at hb; rw [h n e hg]; exact hb

theorem Ext.elLen {d d' : Dict} (h : Ext d d') {e : El} {l : ℝ} (hl : elLen d e = some l) : Slicing.elLen d' e = some l := by
  have key : ∀ (p : String) (w : ℝ), (Slicing.bodyOf d p).map (fun b => b.2 * w) = some l →
      (Slicing.bodyOf d' p).map (fun b => b.2 * w) = some l := by
    intro p w hp
    cases hb : Slicing.bodyOf d p with
    | none => rw [hb] at hp; exact absurd hp (by simp)
    | some b => rw [hb] at hp; rw [h.bodyOf hb]; exact hp
  cases e with
  | thin => exact hl
  | body k x => exact hl
  | replica p => exact hl
  | slice k p w o =>
    cases k with
    | thick => exact key p w hl
    | drift => exact key p w hl
    | thin => exact hl
    | edge => exact hl

theorem Ext.rowLen {d d' : Dict} (h : Ext d d') {n : String} {l : ℝ} (hl : rowLen d n = some l) :
    Slicing.rowLen d' n = some l := by
  unfold Slicing.rowLen at hl ⊢
  cases hb : Slicing.baseEl d n with
  | none => rw [hb] at hl; exact absurd hl (by simp)
  | some e => rw [hb] at hl; rw [h.baseEl hb]; exact h.elLen hl

/-- The edge markers of an element. -/
def markerSuffixes : List String := ["_entry", "_exit"]

/-- Names that end like an edge marker are unchanged. -/
def SameMarkers (d d' : Dict) : Prop := ∀ n, ∀ u ∈ markerSuffixes, get d' (n ++ u) = get d (n ++ u)

/-- The dictionary has only grown, without names that end like an edge marker. -/
def Grow (d d' : Dict) : Prop := Ext d d' ∧ SameMarkers d d'

theorem Grow.refl (d : Dict) : Grow d d := ⟨Ext.refl d, fun _ _ _ => rfl⟩

theorem Grow.trans {a b c : Dict} (h1 : Grow a b) (h2 : Grow b c) : Grow a c :=
  ⟨h1.1.trans h2.1, fun n u hu => (h2.2 n u hu).trans (h1.2 n u hu)⟩

/-- Does not end like an edge marker. -/
def NotMarker (m : String) : Prop := ∀ n, ∀ u ∈ markerSuffixes, m ≠ n ++ u

theorem notMarker_numbered (s : String) (i : Nat) : NotMarker (s ++ i.repr) := by
  intro n u hu
  rcases List.mem_cons.mp hu with rfl | hu
  · exact Names.numbered_ne_suffix s n "_entry" i 'y' (by decide +kernel) (by decide)
  · rw [List.mem_singleton.mp hu]
    exact Names.numbered_ne_suffix s n "_exit" i 't' (by decide +kernel) (by decide)

theorem append_ne_of_last (s v n u : String) (a b : Char) (hv : v.toList.getLast? = some a)
    (hu : u.toList.getLast? = some b) (hab : a ≠ b) : s ++ v ≠ n ++ u := by
  intro h
  have h1 := congrArg (fun x : String => x.toList.getLast?) h
  simp only [String.toList_append] at h1
  have hvne : v.toList ≠ [] := by intro e; rw [e] at hv; exact absurd hv (by simp)
  have hune : u.toList ≠ [] := by intro e; rw [e] at hu; exact absurd hu (by simp)
  rw [List.getLast?_append_of_ne_nil _ hvne, List.getLast?_append_of_ne_nil _ hune, hu, hv] at h1
  exact hab (Option.some.inj h1)

theorem notMarker_map (s : String) : NotMarker (s ++ "_map") := by
  intro n u hu
  rcases List.mem_cons.mp hu with rfl | hu
  · exact append_ne_of_last s "_map" n "_entry" 'p' 'y' (by decide +kernel) (by decide +kernel) (by decide)
  · rw [List.mem_singleton.mp hu]
    exact append_ne_of_last s "_map" n "_exit" 'p' 't' (by decide +kernel) (by decide +kernel) (by decide)

theorem grow_cons (d : Dict) (n : String) (e : El) (h : n ∉ keys d) (hm : NotMarker n) : Grow d ((n, e) :: d) :=
  ⟨ext_cons d n e h, fun m u hu => get_cons_ne d n _ e (hm m u hu)⟩

/-- The cache of drifts agrees with the dictionary. -/
def CacheOk (st : St) : Prop := ∀ l n, cacheGet st.cache l = some n → get st.dict n = some (.body driftKind l)

theorem driftName_injective : Function.Injective driftName := Names.numbered_injective "||drift_"

theorem elemFmt_injective (c : Ctx) : Function.Injective c.elemFmt := by
  intro a b h
  unfold Ctx.elemFmt at h
  exact Names.numbered_injective _ h

theorem driftFmt_injective (c : Ctx) : Function.Injective c.driftFmt := by
  intro a b h
  unfold Ctx.driftFmt at h
  exact Names.numbered_injective _ h

theorem getDrift_spec (st : St) (l : ℝ) (hc : CacheOk st) :
    Grow st.dict (getDrift st l).1.dict ∧ CacheOk (getDrift st l).1 ∧
      get (getDrift st l).1.dict (getDrift st l).2 = some (.body driftKind l) := by
  unfold getDrift
  cases h : cacheGet st.cache l with
  | some n => exact ⟨Grow.refl _, hc, hc l n h⟩
  | none =>
    have hf := (Names.firstFree_spec driftName driftName_injective (keys st.dict) (st.counter + 1)).2.1
    simp only
    generalize Names.firstFree driftName (keys st.dict) (st.counter + 1) = i at hf ⊢
    refine ⟨grow_cons _ _ _ hf (notMarker_numbered _ _), ?_, get_cons_self _ _ _⟩
    intro x n hx
    simp only at hx ⊢
    rw [cacheGet] at hx
    split at hx
    · rename_i heq
      cases hx
      rw [← heq]
      exact get_cons_self _ _ _
    · exact ext_cons _ _ _ hf _ _ (hc x n hx)

theorem cacheOk_set (st : St) (n : String) (e : El) (hc : CacheOk st) (hn : n ∉ keys st.dict) : CacheOk (st.set n e) := by
  intro l m h
  exact ext_cons _ _ _ hn _ _ (hc l m h)

/-! ## What the slices are -/

/-- Slices of the thin branch, without their names. -/
noncomputable def thinEls (c : Ctx) : List (ℝ × Bool) → ℝ → List El
  | [], _ => []
  | (w, true) :: r, off =>
    (if c.auto then .body driftKind (c.len * w * c.ew) else .slice .drift c.parent (w * c.ew) off) ::
      thinEls c r (off + c.len * w * c.ew)
  | (w, false) :: r, off =>
    if c.isDriftSlice = false ∧ c.kind.thinSlices = true then .slice .thin c.parent (w * c.ew) off :: thinEls c r off
    else thinEls c r off

/-- Slices of the thick branch, without their names. -/
noncomputable def thickEls (c : Ctx) : List (ℝ × Bool) → ℝ → List El
  | [], _ => []
  | (w, _) :: r, off =>
    (if c.auto then .body driftKind (c.len * w * c.ew) else .slice c.thickKind c.parent (w * c.ew) off) ::
      thickEls c r (off + c.len * w * c.ew)

/-- What a step of the slicer yields: the dictionary has grown and the names stand for the elements `els`. -/
def Yields (st : St) (t : St × List String) (els : List El) : Prop :=
  Grow st.dict t.1.dict ∧ CacheOk t.1 ∧ t.2.map (get t.1.dict) = els.map some

theorem map_get_ext {d d' : Dict} (h : Ext d d') (ns : List String) (els : List El)
    (he : ns.map (get d) = els.map some) : ns.map (get d') = els.map some := by
  induction ns generalizing els with
  | nil => exact he
  | cons n ns ih =>
    cases els with
    | nil => exact absurd he (by simp)
    | cons e els =>
      simp only [List.map_cons, List.cons.injEq] at he ⊢
      exact ⟨h n e he.1, ih els he.2⟩

theorem yields_cons (st st1 : St) (t : St × List String) (n : String) (e : El) (els : List El) (hg : Grow st.dict st1.dict)
    (hn : get st1.dict n = some e) (ht : Yields st1 t els) : Yields st (t.1, n :: t.2) (e :: els) := by
  obtain ⟨h1, h2, h3⟩ := ht
  refine ⟨hg.trans h1, h2, ?_⟩
  simp only [List.map_cons]
  rw [h3, h1.1 n e hn]

theorem yields_skip (st st1 : St) (t : St × List String) (els : List El) (hg : Grow st.dict st1.dict)
    (ht : Yields st1 t els) : Yields st t els :=
  ⟨hg.trans ht.1, ht.2.1, ht.2.2⟩

theorem set_fresh (st : St) (fmt : Nat → String) (hf : Function.Injective fmt) (hm : ∀ i, NotMarker (fmt i)) (k : Nat) (e : El)
    (hc : CacheOk st) :
    Grow st.dict (st.set (fmt (Names.firstFree fmt (keys st.dict) k)) e).dict ∧
      CacheOk (st.set (fmt (Names.firstFree fmt (keys st.dict) k)) e) ∧
      get (st.set (fmt (Names.firstFree fmt (keys st.dict) k)) e).dict (fmt (Names.firstFree fmt (keys st.dict) k)) = some e := by
  have h := (Names.firstFree_spec fmt hf (keys st.dict) k).2.1
  generalize Names.firstFree fmt (keys st.dict) k = i at h ⊢
  exact ⟨grow_cons _ _ _ h (hm i), cacheOk_set _ _ _ hc h, get_cons_self _ _ _⟩

theorem driftFmt_notMarker (c : Ctx) (i : Nat) : NotMarker (c.driftFmt i) := notMarker_numbered _ _

theorem elemFmt_notMarker (c : Ctx) (i : Nat) : NotMarker (c.elemFmt i) := notMarker_numbered _ _

theorem thinLoop_yields (c : Ctx) (ws : List (ℝ × Bool)) (st : St) (di ei : Nat) (off : ℝ) (hc : CacheOk st) :
    Yields st (thinLoop c ws st di ei off) (thinEls c ws off) := by
  induction ws generalizing st di ei off with
  | nil => exact ⟨Grow.refl _, hc, rfl⟩
  | cons x r ih =>
    obtain ⟨w, b⟩ := x
    cases b with
    | true =>
      rw [thinLoop, thinEls]
      split
      · obtain ⟨h1, h2, h3⟩ := getDrift_spec st (c.len * w * c.ew) hc
        exact yields_cons st _ _ _ _ _ h1 h3 (ih _ _ _ _ h2)
      · obtain ⟨h1, h2, h3⟩ := set_fresh st c.driftFmt (driftFmt_injective c) (driftFmt_notMarker c) di
          (.slice .drift c.parent (w * c.ew) off) hc
        exact yields_cons st _ _ _ _ _ h1 h3 (ih _ _ _ _ h2)
    | false =>
      rw [thinLoop, thinEls]
      by_cases hd : c.isDriftSlice = true
      · rw [if_pos hd, if_neg (by rw [hd]; simp)]
        exact ih _ _ _ _ hc
      · rw [if_neg hd]
        simp only
        by_cases ht : c.kind.thinSlices = true
        · rw [if_pos ht, if_pos ⟨by simpa using hd, ht⟩]
          obtain ⟨h1, h2, h3⟩ := set_fresh st c.elemFmt (elemFmt_injective c) (elemFmt_notMarker c) ei
            (.slice .thin c.parent (w * c.ew) off) hc
          exact yields_cons st _ _ _ _ _ h1 h3 (ih _ _ _ _ h2)
        · rw [if_neg ht, if_neg (fun h => ht h.2)]
          exact ih _ _ _ _ hc

theorem thickLoop_yields (c : Ctx) (ws : List (ℝ × Bool)) (st : St) (ei : Nat) (off : ℝ) (hc : CacheOk st) :
    Yields st (thickLoop c ws st ei off) (thickEls c ws off) := by
  induction ws generalizing st ei off with
  | nil => exact ⟨Grow.refl _, hc, rfl⟩
  | cons x r ih =>
    obtain ⟨w, b⟩ := x
    rw [thickLoop, thickEls]
    split
    · obtain ⟨h1, h2, h3⟩ := getDrift_spec st (c.len * w * c.ew) hc
      exact yields_cons st _ _ _ _ _ h1 h3 (ih _ _ _ h2)
    · obtain ⟨h1, h2, h3⟩ := set_fresh st c.elemFmt (elemFmt_injective c) (elemFmt_notMarker c) ei
        (.slice c.thickKind c.parent (w * c.ew) off) hc
      exact yields_cons st _ _ _ _ _ h1 h3 (ih _ _ _ h2)

theorem mapName_fresh (d : Dict) (name u : String) : mapName d name u ∉ keys d ∧ NotMarker (mapName d name u) := by
  unfold mapName
  split
  · exact ⟨(Names.firstFree_spec _ (Names.numbered_injective _) (keys d) 0).2.1, notMarker_numbered _ _⟩
  · rename_i h
    exact ⟨h, notMarker_map _⟩

/-- Entry or exit map. -/
def edgeEls (has : Bool) (p : String) (off : ℝ) : List El := if has then [.slice .edge p 0 off] else []

theorem addMap_yields (has : Bool) (name p u : String) (off : ℝ) (st : St) (hc : CacheOk st) :
    Yields st (addMap has name p u off st) (edgeEls has p off) := by
  unfold addMap edgeEls
  cases has with
  | false => exact ⟨Grow.refl _, hc, rfl⟩
  | true =>
    obtain ⟨h1, h2⟩ := mapName_fresh st.dict name u
    refine ⟨grow_cons _ _ _ h1 h2, cacheOk_set _ _ _ hc h1, ?_⟩
    simp only [if_true, List.map_cons, List.map_nil]
    rw [show get (st.set (mapName st.dict name u) (.slice .edge p 0 off)).dict (mapName st.dict name u) = _ from get_cons_self _ _ _]

theorem yields_append (st : St) (a b : St × List String) (x y : List El) (ha : Yields st a x) (hb : Yields a.1 b y) :
    Yields st (b.1, a.2 ++ b.2) (x ++ y) := by
  refine ⟨ha.1.trans hb.1, hb.2.1, ?_⟩
  simp only [List.map_append]
  rw [map_get_ext hb.1.1 _ _ ha.2.2, hb.2.2]

/-- The slices of the element `name`, without edge markers, without their names. -/
noncomputable def blockEls (sch : Scheme) (c : Ctx) (p : String) (edges : Bool) (ws : List (ℝ × Bool)) : List El :=
  edgeEls edges p 0 ++
    ((if sch.mode = .thin ∨ c.isDriftSlice = true then thinEls c ws 0 else thickEls c ws 0) ++ edgeEls edges p c.len)

theorem makeSlices_yields (sch : Scheme) (st st' : St) (name : String) (l : List String) (hc : CacheOk st)
    (h : makeSlices sch st name = some (st', l)) :
    ∃ c p ws, context st.dict name = some c ∧ baseName st.dict name = some p ∧ sch.iterWeights c.len = some ws ∧
      Yields st (st', l) (blockEls sch c p (edgesOf st.dict name) ws) := by
  unfold makeSlices at h
  cases hcx : context st.dict name with
  | none => rw [hcx] at h; exact absurd h (by simp)
  | some c =>
    rw [hcx] at h
    cases hp : baseName st.dict name with
    | none => rw [hp] at h; exact absurd h (by simp)
    | some p =>
      rw [hp] at h
      simp only at h
      cases hw : sch.iterWeights c.len with
      | none => rw [hw] at h; exact absurd h (by simp)
      | some ws =>
        rw [hw] at h
        simp only at h
        refine ⟨c, p, ws, rfl, rfl, hw, ?_⟩
        have ha := addMap_yields (edgesOf st.dict name) name p "entry" 0 st hc
        generalize addMap (edgesOf st.dict name) name p "entry" 0 st = a at h ha
        unfold blockEls
        split at h
        · rename_i hmode
          rw [if_pos hmode]
          split at h
          · have hb := thinLoop_yields c ws a.1 0 0 0 ha.2.1
            generalize thinLoop c ws a.1 0 0 0 = b at h hb
            have hz := addMap_yields (edgesOf st.dict name) name p "exit" c.len b.1 hb.2.1
            generalize addMap (edgesOf st.dict name) name p "exit" c.len b.1 = z at h hz
            simp only [Option.some.injEq, Prod.mk.injEq] at h
            obtain ⟨rfl, rfl⟩ := h
            exact yields_append st a (z.1, b.2 ++ z.2) _ _ ha (yields_append a.1 b z _ _ hb hz)
          · exact absurd h (by simp)
        · rename_i hmode
          rw [if_neg hmode]
          have hb := thickLoop_yields c ws a.1 0 0 ha.2.1
          generalize thickLoop c ws a.1 0 0 = b at h hb
          have hz := addMap_yields (edgesOf st.dict name) name p "exit" c.len b.1 hb.2.1
          generalize addMap (edgesOf st.dict name) name p "exit" c.len b.1 = z at h hz
          simp only [Option.some.injEq, Prod.mk.injEq] at h
          obtain ⟨rfl, rfl⟩ := h
          exact yields_append st a (z.1, b.2 ++ z.2) _ _ ha (yields_append a.1 b z _ _ hb hz)

/-! ## Edge markers -/

/-- The names of the edge markers of the elements `names` are not taken by something else than a thin element. -/
def NoClash (d : Dict) (names : List String) : Prop :=
  ∀ n ∈ names, ∀ u ∈ markerSuffixes, get d (n ++ u) = none ∨ get d (n ++ u) = some .thin

theorem ext_thin (d : Dict) (n : String) (h : get d n = none ∨ get d n = some .thin) : Ext d ((n, .thin) :: d) := by
  intro m e hm
  by_cases hnm : n = m
  · subst hnm
    rw [get_cons_self]
    rcases h with h | h
    · rw [h] at hm; exact absurd hm (by simp)
    · rw [h] at hm; exact hm
  · rw [get_cons_ne _ _ _ _ hnm]
    exact hm

theorem noClash_thin (d : Dict) (n : String) (names : List String) (h : NoClash d names) : NoClash ((n, .thin) :: d) names := by
  intro m hm u hu
  by_cases hnm : n = m ++ u
  · right
    rw [hnm]
    exact get_cons_self _ _ _
  · rw [get_cons_ne _ _ _ _ hnm]
    exact h m hm u hu

theorem noClash_grow {d d' : Dict} (h : Grow d d') {names : List String} (hn : NoClash d names) : NoClash d' names := by
  intro n hm u hu
  rw [h.2 n u hu]
  exact hn n hm u hu

/-- Two writes of edge markers. -/
theorem markers_ext (st : St) (name : String) (names : List String) (hc : CacheOk st) (hn : NoClash st.dict names)
    (hm : name ∈ names) :
    Ext st.dict ((st.set (name ++ "_entry") .thin).set (name ++ "_exit") .thin).dict ∧
      CacheOk ((st.set (name ++ "_entry") .thin).set (name ++ "_exit") .thin) ∧
      NoClash ((st.set (name ++ "_entry") .thin).set (name ++ "_exit") .thin).dict names ∧
      get ((st.set (name ++ "_entry") .thin).set (name ++ "_exit") .thin).dict (name ++ "_entry") = some .thin ∧
      get ((st.set (name ++ "_entry") .thin).set (name ++ "_exit") .thin).dict (name ++ "_exit") = some .thin := by
  have h1 : Ext st.dict (st.set (name ++ "_entry") .thin).dict := ext_thin _ _ (hn name hm "_entry" (by simp [markerSuffixes]))
  have n1 : NoClash (st.set (name ++ "_entry") .thin).dict names := noClash_thin _ _ _ hn
  have h2 : Ext (st.set (name ++ "_entry") .thin).dict ((st.set (name ++ "_entry") .thin).set (name ++ "_exit") .thin).dict :=
    ext_thin _ _ (n1 name hm "_exit" (by simp [markerSuffixes]))
  refine ⟨h1.trans h2, ?_, noClash_thin _ _ _ n1, ?_, ?_⟩
  · intro l n h
    exact h2 _ _ (h1 _ _ (hc l n h))
  · exact h2 _ _ (get_cons_self _ _ _)
  · exact get_cons_self _ _ _

/-- Slices with the edge markers. -/
def withMarkers (m : Bool) (els : List El) : List El := if m then .thin :: (els ++ [.thin]) else els

/-- **The slices of one element**: the dictionary keeps all its elements, and the names of the block stand for the slices. -/
theorem sliceElement_spec (markers : Bool) (sch : Scheme) (st st' : St) (name : String) (l : List String) (names : List String)
    (hc : CacheOk st) (hn : markers = true → NoClash st.dict names) (hm : name ∈ names)
    (h : sliceElement markers sch st name = some (st', l)) :
    Ext st.dict st'.dict ∧ CacheOk st' ∧ (markers = true → NoClash st'.dict names) ∧
      ∃ c p ws, context st.dict name = some c ∧ baseName st.dict name = some p ∧ sch.iterWeights c.len = some ws ∧
        l.map (get st'.dict) =
          (withMarkers (markers && wantsMarkers st.dict name) (blockEls sch c p (edgesOf st.dict name) ws)).map some := by
  unfold sliceElement at h
  cases hms : makeSlices sch st name with
  | none => rw [hms] at h; exact absurd h (by simp)
  | some t =>
    obtain ⟨st1, l1⟩ := t
    rw [hms] at h
    simp only at h
    obtain ⟨c, p, ws, h1, h2, h3, h4⟩ := makeSlices_yields sch st st1 name l1 hc hms
    split at h
    · rename_i hmk
      simp only [Option.some.injEq, Prod.mk.injEq] at h
      have hmk1 : markers = true := by
        cases markers
        · exact absurd hmk (by simp)
        · rfl
      obtain ⟨e1, e2, e3, e4, e5⟩ := markers_ext st1 name names h4.2.1 (noClash_grow h4.1 (hn hmk1)) hm
      obtain ⟨hs, hl⟩ := h
      rw [hs] at e1 e2 e3 e4 e5
      refine ⟨h4.1.1.trans e1, e2, fun _ => e3, c, p, ws, h1, h2, h3, ?_⟩
      rw [← hl, hmk]
      unfold withMarkers
      simp only [if_true, List.map_cons, List.map_append, List.map_nil]
      rw [e4, e5, map_get_ext e1 _ _ h4.2.2]
    · rename_i hmk
      simp only [Option.some.injEq, Prod.mk.injEq] at h
      obtain ⟨rfl, rfl⟩ := h
      refine ⟨h4.1.1, h4.2.1, fun hk => noClash_grow h4.1 (hn hk), c, p, ws, h1, h2, h3, ?_⟩
      have : (markers && wantsMarkers st.dict name) = false := by simpa using hmk
      rw [this]
      exact h4.2.2

end Verif.Slicing
