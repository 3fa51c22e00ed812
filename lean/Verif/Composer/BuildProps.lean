import Verif.Composer.BuildLemmas

/-!
# C34: lines built from placed components
-/

namespace Verif.Composer

open Slicing (St getDrift rowLen isThick Grow Ext CacheOk getDrift_spec)

/-! ### Specification -/

/-- The line `marks` (names, with a mark on the components; the others are drifts) realises the placement: `order` is the order of the
components, `s` their requested starts. -/
structure IsLine (tol : ℝ) (ps : List Place) (s : Nat → ℝ) (order : List Nat) (st : St) (marks : List (String × Bool)) : Prop where
  /-- every component occurs once -/
  once : order.Perm (List.range ps.length)
  comps : (marks.filter (fun m => m.2)).map (fun m => m.1) = order.filterMap (fun i => ps[i]?.map (fun p => p.name))
  /-- what is not a component is a drift longer than the tolerance -/
  drifts : ∀ n : String, (n, false) ∈ marks → ∃ l : ℝ, tol < l ∧ Slicing.get st.dict n = some (.body Slicing.driftKind l)
  /-- the `k`-th component starts where requested within `k + 1` tolerances -/
  starts : ∀ (k i : Nat) (p : Place), order[k]? = some i → ps[i]? = some p → ∃ (m1 m2 : List (String × Bool)) (T : ℝ),
    marks = m1 ++ (p.name, true) :: m2 ∧ (m1.filter (fun m => m.2)).length = k ∧
      totalLen st (m1.map (fun m => m.1)) = some T ∧ |T - s i| ≤ tol * (k + 1)
  /-- a component starts after the end of the previous one within the tolerance -/
  sorted : order.IsChain (fun i j => ∀ p, ps[i]? = some p → ∀ l, rowLen st.dict p.name = some l → s i + l - tol ≤ s j)

/-! ### C35 after C33: sorting does not raise -/

theorem mem_toItems {st : St} {rows : List Row} {it : Item Nat} (h : it ∈ toItems st rows) :
    ∃ r, rows[it.name]? = some r ∧ it.len = lenOf st r.name ∧ it.s = r.s ∧ it.from_ = r.ref.map Prod.fst ∧
      it.fromAnchor = r.ref.bind Prod.snd := by
  unfold toItems at h
  rw [List.mem_map] at h
  obtain ⟨⟨r, i⟩, hm, rfl⟩ := h
  rw [List.mem_zipIdx_iff_getElem?] at hm
  exact ⟨r, hm, rfl, rfl, rfl, rfl⟩

theorem toItems_mem {st : St} {rows : List Row} {i : Nat} (h : i < rows.length) : ∃ it ∈ toItems st rows, it.name = i := by
  refine ⟨_, List.mem_map.mpr ⟨(rows[i], i), ?_, rfl⟩, rfl⟩
  rw [List.mem_zipIdx_iff_getElem?]
  exact List.getElem?_eq_getElem h

/-- C35: the ordering of resolved placements never raises. -/
theorem C35_resolved_never_raises (sort : List (Item Nat) → List (Item Nat)) (tol : ℝ) (hp : PySort (cmpLt tol) sort) (allow : Bool)
    (st : St) (ps : List Place) (refer : Anchor) (rows : List Row) (h : resolve ps (lenOf st) refer = some rows) :
    ∃ out, sortPlaces sort tol allow (toItems st rows) = some out := by
  obtain ⟨-, hu, hrow⟩ := resolve_eq_some ps (lenOf st) refer rows h
  have hI := final_inv ps (lenOf st) refer
  have hlen : rows.length = ps.length := by
    simpa using congrArg List.length (C33_positions ps (lenOf st) refer rows h).1
  have href : ∀ (i : Nat) (r : Row), rows[i]? = some r → r.ref = (final ps (lenOf st) refer).ref i := by
    intro i r hr
    rw [hrow i, Option.map_eq_some_iff] at hr
    obtain ⟨p, -, rfl⟩ := hr
    rfl
  cases ho : sortPlaces sort tol allow (toItems st rows) with
  | some out => exact ⟨out, rfl⟩
  | none =>
    exfalso
    rcases C35_raises_only sort tol hp allow _ ho with ⟨-, a, ha, f, hf, hno⟩ | ⟨C, hC, hall⟩
    · obtain ⟨r, hr, -, -, h1, -⟩ := mem_toItems ha
      rw [hf, href _ _ hr, eq_comm, Option.map_eq_some_iff] at h1
      obtain ⟨⟨d, an⟩, h1, rfl⟩ := h1
      have hd := hI.refs _ _ _ (hu _ (by rw [← hlen]; exact lt_of_getElem? hr)) h1
      obtain ⟨q, hq⟩ : ∃ q, ps[d]? = some q := by
        cases hI.grounded d hd with
        | first p hp => exact ⟨p, hp⟩
        | next i p hp => exact ⟨p, hp⟩
        | absolute i p hp => exact ⟨p, hp⟩
        | relative i j p q hp => exact ⟨p, hp⟩
      obtain ⟨it, hit, he⟩ := toItems_mem (st := st) (rows := rows) (i := d) (by rw [hlen]; exact lt_of_getElem? hq)
      exact hno it hit he
    · apply hI.acyclic (C.map (fun c => c.name)) (by simpa using hC)
      intro i hi
      rw [List.mem_map] at hi
      obtain ⟨c, hc, rfl⟩ := hi
      obtain ⟨hcl, -, d, hd, hcd⟩ := hall c hc
      obtain ⟨r, hr, -, -, h1, -⟩ := mem_toItems hcl
      refine ⟨hu _ (by rw [← hlen]; exact lt_of_getElem? hr), d.name, List.mem_map_of_mem hd, ?_⟩
      rw [hcd, href _ _ hr, eq_comm, Option.map_eq_some_iff] at h1
      obtain ⟨⟨d', an⟩, h1, h2⟩ := h1
      simp only at h2
      subst h2
      exact ⟨an, h1⟩

/-! ### From the table to the line -/

theorem generate_spec (tol : ℝ) (h0 : 0 ≤ tol) (length : Option ℝ) (st : St) (rows : List Placed) (st' : St) (names : List String)
    (hc : CacheOk st) (hl : ∀ r ∈ rows, rowLen st.dict r.name = some r.len) (h : generate tol length st rows = some (st', names)) :
    Grow st.dict st'.dict ∧ CacheOk st' ∧ ∃ marks : List (String × Bool), names = marks.map (fun m => m.1) ∧
      (marks.filter (fun m => m.2)).map (fun m => m.1) = rows.map (fun r => r.name) ∧
      (∀ n : String, (n, false) ∈ marks → ∃ l : ℝ, tol < l ∧ Slicing.get st'.dict n = some (.body Slicing.driftKind l)) ∧
      (∀ (k : Nat) (r : Placed), rows[k]? = some r → ∃ (m1 m2 : List (String × Bool)) (T : ℝ), marks = m1 ++ (r.name, true) :: m2 ∧
        (m1.filter (fun m => m.2)).length = k ∧ totalLen st' (m1.map (fun m => m.1)) = some T ∧ |T - r.s| ≤ tol * (k + 1)) ∧
      rows.IsChain (fun a b => a.s + a.len - tol ≤ b.s) ∧
      ∃ T : ℝ, totalLen st' names = some T ∧ (∀ L, length = some L → 0 ≤ L → |T - L| ≤ tol * (rows.length + 1)) ∧
        (length = none → ∀ f, lastEnd rows = some f → |T - f| ≤ tol * rows.length) := by
  unfold generate at h
  cases rows with
  | nil =>
    rw [lastEnd_nil] at h
    simp only at h
    cases length with
    | none =>
      simp only [Option.some.injEq, Prod.mk.injEq] at h
      obtain ⟨rfl, rfl⟩ := h
      exact ⟨Grow.refl _, hc, [], rfl, rfl, by simp, by simp, by simp, 0, rfl, by simp, by simp [lastEnd_nil]⟩
    | some L =>
      simp only at h
      split at h
      · next hL =>
        simp only [Option.some.injEq, Prod.mk.injEq] at h
        obtain ⟨rfl, rfl⟩ := h
        obtain ⟨hg, hc1, hget⟩ := getDrift_spec st L hc
        refine ⟨hg, hc1, [((getDrift st L).2, false)], rfl, rfl, ?_, by simp, by simp, L, ?_, ?_, by simp⟩
        · intro n hn
          rw [List.mem_singleton, Prod.mk.injEq] at hn
          rw [hn.1]
          exact ⟨L, hL, hget⟩
        · simp only [totalLen, rowLen_drift hget, add_zero]
        · intro L' hL' _
          rw [Option.some.injEq] at hL'
          rw [← hL', sub_self, abs_zero]; simp [h0]
      · next hL =>
        simp only [Option.some.injEq, Prod.mk.injEq] at h
        obtain ⟨rfl, rfl⟩ := h
        refine ⟨Grow.refl _, hc, [], rfl, rfl, by simp, by simp, by simp, 0, rfl, ?_, by simp⟩
        intro L' hL' hpos
        rw [Option.some.injEq] at hL'
        rw [← hL'] at hpos ⊢
        rw [zero_sub, abs_neg, abs_of_nonneg hpos]
        simpa using hL
  | cons r rows =>
    obtain ⟨e, he⟩ : ∃ e, lastEnd (r :: rows) = some e := ⟨_, lastEnd_cons r rows⟩
    rw [he] at h
    simp only at h
    cases hf : fill tol st 0 (r :: rows) with
    | none => rw [hf] at h; cases h
    | some p =>
      obtain ⟨st1, ns⟩ := p
      rw [hf] at h
      simp only at h
      obtain ⟨hg, hc1, marks, rfl, hR⟩ := fill_spec tol h0 _ _ _ _ _ hc hl hf
      have hchain : (r :: rows).IsChain (fun a b => a.s + a.len - tol ≤ b.s) := by
        by_contra hcon
        have := (fill_none tol h0 (r :: rows) st 0).mpr (fun hh => hcon hh.1)
        rw [hf] at this; cases this
      have hstarts : ∀ (k : Nat) (q : Placed), (r :: rows)[k]? = some q → ∃ (m1 m2 : List (String × Bool)) (T : ℝ),
          marks = m1 ++ (q.name, true) :: m2 ∧ (m1.filter (fun m => m.2)).length = k ∧
          totalLen st1 (m1.map (fun m => m.1)) = some T ∧ |T - q.s| ≤ tol * (k + 1) := by
        intro k q hk
        obtain ⟨m1, m2, T, h1, h2, h3, h4⟩ := hR.starts k q hk
        exact ⟨m1, m2, T, h1, h2, h3, by rwa [zero_add] at h4⟩
      obtain ⟨T, hT, hb⟩ := hR.total
      have hb := hb e he
      rw [zero_add] at hb
      cases length with
      | none =>
        simp only [Option.some.injEq, Prod.mk.injEq] at h
        obtain ⟨rfl, rfl⟩ := h
        refine ⟨hg, hc1, marks, rfl, hR.comps, hR.drifts, hstarts, hchain, T, hT, by simp, ?_⟩
        intro _ f hf
        rw [he, Option.some.injEq] at hf
        rwa [← hf]
      | some L =>
        simp only at h
        split at h
        · cases h
        · next hbig =>
          split at h
          · next hsmall =>
            simp only [Option.some.injEq, Prod.mk.injEq] at h
            obtain ⟨rfl, rfl⟩ := h
            obtain ⟨hg2, hc2, hget⟩ := getDrift_spec st1 (L - e) hc1
            refine ⟨hg.trans hg2, hc2, marks ++ [((getDrift st1 (L - e)).2, false)], by simp, ?_, ?_, ?_, hchain, T + (L - e), ?_, ?_,
              by simp⟩
            · simp [List.filter_append, hR.comps]
            · intro n hn
              rw [List.mem_append] at hn
              rcases hn with hn | hn
              · obtain ⟨l, hl1, hl2⟩ := hR.drifts n hn
                exact ⟨l, hl1, hg2.1 _ _ hl2⟩
              · rw [List.mem_singleton, Prod.mk.injEq] at hn
                rw [hn.1]
                exact ⟨L - e, by linarith, hget⟩
            · intro k q hk
              obtain ⟨m1, m2, T, h1, h2, h3, h4⟩ := hstarts k q hk
              exact ⟨m1, m2 ++ [((getDrift st1 (L - e)).2, false)], T, by rw [h1]; simp, h2, totalLen_grow hg2 h3, h4⟩
            · apply totalLen_append _ _ _ _ _ (totalLen_grow hg2 hT)
              simp only [totalLen, rowLen_drift hget, add_zero]
            · intro L' hL' _
              rw [Option.some.injEq] at hL'
              rw [← hL', show T + (L - e) - L = T - e by ring]
              linarith
          · next hsmall =>
            simp only [Option.some.injEq, Prod.mk.injEq] at h
            obtain ⟨rfl, rfl⟩ := h
            refine ⟨hg, hc1, marks, rfl, hR.comps, hR.drifts, hstarts, hchain, T, hT, ?_, by simp⟩
            intro L' hL' _
            rw [Option.some.injEq] at hL'
            rw [← hL']
            have hb := abs_le.mp hb
            rw [abs_le]
            constructor <;> nlinarith

/-- C34: the line contains every component once, in s order, with drifts in the gaps, and the
components start where the placements demand; nothing that was in the environment is changed, and a requested length is respected. -/
theorem C34_line (sort : List (Item Nat) → List (Item Nat)) (hp : PySort (cmpLt (1 / 10 ^ 10)) sort) (refer : Anchor) (tol : ℝ)
    (h0 : 0 ≤ tol) (length : Option ℝ) (st st' : St) (ps : List Place) (names : List String) (hc : CacheOk st)
    (h : buildPlaces sort refer tol length st ps = some (st', names)) :
    ∃ (s : Nat → ℝ) (order : List Nat) (marks : List (String × Bool)),
      Demands ps (lenOf st) refer s ∧ names = marks.map (fun m => m.1) ∧ IsLine tol ps s order st' marks ∧ Ext st.dict st'.dict ∧
      ∃ T : ℝ, totalLen st' names = some T ∧ (∀ L, length = some L → 0 ≤ L → |T - L| ≤ tol * (ps.length + 1)) ∧
        (length = none → ∀ i p l, order.getLast? = some i → ps[i]? = some p → rowLen st.dict p.name = some l →
          |T - (s i + l)| ≤ tol * ps.length) := by
  unfold buildPlaces at h
  split at h
  · cases h
  next hmiss =>
  push Not at hmiss
  cases hr : resolve ps (lenOf st) refer with
  | none => rw [hr] at h; cases h
  | some rows =>
  rw [hr] at h
  simp only at h
  cases ho : sortPlaces sort (1 / 10 ^ 10) false (toItems st rows) with
  | none => rw [ho] at h; cases h
  | some out =>
  rw [ho] at h
  simp only at h
  have hpos := C33_positions ps (lenOf st) refer rows hr
  have hlen : rows.length = ps.length := by simpa using congrArg List.length hpos.1
  have hname : ∀ (i : Nat) (r : Row), rows[i]? = some r → ∃ p, ps[i]? = some p ∧ p.name = r.name := by
    intro i r hi
    have := congrArg (fun l => l[i]?) hpos.1
    simp only [List.getElem?_map, hi, Option.map_some] at this
    rw [eq_comm, Option.map_eq_some_iff] at this
    exact this
  have hperm := C35_permutation sort _ hp false _ out ho
  set s : Nat → ℝ := fun i => match rows[i]? with | some r => r.s | none => 0 with hs
  have hsr : ∀ (i : Nat) (r : Row), rows[i]? = some r → s i = r.s := by
    intro i r hi; simp [hs, hi]
  set g : Item Nat → Placed := fun it => ⟨match rows[it.name]? with | some r => r.name | none => "", s it.name, it.len⟩ with hg
  have hout : ∀ it ∈ out, ∃ r, rows[it.name]? = some r ∧ it.len = lenOf st r.name := by
    intro it hit
    obtain ⟨r, h1, h2, -⟩ := mem_toItems (hperm.mem_iff.mp hit)
    exact ⟨r, h1, h2⟩
  have hmap : out.filterMap (toPlaced rows) = out.map g := by
    rw [← List.filterMap_eq_map]
    apply List.filterMap_congr
    intro it hit
    obtain ⟨r, h1, -⟩ := hout it hit
    simp only [toPlaced, h1, hg, hs, Option.map_some, Function.comp]
  have hrl : ∀ q ∈ out.map g, rowLen st.dict q.name = some q.len := by
    intro q hq
    rw [List.mem_map] at hq
    obtain ⟨it, hit, rfl⟩ := hq
    obtain ⟨r, h1, h2⟩ := hout it hit
    obtain ⟨p, hp1, hp2⟩ := hname _ _ h1
    have hne := hmiss p (List.mem_of_getElem? hp1)
    obtain ⟨l, hl⟩ := Option.ne_none_iff_exists'.mp hne
    simp only [hg, h1, h2]
    rw [← hp2, lenOf, hl]
    rfl
  rw [hmap] at h
  obtain ⟨hgrow, hc', marks, hn, hcomps, hdr, hst, hch, T, hT, hL, hE⟩ := generate_spec tol h0 length st _ st' names hc hrl h
  have hol : out.length = ps.length := by
    rw [hperm.length_eq, ← hlen]; simp [toItems]
  refine ⟨s, out.map (fun it => it.name), marks, hpos.2 s hsr, hn, ⟨?_, ?_, hdr, ?_, ?_⟩, hgrow.1, T, hT, ?_, ?_⟩
  · have h1 : (toItems st rows).map (fun it => it.name) = List.range ps.length := by
      rw [← hlen]
      simp only [toItems, List.map_map]
      rw [show ((fun it : Item Nat => it.name) ∘ fun ri : Row × Nat => (⟨ri.2, lenOf st ri.1.name, (isThick st.dict ri.1.name).getD false,
        ri.1.s, ri.1.ref.map Prod.fst, ri.1.ref.bind Prod.snd⟩ : Item Nat)) = Prod.snd from rfl, List.zipIdx_map_snd,
        List.range_eq_range']
    rw [← h1]
    exact hperm.map _
  · rw [hcomps, List.map_map, List.filterMap_map, ← List.filterMap_eq_map]
    apply List.filterMap_congr
    intro it hit
    obtain ⟨r, h1, -⟩ := hout it hit
    obtain ⟨p, hp1, hp2⟩ := hname _ _ h1
    simp [hg, h1, hp1, hp2]
  · intro k i p hk hpi
    rw [List.getElem?_map, Option.map_eq_some_iff] at hk
    obtain ⟨it, hk, rfl⟩ := hk
    obtain ⟨r, h1, -⟩ := hout it (List.mem_of_getElem? hk)
    obtain ⟨p', hp1, hp2⟩ := hname _ _ h1
    rw [hp1, Option.some.injEq] at hpi
    subst hpi
    obtain ⟨m1, m2, T, e1, e2, e3, e4⟩ := hst k (g it) (by rw [List.getElem?_map, hk]; rfl)
    refine ⟨m1, m2, T, ?_, e2, e3, e4⟩
    rw [e1]
    simp [hg, h1, hp2]
  · rw [List.isChain_map]
    rw [List.isChain_map] at hch
    rw [List.isChain_iff_getElem] at hch ⊢
    intro i hi p hpi l hl
    have h1 := hch i hi
    obtain ⟨r, h2, h3⟩ := hout out[i] (List.getElem_mem _)
    obtain ⟨p', hp1, hp2⟩ := hname _ _ h2
    rw [hp1, Option.some.injEq] at hpi
    subst hpi
    obtain ⟨l', hl'⟩ := Option.ne_none_iff_exists'.mp (hmiss p' (List.mem_of_getElem? hp1))
    rw [hgrow.1.rowLen hl', Option.some.injEq] at hl
    simp only [hg] at h1
    rw [h3, ← hp2, lenOf, hl', Option.getD_some, hl] at h1
    exact h1
  · intro L hLe hLp
    have := hL L hLe hLp
    rwa [List.length_map, hol] at this
  · intro hno i p l hi hpi hl
    rw [List.getLast?_map, Option.map_eq_some_iff] at hi
    obtain ⟨it, hi, rfl⟩ := hi
    obtain ⟨r, h2, h3⟩ := hout it (List.mem_of_getLast? hi)
    obtain ⟨p', hp1, hp2⟩ := hname _ _ h2
    rw [hp1, Option.some.injEq] at hpi
    subst hpi
    have hend : ∀ (rs : List Placed), lastEnd rs = rs.getLast?.map (fun q => q.s + q.len) := by
      intro rs
      induction rs with
      | nil => rfl
      | cons a rs ih =>
        cases rs with
        | nil => rfl
        | cons b rs => rw [lastEnd, ih]; simp [List.getLast?_cons_cons]
    have := hE hno (s it.name + l) (by
      rw [hend, List.getLast?_map, hi]
      simp only [Option.map_some, hg]
      rw [h3, ← hp2, lenOf, hl, Option.getD_some])
    rwa [List.length_map, hol] at this


/-- In a line whose components have non-negative lengths no two components overlap by more than the tolerance times their
number. -/
theorem IsLine.no_overlap {tol : ℝ} (h0 : 0 ≤ tol) {ps : List Place} {s : Nat → ℝ} {order : List Nat} {st : St}
    {marks : List (String × Bool)} (h : IsLine tol ps s order st marks)
    (hl : ∀ p ∈ ps, ∃ l : ℝ, 0 ≤ l ∧ rowLen st.dict p.name = some l) (i j : Nat) (hij : i ≠ j) (p q : Place) (li lj : ℝ)
    (hi : ps[i]? = some p) (hj : ps[j]? = some q) (hpl : rowLen st.dict p.name = some li) (hql : rowLen st.dict q.name = some lj) :
    s i + li ≤ s j + tol * ps.length ∨ s j + lj ≤ s i + tol * ps.length := by
  have hn : order.length = ps.length := by simpa using h.once.length_eq
  have hch := List.isChain_iff_getElem.mp h.sorted
  have hps : ∀ (a : Nat) (ha : a < order.length), ∃ r, ps[order[a]]? = some r := by
    intro a ha
    have : order[a] ∈ List.range ps.length := h.once.mem_iff.mp (List.getElem_mem _)
    rw [List.mem_range] at this
    exact ⟨_, List.getElem?_eq_getElem this⟩
  have key : ∀ (d a : Nat) (ha : a + d + 1 < order.length) (r : Place) (l : ℝ), ps[order[a]]? = some r →
      rowLen st.dict r.name = some l → s order[a] + l ≤ s order[a + d + 1] + tol * (d + 1) := by
    intro d
    induction d with
    | zero =>
      intro a ha r l hr hl'
      have := hch a ha r hr l hl'
      simp only [Nat.add_zero]; push_cast; linarith
    | succ d ih =>
      intro a ha r l hr hl'
      have h1 := ih a (by omega) r l hr hl'
      obtain ⟨q, hq⟩ := hps (a + d + 1) (by omega)
      obtain ⟨lq, hlq, hq'⟩ := hl q (List.mem_of_getElem? hq)
      have h2 := hch (a + d + 1) (by omega) q hq lq hq'
      have e : s order[a + (d + 1) + 1] = s order[a + d + 1 + 1] := rfl
      rw [e]; push_cast; linarith
  have mem : ∀ (a : Nat) (r : Place), ps[a]? = some r → ∃ (k : Nat) (hk : k < order.length), order[k] = a := by
    intro a r ha
    exact List.getElem_of_mem (h.once.mem_iff.mpr (List.mem_range.mpr (lt_of_getElem? ha)))
  obtain ⟨x, hx, rfl⟩ := mem i p hi
  obtain ⟨y, hy, rfl⟩ := mem j q hj
  have hxy : x ≠ y := by rintro rfl; exact hij rfl
  rcases lt_or_gt_of_ne hxy with hlt | hlt
  · left
    have := key (y - x - 1) x (by omega) p li hi hpl
    have e : x + (y - x - 1) + 1 = y := by omega
    simp only [e] at this
    have hc : ((y - x - 1 : ℕ) : ℝ) + 1 ≤ ps.length := by
      rw [← hn]; exact_mod_cast (by omega : y - x - 1 + 1 ≤ order.length)
    nlinarith
  · right
    have := key (x - y - 1) y (by omega) q lj hj hql
    have e : y + (x - y - 1) + 1 = x := by omega
    simp only [e] at this
    have hc : ((x - y - 1 : ℕ) : ℝ) + 1 ≤ ps.length := by
      rw [← hn]; exact_mod_cast (by omega : x - y - 1 + 1 ≤ order.length)
    nlinarith

/-- C34: components of non-negative length in a line that has been built do not overlap by more than the tolerance times their number. -/
theorem C34_no_overlap (sort : List (Item Nat) → List (Item Nat)) (hp : PySort (cmpLt (1 / 10 ^ 10)) sort) (refer : Anchor) (tol : ℝ)
    (h0 : 0 ≤ tol) (length : Option ℝ) (st st' : St) (ps : List Place) (names : List String) (hc : CacheOk st)
    (hl : ∀ p ∈ ps, ∃ l : ℝ, 0 ≤ l ∧ rowLen st.dict p.name = some l)
    (h : buildPlaces sort refer tol length st ps = some (st', names)) :
    ∃ s : Nat → ℝ, Demands ps (lenOf st) refer s ∧ ∀ (i j : Nat) (p q : Place), i ≠ j → ps[i]? = some p → ps[j]? = some q →
      s i + lenOf st p.name ≤ s j + tol * ps.length ∨ s j + lenOf st q.name ≤ s i + tol * ps.length := by
  obtain ⟨s, order, marks, hd, -, hline, hext, -⟩ := C34_line sort hp refer tol h0 length st st' ps names hc h
  refine ⟨s, hd, ?_⟩
  intro i j p q hij hi hj
  obtain ⟨lp, hp0, hlp⟩ := hl p (List.mem_of_getElem? hi)
  obtain ⟨lq, hq0, hlq⟩ := hl q (List.mem_of_getElem? hj)
  have := hline.no_overlap h0 (fun r hr => by
    obtain ⟨l, h1, h2⟩ := hl r hr
    exact ⟨l, h1, hext.rowLen h2⟩) i j hij p q lp lq hi hj (hext.rowLen hlp) (hext.rowLen hlq)
  simpa only [lenOf, hlp, hlq, Option.getD_some] using this

/-- The rows can be put in a line: no overlap beyond the tolerance, nothing before 0 or after the requested length. -/
def Fits (tol : ℝ) (length : Option ℝ) (rows : List Placed) : Prop :=
  (∀ r, rows.head? = some r → -tol ≤ r.s) ∧ rows.IsChain (fun a b => a.s + a.len - tol ≤ b.s) ∧
    ∀ L r, length = some L → rows.getLast? = some r → r.s + r.len ≤ L + tol

theorem lastEnd_eq (rs : List Placed) : lastEnd rs = rs.getLast?.map (fun q => q.s + q.len) := by
  induction rs with
  | nil => rfl
  | cons a rs ih =>
    cases rs with
    | nil => rfl
    | cons b rs => rw [lastEnd, ih]; simp [List.getLast?_cons_cons]

theorem generate_none (tol : ℝ) (h0 : 0 ≤ tol) (length : Option ℝ) (st : St) (rows : List Placed) :
    generate tol length st rows = none ↔ ¬ Fits tol length rows := by
  unfold generate Fits
  rw [lastEnd_eq]
  cases rows with
  | nil =>
    simp only [List.getLast?_nil, Option.map_none]
    cases length with
    | none => simp
    | some L => simp only; split <;> simp
  | cons r rows =>
    obtain ⟨q, hq⟩ : ∃ q, (r :: rows).getLast? = some q := ⟨_, List.getLast?_eq_some_getLast (by simp)⟩
    rw [hq]
    simp only [Option.map_some, Option.some.injEq]
    have hfill := fill_none tol h0 (r :: rows) st 0
    cases hf : fill tol st 0 (r :: rows) with
    | none =>
      have := hfill.mp hf
      simp only [true_iff]
      rintro ⟨h1, h2, -⟩
      exact this ⟨h2, fun x hx => by have := h1 x hx; linarith⟩
    | some p =>
      have hok : (r :: rows).IsChain (fun a b => a.s + a.len - tol ≤ b.s) ∧ ∀ x, (r :: rows).head? = some x → 0 - tol ≤ x.s := by
        by_contra hcon
        rw [hfill.mpr hcon] at hf; cases hf
      have h1 : ∀ x, (r :: rows).head? = some x → -tol ≤ x.s := fun x hx => by have := hok.2 x hx; linarith
      obtain ⟨st1, ns⟩ := p
      simp only
      cases length with
      | none =>
        simp only [reduceCtorEq, false_iff, not_not]
        exact ⟨h1, hok.1, by simp⟩
      | some L =>
        simp only [Option.some.injEq]
        split
        · next hbig =>
          simp only [true_iff]
          rintro ⟨-, -, h3⟩
          have := h3 L q rfl rfl
          linarith
        · next hbig =>
          split <;>
          · simp only [reduceCtorEq, false_iff, not_not]
            refine ⟨h1, hok.1, ?_⟩
            rintro L' x rfl rfl
            exact not_lt.mp hbig

/-- C34: the validation of the placements raises exactly when building the line would. -/
theorem C34_validate (tol : ℝ) (h0 : 0 ≤ tol) (length : Option ℝ) (st : St) (rows : List Placed) :
    valid tol length true rows ↔ ∃ t, generate tol length st rows = some t := by
  rw [← Option.ne_none_iff_exists', Ne, generate_none tol h0, not_not]
  unfold valid Fits
  rw [lastEnd_eq]
  cases hq : rows.getLast? with
  | none =>
    rw [List.getLast?_eq_none_iff] at hq
    subst hq
    simp
  | some q =>
    simp only [Option.map_some, true_imp_iff, Option.some.injEq]
    constructor
    · rintro ⟨⟨h1, h2⟩, h3⟩
      refine ⟨fun r hr => not_lt.mp (h2 r hr), h1.imp (fun a b hab => by linarith [not_lt.mp hab]), ?_⟩
      rintro L r hL rfl
      exact not_lt.mp (h3 L hL)
    · rintro ⟨h1, h2, h3⟩
      refine ⟨⟨h2.imp (fun a b hab => by linarith), fun r hr => not_lt.mpr (h1 r hr)⟩, ?_⟩
      intro L hL
      exact not_lt.mpr (h3 L q hL rfl)

/-- Centers of the placed components are equal or clearly apart. -/
def Apart (ps : List Place) (len : String → ℝ) (s : Nat → ℝ) : Prop :=
  ∀ (i j : Nat) (p q : Place), ps[i]? = some p → ps[j]? = some q →
    s i + len p.name / 2 = s j + len q.name / 2 ∨ 1 / 10 ^ 10 < |(s i + len p.name / 2) - (s j + len q.name / 2)|

/-- C34: when the names are known and the positions can be resolved, building raises only because a component starts before 0,
two components overlap beyond the tolerance, or a component ends after the requested length. -/
theorem C34_raises_only (sort : List (Item Nat) → List (Item Nat)) (hp : PySort (cmpLt (1 / 10 ^ 10)) sort) (refer : Anchor) (tol : ℝ)
    (h0 : 0 ≤ tol) (length : Option ℝ) (st : St) (ps : List Place) (rows : List Row) (hk : ∀ p ∈ ps, rowLen st.dict p.name ≠ none)
    (hr : resolve ps (lenOf st) refer = some rows) (h : buildPlaces sort refer tol length st ps = none) :
    ∃ s : Nat → ℝ, Demands ps (lenOf st) refer s ∧
      ((∃ i p, ps[i]? = some p ∧ s i < -tol) ∨
        (∃ i j p q, i ≠ j ∧ ps[i]? = some p ∧ ps[j]? = some q ∧ s j < s i + lenOf st p.name - tol ∧
          (Apart ps (lenOf st) s → s i + lenOf st p.name / 2 ≤ s j + lenOf st q.name / 2)) ∨
        ∃ L i p, length = some L ∧ ps[i]? = some p ∧ L + tol < s i + lenOf st p.name) := by
  obtain ⟨out, ho⟩ := C35_resolved_never_raises sort (1 / 10 ^ 10) hp false st ps refer rows hr
  unfold buildPlaces at h
  rw [if_neg (by push Not; exact hk), hr] at h
  simp only [ho] at h
  rw [generate_none tol h0] at h
  have hpos := C33_positions ps (lenOf st) refer rows hr
  have hperm := C35_permutation sort _ hp false _ out ho
  have hname : ∀ (i : Nat) (r : Row), rows[i]? = some r → ∃ p, ps[i]? = some p ∧ p.name = r.name := by
    intro i r hi
    have := congrArg (fun l => l[i]?) hpos.1
    simp only [List.getElem?_map, hi, Option.map_some] at this
    rw [eq_comm, Option.map_eq_some_iff] at this
    exact this
  set s : Nat → ℝ := fun i => match rows[i]? with | some r => r.s | none => 0 with hs
  have hsr : ∀ (i : Nat) (r : Row), rows[i]? = some r → s i = r.s := by
    intro i r hi; simp [hs, hi]
  refine ⟨s, hpos.2 s hsr, ?_⟩
  have hout : ∀ it ∈ out, ∃ p, ps[it.name]? = some p ∧ it.len = lenOf st p.name ∧ s it.name = it.s ∧
      toPlaced rows it = some ⟨p.name, it.s, it.len⟩ := by
    intro it hit
    obtain ⟨r, h1, h2, h3, -⟩ := mem_toItems (hperm.mem_iff.mp hit)
    obtain ⟨p, hp1, hp2⟩ := hname _ _ h1
    exact ⟨p, hp1, by rw [h2, hp2], by rw [hsr _ _ h1, h3], by simp [toPlaced, h1, hp2, h3]⟩
  set g : Item Nat → Placed := fun it => (toPlaced rows it).getD ⟨"", 0, 0⟩ with hg
  have hmap : out.filterMap (toPlaced rows) = out.map g := by
    rw [← List.filterMap_eq_map]
    apply List.filterMap_congr
    intro it hit
    obtain ⟨p, -, -, -, h4⟩ := hout it hit
    simp only [hg, h4, Option.getD_some, Function.comp]
  have hgs : ∀ it ∈ out, (g it).s = s it.name ∧ (g it).len = it.len := by
    intro it hit
    obtain ⟨p, h1, h2, h3, h4⟩ := hout it hit
    simp [hg, h4, h3]
  rw [hmap] at h
  by_contra hcon
  push Not at hcon
  obtain ⟨c1, c2, c3⟩ := hcon
  apply h
  refine ⟨?_, ?_, ?_⟩
  · intro r hr
    rw [List.head?_map, Option.map_eq_some_iff] at hr
    obtain ⟨it, hit, rfl⟩ := hr
    have hm := List.mem_of_head? hit
    obtain ⟨p, h1, -⟩ := hout it hm
    rw [(hgs it hm).1]
    exact c1 _ p h1
  · rw [List.isChain_map, List.isChain_iff_getElem]
    intro k hk
    obtain ⟨p, h1, h2, h3, -⟩ := hout out[k] (List.getElem_mem _)
    obtain ⟨q, g1, g2, g3, -⟩ := hout out[k + 1] (List.getElem_mem _)
    rw [(hgs _ (List.getElem_mem _)).1, (hgs _ (List.getElem_mem _)).2, (hgs _ (List.getElem_mem _)).1, h2]
    by_contra hlt
    rw [not_le] at hlt
    have hnd : (out.map (fun it => it.name)).Nodup := by
      rw [(hperm.map (fun it : Item Nat => it.name)).nodup_iff]
      rw [show (toItems st rows).map (fun it => it.name) = rows.zipIdx.map Prod.snd by simp [toItems, Function.comp_def],
        List.zipIdx_map_snd]
      exact List.nodup_range'
    have hne : out[k].name ≠ out[k + 1].name := by
      intro e
      have := (List.nodup_iff_injective_getElem.mp hnd)
        (a₁ := ⟨k, by rw [List.length_map]; omega⟩) (a₂ := ⟨k + 1, by rw [List.length_map]; omega⟩) (by simpa using e)
      simp at this
    obtain ⟨hap, hgt⟩ := c2 out[k].name out[k + 1].name p q hne h1 g1 hlt
    have hsep : Separated (1 / 10 ^ 10) (toItems st rows) := by
      intro a ha b hb
      obtain ⟨pa, a1, a2, a3, -⟩ := hout a (hperm.mem_iff.mpr ha)
      obtain ⟨pb, b1, b2, b3, -⟩ := hout b (hperm.mem_iff.mpr hb)
      have := hap _ _ _ _ a1 b1
      unfold Item.center
      rw [← a3, ← b3, a2, b2]
      exact this
    have hsorted := C35_sorted_partial sort _ hp false _ out hsep ho
    have := List.pairwise_iff_getElem.mp hsorted k (k + 1) (by omega) hk (by omega)
    unfold Item.center at this
    rw [← h3, ← g3, h2, g2] at this
    linarith
  · intro L r hL hr
    rw [List.getLast?_map, Option.map_eq_some_iff] at hr
    obtain ⟨it, hit, rfl⟩ := hr
    have hm := List.mem_of_getLast? hit
    obtain ⟨p, h1, h2, -⟩ := hout it hm
    rw [(hgs it hm).1, (hgs it hm).2, h2]
    exact c3 L _ p hL h1

/-- C34, line given by names only: the names are kept in order, and a requested length is reached with one drift at the end; longer lines
raise. -/
theorem C34_names_with_length (sort : List (Item Nat) → List (Item Nat)) (refer : Anchor) (tol : ℝ) (h0 : 0 ≤ tol) (L T : ℝ) (st : St)
    (names : List String) (hT : totalLen st names = some T) :
    (assemble sort refer tol (some L) false st (names.map Entry.str) = none ↔ L + tol < T) ∧
      ∀ st' out, assemble sort refer tol (some L) false st (names.map Entry.str) = some (st', out) →
        Ext st.dict st'.dict ∧ (∃ T', totalLen st' out = some T' ∧ |T' - L| ≤ tol) ∧
          (out = names ∨ ∃ d l, out = names ++ [d] ∧ tol < l ∧ Slicing.get st'.dict d = some (.body Slicing.driftKind l)) := by
  have hall : (names.map Entry.str).all Entry.isStr = true := by
    rw [List.all_map, List.all_eq_true]; intro x _; rfl
  have hnames : (names.map Entry.str).map (fun e => e.toPlace.name) = names := by
    rw [List.map_map]; exact List.map_id _
  unfold assemble
  simp only [hall, hnames, hT, if_true, Bool.false_eq_true, if_false]
  constructor
  · constructor
    · intro h
      by_contra hcon
      rw [if_neg hcon] at h
      split at h <;> simp at h
    · intro h
      rw [if_pos h]; rfl
  · intro st' out h
    split at h
    · simp at h
    · next h1 =>
      split at h
      · next h2 =>
        simp only [Option.map_some, Option.some.injEq, Prod.mk.injEq] at h
        obtain ⟨rfl, rfl⟩ := h
        have hf := (Names.firstFree_spec Slicing.driftName Slicing.driftName_injective (Slicing.keys st.dict) (st.counter + 1)).2.1
        generalize Names.firstFree Slicing.driftName (Slicing.keys st.dict) (st.counter + 1) = i at hf ⊢
        have hext : Ext st.dict ((Slicing.driftName i, Slicing.El.body Slicing.driftKind (L - T)) :: st.dict) := Slicing.ext_cons _ _ _ hf
        have hget := Slicing.get_cons_self st.dict (Slicing.driftName i) (.body Slicing.driftKind (L - T))
        refine ⟨hext, ⟨T + (L - T), ?_, ?_⟩, Or.inr ⟨Slicing.driftName i, L - T, rfl, by linarith, hget⟩⟩
        · have hT' : ∀ (l : List String) (x : ℝ), totalLen st l = some x →
              totalLen ⟨(Slicing.driftName i, Slicing.El.body Slicing.driftKind (L - T)) :: st.dict, st.cache, i⟩ l = some x := by
            intro l
            induction l with
            | nil => intro x hx; exact hx
            | cons n l ih =>
              intro x hx
              simp only [totalLen] at hx ⊢
              split at hx
              · next u v hu hv => rw [hext.rowLen hu, ih v hv]; exact hx
              · cases hx
          apply totalLen_append _ _ _ _ _ (hT' _ _ hT)
          simp only [totalLen, rowLen_drift (st := ⟨_, st.cache, i⟩) hget, add_zero]
        · rw [show T + (L - T) - L = 0 by ring, abs_zero]; exact h0
      · next h2 =>
        simp only [Option.map_some, Option.some.injEq, Prod.mk.injEq] at h
        obtain ⟨rfl, rfl⟩ := h
        refine ⟨Ext.refl _, ⟨T, hT, ?_⟩, Or.inl rfl⟩
        rw [abs_le]
        constructor <;> linarith

end Verif.Composer
