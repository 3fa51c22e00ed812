import Verif.Slicing.CutProps

/-!
# More about `cut_at_s`: the pieces of every element
-/

namespace Verif.Slicing

/-- Position of a row of the table. -/
theorem cutTable_index (d : Dict) (rows : List (String × String)) (lens : List ℝ) (tb : List CutRow)
    (hl : rows.map (fun r => rowLen d r.2) = lens.map some) (hpos : ∀ l ∈ lens, 0 ≤ l) (htb : cutTable d 0 rows = some tb)
    (i : Nat) (r : CutRow) (hi : tb[i]? = some r) :
    r.start = startOf lens i ∧ lens[i]? = some r.len ∧ ∃ row, rows[i]? = some row ∧ r.name = row.1 ∧ isThick d row.2 = some r.thick := by
  obtain ⟨t1, t2, t3, t4, t5⟩ := cutTable_spec d rows 0 lens tb hl hpos htb
  have hilt : i < tb.length := (List.getElem?_eq_some_iff.mp hi).1
  have hlen : tb.length = rows.length := by simpa using congrArg List.length t2
  have hrow : rows[i]? = some (rows[i]'(by omega)) := List.getElem?_eq_getElem _
  have h2 := congrArg (fun l => l[i]?) t2
  have h3 := congrArg (fun l => l[i]?) t3
  have h4 := congrArg (fun l => l[i]?) t4
  have h5 := congrArg (fun l => l[i]?) t5
  simp only [List.getElem?_map, hi, hrow, Option.map_some, Option.some.injEq] at h2 h3 h4 h5
  rw [List.getElem?_range (by omega)] at h4
  simp only [Option.map_some, Option.some.injEq, zero_add] at h4
  exact ⟨h4, h3.symm, _, hrow, h2, h5.symm⟩

theorem pick_skip (name : String) (el base : El) (l r : List Strategy) (hl : ∀ t ∈ l, t.matchesEl name el base = false) :
    pick name el base (l ++ r) = pick name el base r := by
  induction l with
  | nil => rfl
  | cons t l ih =>
    rw [List.cons_append, pick, hl t List.mem_cons_self]
    exact ih (fun u hu => hl u (List.mem_cons_of_mem _ hu))

/-- Without cuts an element is left alone. -/
theorem no_cut_strategy (names : List String) (cuts : List (String × ℝ)) (n : String) (hc : cutsOf cuts n = []) (el base : El)
    (hd : isDriftEl el = true → isDriftEl base = true) :
    schemeFor (cutStrategies names cuts) n el base = some none := by
  have hno : ∀ t ∈ (names.filter (fun n => !(cutsOf cuts n).isEmpty)).map
      (fun n => (⟨some (.custom (cutsOf cuts n) .thick), some (fun m => m == n), none⟩ : Strategy)), t.matchesEl n el base = false := by
    intro t ht
    obtain ⟨m, hm, rfl⟩ := List.mem_map.mp ht
    have hne : n ≠ m := by
      rintro rfl
      have := (List.mem_filter.mp hm).2
      rw [hc] at this
      simp at this
    have : (n == m) = false := by simpa using hne
    unfold Strategy.matchesEl
    simp [this]
  unfold schemeFor cutStrategies
  rw [List.reverse_cons, List.reverse_cons, List.append_assoc, pick_skip]
  · cases hel : isDriftEl el with
    | true => simp [pick, Strategy.matchesEl, catchAll, defaultStrategy, hel, hd hel]
    | false => simp [pick, Strategy.matchesEl, catchAll, hel]
  · intro t ht
    exact hno t (List.mem_reverse.mp ht)

/-- All lengths of elements are non-negative. -/
def NonNeg (d : Dict) (els : List El) : Prop := ∀ e ∈ els, ∃ x, elLen d e = some x ∧ 0 ≤ x

theorem thickEls_nonneg (d : Dict) (c : Ctx) (hc : c.Ok d) (h0 : 0 ≤ c.len) (ws : List (ℝ × Bool)) (hw : ∀ w ∈ ws, 0 ≤ w.1) :
    ∀ off, NonNeg d (thickEls c ws off) := by
  induction ws with
  | nil => intro off e he; exact absurd he (by simp [thickEls])
  | cons w ws ih =>
    obtain ⟨w, f⟩ := w
    intro off e he
    rw [thickEls] at he
    rcases List.mem_cons.mp he with rfl | he
    · have := hw (w, f) List.mem_cons_self
      have hx' : elLen d (if c.auto then .body driftKind (c.len * w * c.ew) else .slice c.thickKind c.parent (w * c.ew) off) = some (c.len * w) := by
        have hd := elLen_drift d c hc w off
        split at hd
        · rename_i ha
          rw [if_pos ha]; exact hd
        · rename_i ha
          rw [if_neg ha]
          unfold Ctx.thickKind
          split
          · exact hd
          · exact hd
      exact ⟨_, hx', mul_nonneg h0 this⟩
    · exact ih (fun v hv => hw v (List.mem_cons_of_mem _ hv)) _ e he

theorem thinEls_nonneg (d : Dict) (c : Ctx) (hc : c.Ok d) (h0 : 0 ≤ c.len) (ws : List (ℝ × Bool)) (hw : ∀ w ∈ ws, 0 ≤ w.1) :
    ∀ off, NonNeg d (thinEls c ws off) := by
  induction ws with
  | nil => intro off e he; exact absurd he (by simp [thinEls])
  | cons w ws ih =>
    obtain ⟨w, f⟩ := w
    have ih := ih (fun v hv => hw v (List.mem_cons_of_mem _ hv))
    intro off e he
    cases f with
    | true =>
      rw [thinEls] at he
      rcases List.mem_cons.mp he with rfl | he
      · exact ⟨_, elLen_drift d c hc w off, mul_nonneg h0 (hw (w, true) List.mem_cons_self)⟩
      · exact ih _ e he
    | false =>
      rw [thinEls] at he
      split at he
      · rcases List.mem_cons.mp he with rfl | he
        · exact ⟨0, rfl, le_refl _⟩
        · exact ih _ e he
      · exact ih _ e he

theorem block_nonneg (d : Dict) (atS : List ℝ) (c : Ctx) (hc : c.Ok d) (hl : 0 < c.len) (p : String) (edges m : Bool)
    (ws : List (ℝ × Bool)) (h : (Scheme.custom atS .thick).iterWeights c.len = some ws)
    (hs : List.Pairwise (· ≤ ·) (0 :: atS)) (hb : ∀ a ∈ atS, a ≤ c.len) :
    NonNeg d (withMarkers m (blockEls (.custom atS .thick) c p edges ws)) := by
  obtain ⟨h1, -⟩ := iterWeights_thick _ rfl c.len ws h
  have hw : ∀ w ∈ ws, 0 ≤ w.1 := by
    intro w hw
    refine C30_nonneg (.custom atS .thick) c.len hl ?_ _ h1 _ (List.mem_map_of_mem hw)
    intro a m e
    cases e
    exact ⟨hs, hb⟩
  have hedge : ∀ off, NonNeg d (edgeEls edges p off) := by
    intro off e he
    unfold edgeEls at he
    split at he
    · rw [List.mem_singleton] at he; subst he
      exact ⟨0, rfl, le_refl _⟩
    · exact absurd he (by simp)
  have hblock : NonNeg d (blockEls (.custom atS .thick) c p edges ws) := by
    intro e he
    unfold blockEls at he
    rcases List.mem_append.mp he with he | he
    · exact hedge _ e he
    rcases List.mem_append.mp he with he | he
    · split at he
      · exact thinEls_nonneg d c hc hl.le ws hw 0 e he
      · exact thickEls_nonneg d c hc hl.le ws hw 0 e he
    · exact hedge _ e he
  intro e he
  unfold withMarkers at he
  split at he
  · rcases List.mem_cons.mp he with rfl | he
    · exact ⟨0, rfl, le_refl _⟩
    rcases List.mem_append.mp he with he | he
    · exact hblock e he
    · rw [List.mem_singleton] at he; subst he
      exact ⟨0, rfl, le_refl _⟩
  · exact hblock e he

theorem isDrift_base (d : Dict) (n : String) (el base : El) (h1 : get d n = some el) (h2 : baseEl d n = some base)
    (hd : isDriftEl el = true) : isDriftEl base = true := by
  unfold baseEl baseName at h2
  rw [h1] at h2
  cases el with
  | replica p => exact absurd hd (by simp [isDriftEl])
  | thin => exact absurd hd (by simp [isDriftEl])
  | body k l => simp only [h1, Option.some.injEq] at h2; rw [← h2]; exact hd
  | slice k p w o => exact absurd hd (by simp [isDriftEl])

/-- The pieces of one element: no length is negative, and an element with no position strictly inside it is left alone. -/
theorem cut_rows (tol : ℝ) (s : List ℝ) (rows : List (String × String)) (st st' : St)
    (blocks : List (List String)) (lens : List ℝ) (hc : CacheOk st) (hn : NoClash st.dict (rows.map Prod.snd))
    (hnd : (rows.map Prod.fst).Nodup) (hl : rows.map (fun r => rowLen st.dict r.2) = lens.map some) (hpos : ∀ l ∈ lens, 0 ≤ l)
    (h : cutAtS tol s st rows = some (st', blocks)) (i : Nat) (row : String × String) (hrow : rows[i]? = some row) :
    ∃ (b : List String) (lb : List ℝ), blocks[i]? = some b ∧ b.map (rowLen st'.dict) = lb.map some ∧ (∀ x ∈ lb, 0 ≤ x) ∧
      ((∀ x ∈ s, ¬ (startOf lens i < x ∧ x < startOf lens (i + 1))) → b = [row.2]) := by
  unfold cutAtS at h
  cases htb : cutTable st.dict 0 rows with
  | none => rw [htb] at h; exact absurd h (by simp)
  | some tb =>
    rw [htb] at h
    simp only at h
    cases hsc : scan tol tb (sortedSet s) with
    | none => rw [hsc] at h; exact absurd h (by simp)
    | some cuts =>
      rw [hsc] at h
      simp only at h
      obtain ⟨t1, t2, t3, t4, t5⟩ := cutTable_spec st.dict rows 0 lens tb hl hpos htb
      obtain ⟨b, s1, s2, c1, c2, c3, c4, c5, c6⟩ := sliceLine_row true _ (rows.map Prod.snd) rows st st' blocks lens hc
        (fun _ => hn) (fun r hr => List.mem_map_of_mem hr) hl h i row hrow
      have hlen : tb.length = rows.length := by simpa using congrArg List.length t2
      have hilt : i < rows.length := (List.getElem?_eq_some_iff.mp hrow).1
      obtain ⟨r, hr⟩ : ∃ r, tb[i]? = some r := ⟨tb[i]'(by omega), List.getElem?_eq_getElem _⟩
      obtain ⟨i1, i2, row', i3, i4, i5⟩ := cutTable_index st.dict rows lens tb hl hpos htb i r hr
      rw [hrow, Option.some.injEq] at i3
      subst i3
      have hrl : rowLen st.dict row.2 = some r.len := by
        have := congrArg (fun l => l[i]?) hl
        simpa [List.getElem?_map, hrow, i2] using this
      have hbase : ∃ base, baseEl st.dict row.2 = some base := by
        unfold rowLen at hrl
        cases hb : baseEl st.dict row.2 with
        | none => rw [hb] at hrl; exact absurd hrl (by simp)
        | some e => exact ⟨e, rfl⟩
      obtain ⟨base, hbase⟩ := hbase
      have hbase1 := c2.baseEl hbase
      obtain ⟨el, hel⟩ : ∃ el, get s1.dict row.2 = some el := by
        unfold baseEl baseName at hbase1
        cases hg : get s1.dict row.2 with
        | none => rw [hg] at hbase1; exact absurd hbase1 (by simp)
        | some e => exact ⟨e, rfl⟩
      have hth1 : isThick s1.dict row.2 = some r.thick := by
        unfold isThick at i5 ⊢
        rw [hbase] at i5
        rw [hbase1]
        exact i5
      have hrl1 := c2.rowLen hrl
      have h0 : 0 ≤ r.len := hpos _ (List.mem_of_getElem? i2)
      unfold sliceRow at c5
      rw [hel, hbase1, hth1] at c5
      simp only at c5
      have hsame : s2 = s1 ∧ b = [row.2] → ∃ (b' : List String) (lb : List ℝ), blocks[i]? = some b' ∧
          b'.map (rowLen st'.dict) = lb.map some ∧ (∀ x ∈ lb, 0 ≤ x) ∧
          ((∀ x ∈ s, ¬ (startOf lens i < x ∧ x < startOf lens (i + 1))) → b' = [row.2]) := by
        rintro ⟨rfl, rfl⟩
        refine ⟨_, [r.len], c1, by simp [c6.rowLen hrl1], ?_, fun _ => rfl⟩
        intro x hx; rw [List.mem_singleton.mp hx]; exact h0
      split at c5
      · simp only [Option.some.injEq, Prod.mk.injEq] at c5
        exact hsame ⟨c5.1.symm, c5.2.symm⟩
      · rename_i hnt
        by_cases hcut : cutsOf cuts row.1 = []
        · rw [no_cut_strategy _ cuts row.1 hcut el base (isDrift_base s1.dict row.2 el base hel hbase1)] at c5
          simp only [Option.some.injEq, Prod.mk.injEq] at c5
          exact hsame ⟨c5.1.symm, c5.2.symm⟩
        · rw [cut_strategy (rows.map Prod.fst) hnd cuts row.1 (List.mem_map_of_mem (List.mem_of_getElem? hrow)) hcut] at c5
          simp only at c5
          have hrowof : ∀ q ∈ tb, q.name = row.1 → q = r := by
            intro q hq hqn
            have hnd' : (tb.map CutRow.name).Nodup := by rw [t2]; exact hnd
            obtain ⟨j, hj⟩ := List.getElem?_of_mem hq
            have hij : j = i := by
              have hj' : (tb.map CutRow.name)[j]? = some row.1 := by rw [List.getElem?_map, hj, ← hqn]; rfl
              have hi' : (tb.map CutRow.name)[i]? = some row.1 := by rw [List.getElem?_map, hr, ← i4]; rfl
              have hjl : j < (tb.map CutRow.name).length := (List.getElem?_eq_some_iff.mp hj').1
              exact (List.getElem?_inj hjl hnd').mp (hj'.trans hi'.symm)
            rw [hij, hr] at hj
            exact (Option.some.inj hj).symm
          obtain ⟨x0, hx0⟩ := List.exists_mem_of_ne_nil _ hcut
          have hin : ∀ x ∈ cutsOf cuts row.1, 0 < x ∧ x < r.len ∧ r.start + x ∈ sortedSet s := by
            intro x hx
            unfold cutsOf at hx
            obtain ⟨c, hcm, rfl⟩ := List.mem_map.mp hx
            obtain ⟨g1, g2⟩ := List.mem_filter.mp hcm
            have g2 : c.1 = row.1 := by simpa using g2
            obtain ⟨q, hq, q1, q2, q3, q4⟩ := scan_cuts tol tb (sortedSet s) cuts hsc c g1
            have hqr := hrowof q hq (by rw [q1, g2])
            subst hqr
            have hstrict : List.Pairwise (· < ·) (sortedSet s) := by
              have h1 := sortedSet_sorted s
              have h2 : (sortedSet s).Nodup := by
                classical
                unfold sortedSet
                exact (List.perm_insertionSort _ _).nodup_iff.mpr (List.nodup_dedup _)
              exact (List.Pairwise.and h1 h2).imp (fun ⟨h3, h4⟩ => lt_of_le_of_ne h3 h4)
            obtain ⟨q', hq', q1', q2'⟩ := (scan_sorted tol tb (sortedSet s) cuts (by rw [t2]; exact hnd) hstrict hsc).2 c g1
            have hqr' := hrowof q' hq' (by rw [q1', g2])
            subst hqr'
            exact ⟨q3, q4, q2'⟩
          have hord := (C32_cuts_inside tol s st.dict rows tb 0 lens cuts hnd hl hpos htb hsc row.1).1
          obtain ⟨e1, e2, e3, c, p, ws, e4, e5, e6, e7⟩ := sliceElement_spec true _ s1 s2 row.2 b (rows.map Prod.snd) c3 c4
            (List.mem_map_of_mem (List.mem_of_getElem? hrow)) c5
          obtain ⟨hok, hclen⟩ := context_ok s1.dict row.2 c e4
          rw [hrl1] at hclen
          simp only [Option.some.injEq] at hclen
          obtain ⟨p1, p2, p3⟩ := hin x0 hx0
          have hnn := block_nonneg st'.dict (cutsOf cuts row.1) c (ok_ext (e1.trans c6) hok) (by rw [← hclen]; linarith) p
            (edgesOf s1.dict row.2) (true && wantsMarkers s1.dict row.2) ws e6 hord
            (fun a ha => by rw [← hclen]; exact (hin a ha).2.1.le)
          obtain ⟨-, -, ls, b3, b4, b5, b6⟩ := C31_lengths_partial true _ rows st st' blocks lens hc (fun _ => hn) hl h
          obtain ⟨lb, hlb⟩ : ∃ lb, ls[i]? = some lb := by
            have := congrArg List.length b3
            simp only [List.length_map] at this
            have hb := (List.getElem?_eq_some_iff.mp c1).1
            exact ⟨ls[i]'(by omega), List.getElem?_eq_getElem _⟩
          have hlbs : b.map (rowLen st'.dict) = lb.map some := by
            have := congrArg (fun l => l[i]?) b3
            simp only [List.getElem?_map, c1, hlb, Option.map_some, Option.some.injEq] at this
            exact this
          refine ⟨b, lb, c1, hlbs, ?_, ?_⟩
          · have e7' := map_get_ext c6 _ _ e7
            intro x hx
            obtain ⟨k, hk⟩ := List.getElem?_of_mem hx
            have h1 := congrArg (fun l => l[k]?) hlbs
            simp only [List.getElem?_map, hk, Option.map_some] at h1
            cases hbk : b[k]? with
            | none => rw [hbk] at h1; exact absurd h1 (by simp)
            | some m =>
              rw [hbk] at h1
              simp only [Option.map_some, Option.some.injEq] at h1
              have h2 := congrArg (fun l => l[k]?) e7'
              simp only [List.getElem?_map, hbk, Option.map_some] at h2
              generalize withMarkers (true && wantsMarkers s1.dict row.2)
                (blockEls (.custom (cutsOf cuts row.1) .thick) c p (edgesOf s1.dict row.2) ws) = els at h2 hnn
              cases hek : els[k]? with
              | none => rw [hek] at h2; exact absurd h2 (by simp)
              | some e =>
                rw [hek] at h2
                simp only [Option.map_some, Option.some.injEq] at h2
                obtain ⟨y, hy, hy0⟩ := hnn e (List.mem_of_getElem? hek)
                have hne : ∀ q, e ≠ .replica q := by
                  rintro q rfl
                  exact absurd hy (by simp [elLen])
                have hb : baseEl st'.dict m = some e := by
                  unfold baseEl baseName
                  rw [h2]
                  cases e with
                  | replica q => exact absurd rfl (hne q)
                  | thin => exact h2
                  | body k l => exact h2
                  | slice k q w o => exact h2
                unfold rowLen at h1
                rw [hb] at h1
                simp only at h1
                rw [hy, Option.some.injEq] at h1
                rw [← h1]
                exact hy0
          · intro hno
            exfalso
            refine hno _ ((sortedSet_mem s _).mp p3) ⟨by rw [i1]; linarith, ?_⟩
            have : startOf lens (i + 1) = startOf lens i + r.len := by
              unfold startOf
              rw [List.take_add_one, i2]
              simp
            rw [this, i1]
            linarith

end Verif.Slicing
