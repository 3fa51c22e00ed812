import Verif.Slicing.Cut
import Verif.Slicing.Props
import Mathlib.Data.List.Dedup

/-!
# C32: cutting at given positions
-/

namespace Verif.Slicing

/-- `x` is a boundary of a list of elements with these lengths. -/
def Boundary (lens : List ℝ) (x : ℝ) : Prop := ∃ j, (lens.take j).sum = x

/-! ## The scan -/

/-- Rows follow each other from `a` on; lengths are not negative, thin elements have none. -/
def Contiguous : ℝ → List CutRow → Prop
  | _, [] => True
  | a, r :: rows => r.start = a ∧ 0 ≤ r.len ∧ (r.thick = false → r.len = 0) ∧ Contiguous (a + r.len) rows

/-- End of the last row. -/
noncomputable def endOf : ℝ → List CutRow → ℝ
  | a, [] => a
  | a, r :: rows => endOf (a + r.len) rows

/-- Start of a row, or the end. -/
def isEdge (rows : List CutRow) (x : ℝ) : Prop := ∃ r ∈ rows, x = r.start ∨ x = r.start + r.len

/-- What the scan guarantees for the position `s`. -/
def Handled (tol a : ℝ) (rows : List CutRow) (cuts : List (String × ℝ)) (s : ℝ) : Prop :=
  s < a ∨ (∃ x, isEdge rows x ∧ |s - x| ≤ tol) ∨
    ∃ r ∈ rows, r.thick = true ∧ r.start < s ∧ s < r.start + r.len ∧ (r.name, s - r.start) ∈ cuts

theorem handled_tail {tol a : ℝ} {r : CutRow} {rows : List CutRow} {cuts : List (String × ℝ)} {s : ℝ} {b : ℝ}
    (h : Handled tol b rows cuts s) (hb : b ≤ s) : Handled tol a (r :: rows) cuts s := by
  rcases h with h | ⟨x, ⟨q, hq, hx⟩, h⟩ | ⟨q, hq, h1, h2, h3, h4⟩
  · linarith
  · exact Or.inr (Or.inl ⟨x, ⟨q, List.mem_cons_of_mem _ hq, hx⟩, h⟩)
  · exact Or.inr (Or.inr ⟨q, List.mem_cons_of_mem _ hq, h1, h2, h3, h4⟩)

theorem handled_cuts {tol a : ℝ} {rows : List CutRow} {cuts : List (String × ℝ)} {s : ℝ} (c : String × ℝ)
    (h : Handled tol a rows cuts s) : Handled tol a rows (c :: cuts) s := by
  rcases h with h | h | ⟨q, hq, h1, h2, h3, h4⟩
  · exact Or.inl h
  · exact Or.inr (Or.inl h)
  · exact Or.inr (Or.inr ⟨q, hq, h1, h2, h3, List.mem_cons_of_mem _ h4⟩)

theorem scan_handles (tol : ℝ) (rows : List CutRow) (ss : List ℝ) : ∀ (a : ℝ) (cuts : List (String × ℝ)),
    Contiguous a rows → List.Pairwise (· ≤ ·) ss → scan tol rows ss = some cuts → ∀ s ∈ ss, Handled tol a rows cuts s := by
  induction rows, ss using scan.induct tol with
  | case1 rows => intro a cuts _ _ _ s hs; exact absurd hs (by simp)
  | case2 s ss => intro a cuts _ _ h; exact absurd h (by simp [scan])
  | case3 r rows s ss ht ih =>
    intro a cuts hc hp h
    rw [scan, if_pos ht] at h
    obtain ⟨h1, h2, h3, h4⟩ := hc
    have hz := h3 ht
    rw [hz, add_zero] at h4
    intro x hx
    rcases ih a cuts h4 hp h x hx with g | ⟨y, ⟨q, hq, hy⟩, g⟩ | ⟨q, hq, g1, g2, g3, g4⟩
    · exact Or.inl g
    · exact Or.inr (Or.inl ⟨y, ⟨q, List.mem_cons_of_mem _ hq, hy⟩, g⟩)
    · exact Or.inr (Or.inr ⟨q, List.mem_cons_of_mem _ hq, g1, g2, g3, g4⟩)
  | case4 r rows s ss ht hs ih =>
    intro a cuts hc hp h
    rw [scan, if_neg ht, if_pos hs] at h
    intro x hx
    rcases List.mem_cons.mp hx with rfl | hx
    · exact Or.inr (Or.inl ⟨r.start, ⟨r, List.mem_cons_self, Or.inl rfl⟩, hs⟩)
    · exact ih a cuts hc (List.pairwise_cons.mp hp).2 h x hx
  | case5 r rows s ss ht hs he ih =>
    intro a cuts hc hp h
    rw [scan, if_neg ht, if_neg hs, if_pos he] at h
    intro x hx
    rcases List.mem_cons.mp hx with rfl | hx
    · exact Or.inr (Or.inl ⟨r.start + r.len, ⟨r, List.mem_cons_self, Or.inr rfl⟩, he⟩)
    · exact ih a cuts hc (List.pairwise_cons.mp hp).2 h x hx
  | case6 r rows s ss ht hs he hi ih =>
    intro a cuts hc hp h
    rw [scan, if_neg ht, if_neg hs, if_neg he, if_pos hi] at h
    cases hrec : scan tol (r :: rows) ss with
    | none => rw [hrec] at h; exact absurd h (by simp)
    | some cuts' =>
      rw [hrec] at h
      simp only [Option.map_some, Option.some.injEq] at h
      subst h
      intro x hx
      rcases List.mem_cons.mp hx with rfl | hx
      · exact Or.inr (Or.inr ⟨r, List.mem_cons_self, by simpa using ht, hi.1, hi.2, List.mem_cons_self⟩)
      · exact handled_cuts _ (ih a cuts' hc (List.pairwise_cons.mp hp).2 hrec x hx)
  | case7 r rows s ss ht hs he hi hlt ih =>
    intro a cuts hc hp h
    rw [scan, if_neg ht, if_neg hs, if_neg he, if_neg hi, if_pos hlt] at h
    intro x hx
    rcases List.mem_cons.mp hx with rfl | hx
    · exact Or.inl (by rw [← hc.1]; exact hlt)
    · exact ih a cuts hc (List.pairwise_cons.mp hp).2 h x hx
  | case8 r rows s ss ht hs he hi hlt hgt ih =>
    intro a cuts hc hp h
    rw [scan, if_neg ht, if_neg hs, if_neg he, if_neg hi, if_neg hlt, if_pos hgt] at h
    obtain ⟨h1, h2, h3, h4⟩ := hc
    intro x hx
    apply handled_tail (ih (a + r.len) cuts h4 hp h x hx)
    rw [← h1]
    rcases List.mem_cons.mp hx with rfl | hx'
    · exact hgt.le
    · have := (List.pairwise_cons.mp hp).1 x hx'
      linarith
  | case9 r rows s ss ht hs he hi hlt hgt =>
    intro a cuts _ _ h
    rw [scan, if_neg ht, if_neg hs, if_neg he, if_neg hi, if_neg hlt, if_neg hgt] at h
    exact absurd h (by simp)

/-- Every cut lies strictly inside a thick element of the table. -/
theorem scan_cuts (tol : ℝ) (rows : List CutRow) (ss : List ℝ) : ∀ (cuts : List (String × ℝ)),
    scan tol rows ss = some cuts → ∀ c ∈ cuts, ∃ r ∈ rows, r.name = c.1 ∧ r.thick = true ∧ 0 < c.2 ∧ c.2 < r.len := by
  induction rows, ss using scan.induct tol with
  | case1 rows => intro cuts h; rw [scan] at h; cases h; intro c hc; exact absurd hc (by simp)
  | case2 s ss => intro cuts h; exact absurd h (by simp [scan])
  | case3 r rows s ss ht ih =>
    intro cuts h c hc
    rw [scan, if_pos ht] at h
    obtain ⟨q, hq, g⟩ := ih cuts h c hc
    exact ⟨q, List.mem_cons_of_mem _ hq, g⟩
  | case4 r rows s ss ht hs ih =>
    intro cuts h
    rw [scan, if_neg ht, if_pos hs] at h
    exact ih cuts h
  | case5 r rows s ss ht hs he ih =>
    intro cuts h
    rw [scan, if_neg ht, if_neg hs, if_pos he] at h
    exact ih cuts h
  | case6 r rows s ss ht hs he hi ih =>
    intro cuts h
    rw [scan, if_neg ht, if_neg hs, if_neg he, if_pos hi] at h
    cases hrec : scan tol (r :: rows) ss with
    | none => rw [hrec] at h; exact absurd h (by simp)
    | some cuts' =>
      rw [hrec] at h
      simp only [Option.map_some, Option.some.injEq] at h
      subst h
      intro c hc
      rcases List.mem_cons.mp hc with rfl | hc
      · exact ⟨r, List.mem_cons_self, rfl, by simpa using ht, by simp only; linarith [hi.1], by simp only; linarith [hi.2]⟩
      · exact ih cuts' hrec c hc
  | case7 r rows s ss ht hs he hi hlt ih =>
    intro cuts h
    rw [scan, if_neg ht, if_neg hs, if_neg he, if_neg hi, if_pos hlt] at h
    exact ih cuts h
  | case8 r rows s ss ht hs he hi hlt hgt ih =>
    intro cuts h c hc
    rw [scan, if_neg ht, if_neg hs, if_neg he, if_neg hi, if_neg hlt, if_pos hgt] at h
    obtain ⟨q, hq, g⟩ := ih cuts h c hc
    exact ⟨q, List.mem_cons_of_mem _ hq, g⟩
  | case9 r rows s ss ht hs he hi hlt hgt =>
    intro cuts h
    rw [scan, if_neg ht, if_neg hs, if_neg he, if_neg hi, if_neg hlt, if_neg hgt] at h
    exact absurd h (by simp)

/-- The cuts appear in the order of the positions, so the cuts of one element are in order. -/
theorem scan_sorted (tol : ℝ) (rows : List CutRow) (ss : List ℝ) : ∀ (cuts : List (String × ℝ)),
    (rows.map CutRow.name).Nodup → List.Pairwise (· < ·) ss → scan tol rows ss = some cuts →
      (∀ n, List.Pairwise (· < ·) (cutsOf cuts n)) ∧
        ∀ c ∈ cuts, ∃ r ∈ rows, r.name = c.1 ∧ r.start + c.2 ∈ ss := by
  induction rows, ss using scan.induct tol with
  | case1 rows => intro cuts _ _ h; rw [scan] at h; cases h; exact ⟨fun n => List.Pairwise.nil, fun c hc => absurd hc (by simp)⟩
  | case2 s ss => intro cuts _ _ h; exact absurd h (by simp [scan])
  | case3 r rows s ss ht ih =>
    intro cuts hn hp h
    rw [scan, if_pos ht] at h
    obtain ⟨g1, g2⟩ := ih cuts (List.nodup_cons.mp hn).2 hp h
    exact ⟨g1, fun c hc => (g2 c hc).imp (fun q hq => ⟨List.mem_cons_of_mem _ hq.1, hq.2⟩)⟩
  | case4 r rows s ss ht hs ih =>
    intro cuts hn hp h
    rw [scan, if_neg ht, if_pos hs] at h
    obtain ⟨g1, g2⟩ := ih cuts hn (List.pairwise_cons.mp hp).2 h
    exact ⟨g1, fun c hc => (g2 c hc).imp (fun q hq => ⟨hq.1, hq.2.1, List.mem_cons_of_mem _ hq.2.2⟩)⟩
  | case5 r rows s ss ht hs he ih =>
    intro cuts hn hp h
    rw [scan, if_neg ht, if_neg hs, if_pos he] at h
    obtain ⟨g1, g2⟩ := ih cuts hn (List.pairwise_cons.mp hp).2 h
    exact ⟨g1, fun c hc => (g2 c hc).imp (fun q hq => ⟨hq.1, hq.2.1, List.mem_cons_of_mem _ hq.2.2⟩)⟩
  | case6 r rows s ss ht hs he hi ih =>
    intro cuts hn hp h
    rw [scan, if_neg ht, if_neg hs, if_neg he, if_pos hi] at h
    cases hrec : scan tol (r :: rows) ss with
    | none => rw [hrec] at h; exact absurd h (by simp)
    | some cuts' =>
      rw [hrec] at h
      simp only [Option.map_some, Option.some.injEq] at h
      subst h
      obtain ⟨g1, g2⟩ := ih cuts' hn (List.pairwise_cons.mp hp).2 hrec
      refine ⟨?_, ?_⟩
      · intro n
        unfold cutsOf at *
        rw [List.filter_cons]
        split
        · rename_i hnm
          have hnm : r.name = n := by simpa using hnm
          rw [List.map_cons, List.pairwise_cons]
          refine ⟨?_, g1 n⟩
          intro y hy
          obtain ⟨c, hc, rfl⟩ := List.mem_map.mp hy
          obtain ⟨hc1, hc2⟩ := List.mem_filter.mp hc
          obtain ⟨q, hq, hqn, hqs⟩ := g2 c hc1
          have hcn : c.1 = n := by simpa using hc2
          -- the row is `r` itself
          have hqr : q = r := by
            rcases List.mem_cons.mp hq with rfl | hq'
            · rfl
            · exfalso
              have := (List.nodup_cons.mp hn).1
              apply this
              rw [hnm, ← hcn, ← hqn]
              exact List.mem_map_of_mem hq'
          rw [hqr] at hqs
          have := (List.pairwise_cons.mp hp).1 _ hqs
          simp only
          linarith
        · exact g1 n
      · intro c hc
        rcases List.mem_cons.mp hc with rfl | hc
        · refine ⟨r, List.mem_cons_self, rfl, ?_⟩
          simp only [add_sub_cancel]
          exact List.mem_cons_self
        · exact (g2 c hc).imp (fun q hq => ⟨hq.1, hq.2.1, List.mem_cons_of_mem _ hq.2.2⟩)
  | case7 r rows s ss ht hs he hi hlt ih =>
    intro cuts hn hp h
    rw [scan, if_neg ht, if_neg hs, if_neg he, if_neg hi, if_pos hlt] at h
    obtain ⟨g1, g2⟩ := ih cuts hn (List.pairwise_cons.mp hp).2 h
    exact ⟨g1, fun c hc => (g2 c hc).imp (fun q hq => ⟨hq.1, hq.2.1, List.mem_cons_of_mem _ hq.2.2⟩)⟩
  | case8 r rows s ss ht hs he hi hlt hgt ih =>
    intro cuts hn hp h
    rw [scan, if_neg ht, if_neg hs, if_neg he, if_neg hi, if_neg hlt, if_pos hgt] at h
    obtain ⟨g1, g2⟩ := ih cuts (List.nodup_cons.mp hn).2 hp h
    exact ⟨g1, fun c hc => (g2 c hc).imp (fun q hq => ⟨List.mem_cons_of_mem _ hq.1, hq.2⟩)⟩
  | case9 r rows s ss ht hs he hi hlt hgt =>
    intro cuts _ _ h
    rw [scan, if_neg ht, if_neg hs, if_neg he, if_neg hi, if_neg hlt, if_neg hgt] at h
    exact absurd h (by simp)

/-- The scan succeeds if no position lies beyond the end of the line. -/
theorem scan_succeeds (tol : ℝ) (htol : 0 ≤ tol) (rows : List CutRow) (ss : List ℝ) : ∀ a : ℝ,
    Contiguous a rows → (∃ r ∈ rows, r.thick = true) → List.Pairwise (· ≤ ·) ss → (∀ s ∈ ss, s ≤ endOf a rows) →
      ∃ cuts, scan tol rows ss = some cuts := by
  have endge : ∀ (rows : List CutRow) (a : ℝ), Contiguous a rows → (¬ ∃ r ∈ rows, r.thick = true) → endOf a rows = a := by
    intro rows
    induction rows with
    | nil => intro a _ _; rfl
    | cons r rows ih =>
      intro a hc hn
      have hr : r.thick = false := by
        cases hx : r.thick with
        | false => rfl
        | true => exact absurd ⟨r, List.mem_cons_self, hx⟩ hn
      obtain ⟨h1, h2, h3, h4⟩ := hc
      rw [endOf, h3 hr, add_zero]
      rw [h3 hr, add_zero] at h4
      exact ih a h4 (fun ⟨q, hq, hq'⟩ => hn ⟨q, List.mem_cons_of_mem _ hq, hq'⟩)
  induction rows, ss using scan.induct tol with
  | case1 rows => intro a _ _ _ _; exact ⟨[], by rw [scan]⟩
  | case2 s ss => intro a _ ht; exact absurd ht (by simp)
  | case3 r rows s ss ht ih =>
    intro a hc hth hp hle
    rw [scan, if_pos ht]
    obtain ⟨h1, h2, h3, h4⟩ := hc
    rw [h3 ht, add_zero] at h4
    apply ih a h4
    · obtain ⟨q, hq, hq'⟩ := hth
      rcases List.mem_cons.mp hq with rfl | hq
      · rw [ht] at hq'; exact absurd hq' (by simp)
      · exact ⟨q, hq, hq'⟩
    · exact hp
    · intro x hx
      have := hle x hx
      rwa [endOf, h3 ht, add_zero] at this
  | case4 r rows s ss ht hs ih =>
    intro a hc hth hp hle
    rw [scan, if_neg ht, if_pos hs]
    exact ih a hc hth (List.pairwise_cons.mp hp).2 (fun x hx => hle x (List.mem_cons_of_mem _ hx))
  | case5 r rows s ss ht hs he ih =>
    intro a hc hth hp hle
    rw [scan, if_neg ht, if_neg hs, if_pos he]
    exact ih a hc hth (List.pairwise_cons.mp hp).2 (fun x hx => hle x (List.mem_cons_of_mem _ hx))
  | case6 r rows s ss ht hs he hi ih =>
    intro a hc hth hp hle
    rw [scan, if_neg ht, if_neg hs, if_neg he, if_pos hi]
    obtain ⟨cuts, h⟩ := ih a hc hth (List.pairwise_cons.mp hp).2 (fun x hx => hle x (List.mem_cons_of_mem _ hx))
    rw [h]
    exact ⟨_, rfl⟩
  | case7 r rows s ss ht hs he hi hlt ih =>
    intro a hc hth hp hle
    rw [scan, if_neg ht, if_neg hs, if_neg he, if_neg hi, if_pos hlt]
    exact ih a hc hth (List.pairwise_cons.mp hp).2 (fun x hx => hle x (List.mem_cons_of_mem _ hx))
  | case8 r rows s ss ht hs he hi hlt hgt ih =>
    intro a hc hth hp hle
    rw [scan, if_neg ht, if_neg hs, if_neg he, if_neg hi, if_neg hlt, if_pos hgt]
    obtain ⟨h1, h2, h3, h4⟩ := hc
    apply ih (a + r.len) h4 _ hp
    · intro x hx
      exact hle x hx
    · by_contra hno
      have := endge rows (a + r.len) h4 hno
      have hs' := hle s List.mem_cons_self
      rw [endOf, this, ← h1] at hs'
      linarith
  | case9 r rows s ss ht hs he hi hlt hgt =>
    intro a hc hth hp hle
    exfalso
    rcases lt_trichotomy s r.start with h | h | h
    · exact hlt h
    · apply hs; rw [h, sub_self, abs_zero]; exact htol
    · rcases lt_trichotomy s (r.start + r.len) with h' | h' | h'
      · exact hi ⟨h, h'⟩
      · apply he; rw [h', sub_self, abs_zero]; exact htol
      · exact hgt h'

/-- A position beyond the end makes the scan run into `_end_point`. -/
theorem scan_beyond (tol : ℝ) (rows : List CutRow) (ss : List ℝ) : ∀ a : ℝ, 0 ≤ tol → Contiguous a rows →
    (∃ s ∈ ss, endOf a rows + tol < s) → scan tol rows ss = none := by
  have mono : ∀ (rows : List CutRow) (a : ℝ), Contiguous a rows → a ≤ endOf a rows := by
    intro rows
    induction rows with
    | nil => intro a _; exact le_refl _
    | cons r rows ih =>
      intro a hc
      obtain ⟨h1, h2, h3, h4⟩ := hc
      have := ih (a + r.len) h4
      rw [endOf]
      linarith
  induction rows, ss using scan.induct tol with
  | case1 rows => intro a _ _ h; exact absurd h (by simp)
  | case2 s ss => intro a _ _ _; rw [scan]
  | case3 r rows s ss ht ih =>
    intro a htol hc hb
    rw [scan, if_pos ht]
    obtain ⟨h1, h2, h3, h4⟩ := hc
    exact ih (a + r.len) htol h4 hb
  | case4 r rows s ss ht hs ih =>
    intro a htol hc hb
    rw [scan, if_neg ht, if_pos hs]
    apply ih a htol hc
    obtain ⟨x, hx, hx'⟩ := hb
    rcases List.mem_cons.mp hx with rfl | hx
    · exfalso
      obtain ⟨h1, h2, h3, h4⟩ := hc
      have := mono rows _ h4
      rw [endOf] at hx'
      have := (abs_le.mp hs).2
      rw [h1] at this
      linarith
    · exact ⟨x, hx, hx'⟩
  | case5 r rows s ss ht hs he ih =>
    intro a htol hc hb
    rw [scan, if_neg ht, if_neg hs, if_pos he]
    apply ih a htol hc
    obtain ⟨x, hx, hx'⟩ := hb
    rcases List.mem_cons.mp hx with rfl | hx
    · exfalso
      obtain ⟨h1, h2, h3, h4⟩ := hc
      have := mono rows _ h4
      rw [endOf] at hx'
      have := (abs_le.mp he).2
      rw [h1] at this
      linarith
    · exact ⟨x, hx, hx'⟩
  | case6 r rows s ss ht hs he hi ih =>
    intro a htol hc hb
    rw [scan, if_neg ht, if_neg hs, if_neg he, if_pos hi, ih a htol hc]
    · rfl
    · obtain ⟨x, hx, hx'⟩ := hb
      rcases List.mem_cons.mp hx with rfl | hx
      · exfalso
        obtain ⟨h1, h2, h3, h4⟩ := hc
        have := mono rows _ h4
        rw [endOf] at hx'
        have := hi.2
        rw [h1] at this
        linarith
      · exact ⟨x, hx, hx'⟩
  | case7 r rows s ss ht hs he hi hlt ih =>
    intro a htol hc hb
    rw [scan, if_neg ht, if_neg hs, if_neg he, if_neg hi, if_pos hlt]
    apply ih a htol hc
    obtain ⟨x, hx, hx'⟩ := hb
    rcases List.mem_cons.mp hx with rfl | hx
    · exfalso
      have := mono (r :: rows) a hc
      rw [hc.1] at hlt
      linarith
    · exact ⟨x, hx, hx'⟩
  | case8 r rows s ss ht hs he hi hlt hgt ih =>
    intro a htol hc hb
    rw [scan, if_neg ht, if_neg hs, if_neg he, if_neg hi, if_neg hlt, if_pos hgt]
    obtain ⟨h1, h2, h3, h4⟩ := hc
    exact ih (a + r.len) htol h4 hb
  | case9 r rows s ss ht hs he hi hlt hgt =>
    intro a htol hc hb
    rw [scan, if_neg ht, if_neg hs, if_neg he, if_neg hi, if_neg hlt, if_neg hgt]

/-! ## The table -/

theorem cutTable_spec (d : Dict) (rows : List (String × String)) : ∀ (a : ℝ) (lens : List ℝ) (tb : List CutRow),
    rows.map (fun r => rowLen d r.2) = lens.map some → (∀ l ∈ lens, 0 ≤ l) → cutTable d a rows = some tb →
      Contiguous a tb ∧ tb.map CutRow.name = rows.map Prod.fst ∧ tb.map CutRow.len = lens ∧
        tb.map CutRow.start = (List.range rows.length).map (fun i => a + startOf lens i) ∧
        tb.map (fun r => some r.thick) = rows.map (fun r => isThick d r.2) := by
  induction rows with
  | nil =>
    intro a lens tb hl _ h
    rw [cutTable] at h
    cases h
    cases lens with
    | nil => exact ⟨trivial, rfl, rfl, rfl, rfl⟩
    | cons l ls => exact absurd hl (by simp)
  | cons r rows ih =>
    intro a lens tb hl hpos h
    cases lens with
    | nil => exact absurd hl (by simp)
    | cons l lens =>
      simp only [List.map_cons, List.cons.injEq] at hl
      rw [cutTable, hl.1] at h
      cases ht : isThick d r.2 with
      | none => rw [ht] at h; exact absurd h (by simp)
      | some t =>
        rw [ht] at h
        simp only at h
        cases hrec : cutTable d (a + l) rows with
        | none => rw [hrec] at h; exact absurd h (by simp)
        | some tb' =>
          rw [hrec] at h
          simp only [Option.some.injEq] at h
          subst h
          obtain ⟨g1, g2, g3, g4, g5⟩ := ih (a + l) lens tb' hl.2 (fun x hx => hpos x (List.mem_cons_of_mem _ hx)) hrec
          refine ⟨⟨rfl, hpos l List.mem_cons_self, ?_, g1⟩, ?_, ?_, ?_, ?_⟩
          · intro hf
            simp only at hf
            subst hf
            -- a thin row has length zero
            have h1 := hl.1
            unfold rowLen at h1
            unfold isThick at ht
            cases hb : baseEl d r.2 with
            | none => rw [hb] at h1; exact absurd h1 (by simp)
            | some e =>
              rw [hb] at h1 ht
              cases e with
              | thin => simp only [elLen, Option.some.injEq] at h1; exact h1.symm
              | body k x => exact absurd ht (by simp)
              | replica p => exact absurd h1 (by simp [elLen])
              | slice k p w o =>
                cases k with
                | thick => exact absurd ht (by simp)
                | drift => exact absurd ht (by simp)
                | thin => simp only [elLen, Option.some.injEq] at h1; exact h1.symm
                | edge => simp only [elLen, Option.some.injEq] at h1; exact h1.symm
          · simp only [List.map_cons, g2]
          · simp only [List.map_cons, g3]
          · rw [List.length_cons, List.range_succ_eq_map, List.map_cons, List.map_cons, List.map_map, g4]
            congr 1
            · simp [startOf]
            · apply List.map_congr_left
              intro i _
              simp only [Function.comp, startOf, Nat.succ_eq_add_one, List.take_succ_cons, List.sum_cons]
              ring
          · simp only [List.map_cons, g5, ht]

/-! ## The slices -/

theorem iterWeights_thick (s : Scheme) (hm : s.mode = .thick) (length : ℝ) (ws : List (ℝ × Bool))
    (h : s.iterWeights length = some ws) :
    s.driftWeights length = some (ws.map Prod.fst) ∧ ∀ w ∈ ws, w.2 = true := by
  unfold Scheme.iterWeights at h
  cases hd : s.driftWeights length with
  | none => rw [hd] at h; exact absurd h (by simp)
  | some ds =>
    cases he : s.elementWeights with
    | none => rw [hd, he] at h; exact absurd h (by simp)
    | some es =>
      rw [hd, he] at h
      simp only at h
      have hc := driftWeights_count s length ds hd
      obtain ⟨e1, e2⟩ := elementWeights_spec s es he
      have he' : ds.length = es.length + 1 ∨ ds.length = es.length := by
        rcases e2 with h2 | ⟨h2, _, h3⟩
        · left; omega
        · right; rw [hc, h2, h3]; rfl
      obtain ⟨l, h1, h2, h3, h4⟩ := zipWeights_thick ds es he'
      rw [hm, h1] at h
      simp only [Option.some.injEq] at h
      subst h
      have hall : ∀ w ∈ l, w.2 = true := by
        intro w hw
        have : w.2 ∈ alternating l := List.mem_map_of_mem hw
        rw [h4] at this
        obtain ⟨x, _, hx⟩ := List.mem_map.mp this
        exact hx.symm
      refine ⟨?_, hall⟩
      rw [← h2]
      unfold driftPart
      rw [List.filter_eq_self.mpr hall]

theorem thinEls_take (c : Ctx) (ws : List (ℝ × Bool)) (hw : ∀ w ∈ ws, w.2 = true) (off : ℝ) (j : Nat) :
    (thinEls c ws off).take j = thinEls c (ws.take j) off := by
  induction ws generalizing off j with
  | nil => simp [thinEls]
  | cons x r ih =>
    obtain ⟨w, b⟩ := x
    have hb : b = true := hw _ List.mem_cons_self
    subst hb
    cases j with
    | zero => simp [thinEls]
    | succ j =>
      rw [thinEls, List.take_succ_cons, List.take_succ_cons, thinEls, ih (fun w hw' => hw w (List.mem_cons_of_mem _ hw'))]

theorem thickEls_take (c : Ctx) (ws : List (ℝ × Bool)) (off : ℝ) (j : Nat) :
    (thickEls c ws off).take j = thickEls c (ws.take j) off := by
  induction ws generalizing off j with
  | nil => simp [thickEls]
  | cons x r ih =>
    obtain ⟨w, b⟩ := x
    cases j with
    | zero => simp [thickEls]
    | succ j => rw [thickEls, List.take_succ_cons, List.take_succ_cons, thickEls, ih]

/-- Some first elements of `els` have the total length `x`. -/
def Prefix (d : Dict) (els : List El) (x : ℝ) : Prop := ∃ j, Total d (els.take j) x

theorem prefix_append_left (d : Dict) (a b : List El) (x : ℝ) (h : Prefix d a x) : Prefix d (a ++ b) x := by
  obtain ⟨j, h⟩ := h
  by_cases hj : j ≤ a.length
  · exact ⟨j, by rwa [List.take_append_of_le_length hj]⟩
  · refine ⟨a.length, ?_⟩
    rw [List.take_append_of_le_length (Nat.le_refl _), List.take_length]
    rwa [List.take_of_length_le (by omega)] at h

theorem prefix_append_right (d : Dict) (a b : List El) (x y : ℝ) (ha : Total d a x) (h : Prefix d b y) :
    Prefix d (a ++ b) (x + y) := by
  obtain ⟨j, h⟩ := h
  refine ⟨a.length + j, ?_⟩
  rw [List.take_append, List.take_of_length_le (by omega), Nat.add_sub_cancel_left]
  exact total_append d _ _ _ _ ha h

/-- Cutting an element at the positions `atS` gives slices whose boundaries are there. -/
theorem block_prefix (d : Dict) (atS : List ℝ) (c : Ctx) (hc : c.Ok d) (hl : c.len ≠ 0) (p : String) (edges m : Bool)
    (ws : List (ℝ × Bool)) (h : (Scheme.custom atS .thick).iterWeights c.len = some ws) (x : ℝ) (hx : x ∈ atS) :
    Prefix d (withMarkers m (blockEls (.custom atS .thick) c p edges ws)) x := by
  obtain ⟨h1, h2⟩ := iterWeights_thick _ rfl c.len ws h
  obtain ⟨k, hk, rfl⟩ := List.mem_iff_getElem.mp hx
  have hpos := C30_custom_positions atS .thick c.len hl _ h1 k hk
  have hsum : c.len * ((ws.take (k + 1)).map Prod.fst).sum = atS[k] := by
    rw [← hpos, sum_map_mul, ← List.map_take]
    ring
  have key : Prefix d (if (Scheme.custom atS .thick).mode = .thin ∨ c.isDriftSlice = true then thinEls c ws 0 else thickEls c ws 0)
      atS[k] := by
    refine ⟨k + 1, ?_⟩
    split
    · rw [thinEls_take c ws h2]
      have := thinEls_total d c hc (ws.take (k + 1)) 0
      have hdp : driftPart (ws.take (k + 1)) = (ws.take (k + 1)).map Prod.fst := by
        unfold driftPart
        rw [List.filter_eq_self.mpr (fun w hw => h2 w (List.mem_of_mem_take hw))]
      rwa [hdp, hsum] at this
    · rw [thickEls_take]
      have := thickEls_total d c hc (ws.take (k + 1)) 0
      rwa [hsum] at this
  have hb : Prefix d (blockEls (.custom atS .thick) c p edges ws) atS[k] := by
    unfold blockEls
    have := prefix_append_right d _ _ _ _ (edge_total d edges p 0) (prefix_append_left d _ (edgeEls edges p c.len) _ key)
    rwa [zero_add] at this
  unfold withMarkers
  split
  · have := prefix_append_right d [.thin] _ 0 _ ⟨[0], rfl, by simp⟩ (prefix_append_left d _ [.thin] _ hb)
    rwa [zero_add] at this
  · exact hb

theorem names_prefix (d : Dict) (ns : List String) (els : List El) (x : ℝ) (h : ns.map (get d) = els.map some)
    (hp : Prefix d els x) (ls : List ℝ) (hls : ns.map (rowLen d) = ls.map some) : Boundary ls x := by
  obtain ⟨j, ht⟩ := hp
  refine ⟨j, ?_⟩
  have h1 : (ns.take j).map (get d) = (els.take j).map some := by rw [List.map_take, h, List.map_take]
  obtain ⟨ls', h2, h3⟩ := names_total d (ns.take j) (els.take j) x h1 ht
  have h4 : (ls.take j).map some = ls'.map some := by
    rw [← h2, List.map_take, List.map_take, hls]
  have := List.map_injective_iff.mpr (Option.some_injective ℝ) h4
  rw [this]
  exact h3

/-- The state in which a row of the line is sliced. -/
theorem sliceLine_row (markers : Bool) (strategies : List Strategy) (names : List String) (rows : List (String × String)) :
    ∀ (st st' : St) (blocks : List (List String)) (lens : List ℝ), CacheOk st →
      (markers = true → NoClash st.dict names) → (∀ r ∈ rows, r.2 ∈ names) →
      rows.map (fun r => rowLen st.dict r.2) = lens.map some →
      sliceLine markers strategies st rows = some (st', blocks) →
      ∀ (i : Nat) (r : String × String), rows[i]? = some r → ∃ b st1 st2, blocks[i]? = some b ∧ Ext st.dict st1.dict ∧ CacheOk st1 ∧
        (markers = true → NoClash st1.dict names) ∧ sliceRow markers strategies st1 r.1 r.2 = some (st2, b) ∧
        Ext st2.dict st'.dict := by
  induction rows with
  | nil => intro st st' blocks lens _ _ _ _ _ i r hr; exact absurd hr (by simp)
  | cons row rows ih =>
    intro st st' blocks lens hc hn hr hl h
    have hall := sliceLine_spec markers strategies names (row :: rows) st st' blocks lens hc hn hr hl h
    rw [sliceLine] at h
    cases h1 : sliceRow markers strategies st row.1 row.2 with
    | none => rw [h1] at h; exact absurd h (by simp)
    | some t =>
      obtain ⟨st1, b⟩ := t
      rw [h1] at h
      simp only at h
      cases h2 : sliceLine markers strategies st1 rows with
      | none => rw [h2] at h; exact absurd h (by simp)
      | some t2 =>
        obtain ⟨st2, bs⟩ := t2
        rw [h2] at h
        simp only [Option.some.injEq, Prod.mk.injEq] at h
        obtain ⟨rfl, rfl⟩ := h
        cases lens with
        | nil => exact absurd hl (by simp)
        | cons x lens =>
          simp only [List.map_cons, List.cons.injEq] at hl
          obtain ⟨e1, e2, e3, ls1, e4, e5⟩ := sliceRow_spec markers strategies st st1 row.1 row.2 b names x hc hn
            (hr row List.mem_cons_self) hl.1 h1
          have hl' : rows.map (fun r => rowLen st1.dict r.2) = lens.map some := by
            have := lens_ext e1 (rows.map Prod.snd) lens (by rw [List.map_map]; exact hl.2)
            rw [List.map_map] at this
            exact this
          have hr' : ∀ r ∈ rows, r.2 ∈ names := fun r hr' => hr r (List.mem_cons_of_mem _ hr')
          intro i r hi
          cases i with
          | zero =>
            simp only [List.getElem?_cons_zero, Option.some.injEq] at hi
            subst hi
            refine ⟨b, st, st1, rfl, Ext.refl _, hc, hn, h1, ?_⟩
            exact (sliceLine_spec markers strategies names rows st1 st2 bs lens e2 e3 hr' hl' h2).1
          | succ i =>
            obtain ⟨b', s1, s2, g1, g2, g3, g4, g5, g6⟩ := ih st1 st2 bs lens e2 e3 hr' hl' h2 i r (by simpa using hi)
            exact ⟨b', s1, s2, by simpa using g1, e1.trans g2, g3, g4, g5, g6⟩

theorem boundary_flatten (ls : List (List ℝ)) (i : Nat) (b : List ℝ) (hi : ls[i]? = some b) (x : ℝ) (hx : Boundary b x) :
    Boundary ls.flatten ((ls.take i).flatten.sum + x) := by
  obtain ⟨j, hj⟩ := hx
  -- `j` at most the length of the block
  obtain ⟨j', hj', hj''⟩ : ∃ j', j' ≤ b.length ∧ (b.take j').sum = x := by
    by_cases h : j ≤ b.length
    · exact ⟨j, h, hj⟩
    · exact ⟨b.length, Nat.le_refl _, by rwa [List.take_of_length_le (by omega)] at hj ⊢⟩
  refine ⟨(ls.take i).flatten.length + j', ?_⟩
  have hdecomp : ls = ls.take i ++ (b :: ls.drop (i + 1)) := by
    obtain ⟨hlt, hb⟩ := List.getElem?_eq_some_iff.mp hi
    rw [← hb, ← List.drop_eq_getElem_cons hlt, List.take_append_drop]
  have hfl : ls.flatten = (ls.take i).flatten ++ (b ++ (ls.drop (i + 1)).flatten) := by
    conv_lhs => rw [hdecomp]
    rw [List.flatten_append, List.flatten_cons]
  rw [hfl, List.take_append, List.take_of_length_le (by omega), Nat.add_sub_cancel_left,
    List.take_append_of_le_length hj', List.sum_append, hj'']

theorem boundary_start (lens : List ℝ) (ls : List (List ℝ)) (h : ls.map List.sum = lens) (j : Nat) :
    Boundary ls.flatten (startOf lens j) := by
  refine ⟨(ls.take j).flatten.length, ?_⟩
  have : ls.flatten = (ls.take j).flatten ++ (ls.drop j).flatten := by
    rw [← List.flatten_append, List.take_append_drop]
  rw [this, List.take_append_of_le_length (Nat.le_refl _), List.take_length, sum_flatten, List.map_take, h]
  rfl

theorem sortedSet_mem (s : List ℝ) (x : ℝ) : x ∈ sortedSet s ↔ x ∈ s := by
  unfold sortedSet
  rw [List.mem_insertionSort, List.mem_dedup]

theorem sortedSet_sorted (s : List ℝ) : List.Pairwise (· ≤ ·) (sortedSet s) := List.pairwise_insertionSort _ _

theorem cut_strategy (names : List String) (hnd : names.Nodup) (cuts : List (String × ℝ)) (n : String) (hn : n ∈ names)
    (hc : cutsOf cuts n ≠ []) (el base : El) :
    schemeFor (cutStrategies names cuts) n el base = some (some (.custom (cutsOf cuts n) .thick)) := by
  obtain ⟨p, q, hpq⟩ := List.append_of_mem hn
  have hq : n ∉ q := by
    rw [hpq] at hnd
    have := (List.nodup_append.mp hnd).2.1
    exact (List.nodup_cons.mp this).1
  let S : String → Strategy := fun n => ⟨some (.custom (cutsOf cuts n) .thick), some (fun m => m == n), none⟩
  have hself : (S n).matchesEl n el base = true := by
    unfold Strategy.matchesEl
    simp [S]
  have hother : ∀ t ∈ (q.filter (fun n => !(cutsOf cuts n).isEmpty)).map S, t.matchesEl n el base = false := by
    intro t ht
    obtain ⟨m, hm, rfl⟩ := List.mem_map.mp ht
    have hne : n ≠ m := by
      rintro rfl
      exact hq (List.mem_filter.mp hm).1
    unfold Strategy.matchesEl
    have : (n == m) = false := by simpa using hne
    simp [S, this]
  have hfil : cutStrategies names cuts =
      (catchAll :: (p.filter (fun n => !(cutsOf cuts n).isEmpty)).map S) ++ S n :: (q.filter (fun n => !(cutsOf cuts n).isEmpty)).map S := by
    unfold cutStrategies
    rw [hpq, List.filter_append, List.filter_cons, if_pos (by simpa using hc)]
    simp [S]
  rw [hfil]
  exact C31_last_matching _ _ (S n) n el base hself hother

/-- **C32 (partial).**  After `cut_at_s` every requested position inside the line (`0 ≤ x`; beyond the end an exception is raised,
see `C32_beyond_end_violated`) is a boundary between elements, or within the tolerance of a boundary the line had before; every boundary there was is
still a boundary, the line has the same length, and no element of the environment is changed.
Missing: the edge markers must not clash with existing names and the cache of drifts must be right (as in
`C31_lengths_partial`). -/
theorem C32_cut_partial (tol : ℝ) (htol : 0 ≤ tol) (s : List ℝ) (rows : List (String × String)) (st st' : St)
    (blocks : List (List String)) (lens : List ℝ) (hc : CacheOk st) (hn : NoClash st.dict (rows.map Prod.snd))
    (hnd : (rows.map Prod.fst).Nodup) (hl : rows.map (fun r => rowLen st.dict r.2) = lens.map some) (hpos : ∀ l ∈ lens, 0 ≤ l)
    (h : cutAtS tol s st rows = some (st', blocks)) :
    ∃ ls : List (List ℝ), blocks.map (fun b => b.map (rowLen st'.dict)) = ls.map (fun x => x.map some) ∧
      (∀ x ∈ s, 0 ≤ x → ∃ b, Boundary ls.flatten b ∧ |x - b| ≤ tol ∧ (b = x ∨ Boundary lens b)) ∧
      (∀ b, Boundary lens b → Boundary ls.flatten b) ∧ ls.flatten.sum = lens.sum ∧ Ext st.dict st'.dict := by
  unfold cutAtS at h
  cases htb : cutTable st.dict 0 rows with
  | none => rw [htb] at h; exact absurd h (by simp)
  | some tb =>
    rw [htb] at h
    simp only at h
    cases hsc : scan tol tb (sortedSet s) with
    | none => rw [hsc] at h; exact absurd h (by simp)
    | some cuts =>
      rw [hsc] at h
      simp only at h
      obtain ⟨t1, t2, t3, t4, t5⟩ := cutTable_spec st.dict rows 0 lens tb hl hpos htb
      obtain ⟨b1, b2, ls, b3, b4, b5, b6⟩ := C31_lengths_partial true _ rows st st' blocks lens hc (fun _ => hn) hl h
      refine ⟨ls, b3, ?_, ?_, b6, b2⟩
      · intro x hx hx0
        have hidx : ∀ r ∈ tb, ∃ i : Nat, tb[i]? = some r ∧ r.start = startOf lens i ∧ r.start + r.len = startOf lens (i + 1) := by
          intro r hr
          obtain ⟨i, hi, hri⟩ := List.mem_iff_getElem.mp hr
          refine ⟨i, by rw [List.getElem?_eq_getElem hi, hri], ?_, ?_⟩
          · have := congrArg (fun l => l[i]?) t4
            simp only [List.getElem?_map, List.getElem?_eq_getElem hi, Option.map_some, hri] at this
            have hlen : i < rows.length := by
              have := congrArg List.length t2
              simp only [List.length_map] at this
              omega
            rw [List.getElem?_range hlen] at this
            simp only [Option.map_some, Option.some.injEq, zero_add] at this
            exact this
          · have h4 := congrArg (fun l => l[i]?) t4
            simp only [List.getElem?_map, List.getElem?_eq_getElem hi, Option.map_some, hri] at h4
            have hlen : i < rows.length := by
              have := congrArg List.length t2
              simp only [List.length_map] at this
              omega
            rw [List.getElem?_range hlen] at h4
            simp only [Option.map_some, Option.some.injEq, zero_add] at h4
            have h3 := congrArg (fun l => l[i]?) t3
            simp only [List.getElem?_map, List.getElem?_eq_getElem hi, Option.map_some, hri] at h3
            unfold startOf
            rw [List.take_add_one, ← h3, List.sum_append]
            unfold startOf at h4
            rw [h4]
            simp
        rcases scan_handles tol tb (sortedSet s) 0 cuts t1 (sortedSet_sorted s) hsc x ((sortedSet_mem s x).mpr hx) with
          g | ⟨y, ⟨r, hr, hy⟩, g⟩ | ⟨r, hr, g1, g2, g3, g4⟩
        · linarith
        · obtain ⟨i, hi, hs, he⟩ := hidx r hr
          rcases hy with rfl | rfl
          · exact ⟨_, by rw [hs]; exact boundary_start lens ls b4 i, g, Or.inr ⟨i, hs.symm⟩⟩
          · exact ⟨_, by rw [he]; exact boundary_start lens ls b4 (i + 1), g, Or.inr ⟨i + 1, he.symm⟩⟩
        · refine ⟨x, ?_, by rw [sub_self, abs_zero]; exact htol, Or.inl rfl⟩
          obtain ⟨i, hi, hs, he⟩ := hidx r hr
          -- the row of the line
          have hlen : tb.length = rows.length := by
            have := congrArg List.length t2
            simpa using this
          have hilt : i < tb.length := (List.getElem?_eq_some_iff.mp hi).1
          obtain ⟨row, hrow⟩ : ∃ row, rows[i]? = some row := ⟨rows[i]'(by omega), List.getElem?_eq_getElem _⟩
          have hname : r.name = row.1 := by
            have := congrArg (fun l => l[i]?) t2
            simp only [List.getElem?_map, hi, hrow, Option.map_some, Option.some.injEq] at this
            exact this
          have hrl : rowLen st.dict row.2 = some r.len := by
            have h3 := congrArg (fun l => l[i]?) t3
            have hl3 := congrArg (fun l => l[i]?) hl
            simp only [List.getElem?_map, hi, hrow, Option.map_some] at h3 hl3
            rw [← h3] at hl3
            simpa using hl3
          have hth : isThick st.dict row.2 = some true := by
            have h5 := congrArg (fun l => l[i]?) t5
            simp only [List.getElem?_map, hi, hrow, Option.map_some, Option.some.injEq] at h5
            rw [← h5, g1]
          obtain ⟨b, s1, s2, c1, c2, c3, c4, c5, c6⟩ := sliceLine_row true _ (rows.map Prod.snd) rows st st' blocks lens hc
            (fun _ => hn) (fun r hr => List.mem_map_of_mem hr) hl h i row hrow
          have hcut : x - r.start ∈ cutsOf cuts row.1 := by
            unfold cutsOf
            refine List.mem_map.mpr ⟨(r.name, x - r.start), List.mem_filter.mpr ⟨g4, by simp [hname]⟩, rfl⟩
          have hne : cutsOf cuts row.1 ≠ [] := List.ne_nil_of_mem hcut
          -- the row is sliced with these cuts
          have hrl1 := c2.rowLen hrl
          have hse : sliceElement true (.custom (cutsOf cuts row.1) .thick) s1 row.2 = some (s2, b) := by
            have hbase : ∃ base, baseEl st.dict row.2 = some base := by
              unfold isThick at hth
              cases hb : baseEl st.dict row.2 with
              | none => rw [hb] at hth; exact absurd hth (by simp)
              | some e => exact ⟨e, rfl⟩
            obtain ⟨base, hbase⟩ := hbase
            have hbase1 := c2.baseEl hbase
            have hel : ∃ el, get s1.dict row.2 = some el := by
              unfold baseEl baseName at hbase1
              cases hg : get s1.dict row.2 with
              | none => rw [hg] at hbase1; exact absurd hbase1 (by simp)
              | some e => exact ⟨e, rfl⟩
            obtain ⟨el, hel⟩ := hel
            have hth1 : isThick s1.dict row.2 = some true := by
              unfold isThick at hth ⊢
              rw [hbase] at hth
              rw [hbase1]
              exact hth
            unfold sliceRow at c5
            rw [hel, hbase1, hth1] at c5
            simp only at c5
            rw [if_neg] at c5
            · rw [cut_strategy (rows.map Prod.fst) hnd cuts row.1
                (List.mem_map_of_mem (List.mem_of_getElem? hrow)) hne] at c5
              exact c5
            · rintro (h0 | ⟨k, rfl⟩)
              · exact absurd h0 (by simp)
              · rw [rowLen_of_get s1.dict row.2 _ hel trivial] at hrl1
                simp only [elLen, Option.some.injEq] at hrl1
                linarith
          obtain ⟨e1, e2, e3, c, p, ws, e4, e5, e6, e7⟩ := sliceElement_spec true _ s1 s2 row.2 b (rows.map Prod.snd) c3 c4
            (List.mem_map_of_mem (List.mem_of_getElem? hrow)) hse
          obtain ⟨hok, hclen⟩ := context_ok s1.dict row.2 c e4
          rw [hrl1] at hclen
          simp only [Option.some.injEq] at hclen
          have hpre := block_prefix st'.dict (cutsOf cuts row.1) c (ok_ext (e1.trans c6) hok) (by rw [← hclen]; linarith) p
            (edgesOf s1.dict row.2) (true && wantsMarkers s1.dict row.2) ws e6 (x - r.start) hcut
          obtain ⟨lb, hlb⟩ : ∃ lb, ls[i]? = some lb := by
            have := congrArg List.length b3
            simp only [List.length_map] at this
            exact ⟨ls[i]'(by omega), List.getElem?_eq_getElem _⟩
          have hlbs : b.map (rowLen st'.dict) = lb.map some := by
            have := congrArg (fun l => l[i]?) b3
            simp only [List.getElem?_map, c1, hlb, Option.map_some, Option.some.injEq] at this
            exact this
          have hbd := names_prefix st'.dict b _ _ (map_get_ext c6 _ _ e7) hpre lb hlbs
          have := boundary_flatten ls i lb hlb _ hbd
          rw [b5 i, ← hs] at this
          have e : r.start + (x - r.start) = x := by ring
          rwa [e] at this
      · rintro b ⟨j, hj⟩
        have := boundary_start lens ls b4 j
        unfold startOf at this
        rwa [hj] at this

/-- **C32, cuts in order.**  The positions at which an element is cut are in increasing order and strictly inside it, so no slice
has a negative length (`C30_nonneg`). -/
theorem C32_cuts_inside (tol : ℝ) (s : List ℝ) (d : Dict) (rows : List (String × String)) (tb : List CutRow) (a : ℝ) (lens : List ℝ)
    (cuts : List (String × ℝ)) (hnd : (rows.map Prod.fst).Nodup)
    (hl : rows.map (fun r => rowLen d r.2) = lens.map some) (hpos : ∀ l ∈ lens, 0 ≤ l) (htb : cutTable d a rows = some tb)
    (h : scan tol tb (sortedSet s) = some cuts) (n : String) :
    List.Pairwise (· ≤ ·) (0 :: cutsOf cuts n) ∧ ∀ x ∈ cutsOf cuts n, ∃ r ∈ tb, r.name = n ∧ r.thick = true ∧ x < r.len := by
  obtain ⟨t1, t2, t3, t4, t5⟩ := cutTable_spec d rows a lens tb hl hpos htb
  have hstrict : List.Pairwise (· < ·) (sortedSet s) := by
    have h1 := sortedSet_sorted s
    have h2 : (sortedSet s).Nodup := by
      classical
      unfold sortedSet
      exact (List.perm_insertionSort _ _).nodup_iff.mpr (List.nodup_dedup _)
    exact (List.Pairwise.and h1 h2).imp (fun ⟨h3, h4⟩ => lt_of_le_of_ne h3 h4)
  have hs := (scan_sorted tol tb (sortedSet s) cuts (by rw [t2]; exact hnd) hstrict h).1 n
  have hc := scan_cuts tol tb (sortedSet s) cuts h
  have hmem : ∀ x ∈ cutsOf cuts n, ∃ r ∈ tb, r.name = n ∧ r.thick = true ∧ 0 < x ∧ x < r.len := by
    intro x hx
    unfold cutsOf at hx
    obtain ⟨c, hcm, rfl⟩ := List.mem_map.mp hx
    obtain ⟨h1, h2⟩ := List.mem_filter.mp hcm
    obtain ⟨r, hr, g1, g2, g3, g4⟩ := hc c h1
    exact ⟨r, hr, by rw [g1]; simpa using h2, g2, g3, g4⟩
  refine ⟨?_, ?_⟩
  · rw [List.pairwise_cons]
    refine ⟨?_, hs.imp (fun h => h.le)⟩
    intro x hx
    obtain ⟨r, _, _, _, h0, _⟩ := hmem x hx
    exact h0.le
  · intro x hx
    obtain ⟨r, hr, g1, g2, _, g4⟩ := hmem x hx
    exact ⟨r, hr, g1, g2, g4⟩

/-- **C32, no position is lost inside the line.**  If the line has an element with a length and no requested position is beyond
its end, the search for the elements to cut succeeds. -/
theorem C32_search_succeeds (tol : ℝ) (htol : 0 ≤ tol) (s : List ℝ) (tb : List CutRow) (hc : Contiguous 0 tb)
    (ht : ∃ r ∈ tb, r.thick = true) (hs : ∀ x ∈ s, x ≤ endOf 0 tb) : ∃ cuts, scan tol tb (sortedSet s) = some cuts :=
  scan_succeeds tol htol tb (sortedSet s) 0 hc ht (sortedSet_sorted s) (fun x hx => hs x ((sortedSet_mem s x).mp hx))

/-- **C32 violated** for positions out of range: one position beyond the end of the line makes `cut_at_s` raise
(`KeyError: '_end_point'`), whatever the other positions are. -/
theorem C32_beyond_end_violated (tol : ℝ) (htol : 0 ≤ tol) (s : List ℝ) (st : St) (rows : List (String × String)) (lens : List ℝ)
    (hl : rows.map (fun r => rowLen st.dict r.2) = lens.map some) (hpos : ∀ l ∈ lens, 0 ≤ l)
    (h : ∃ x ∈ s, lens.sum + tol < x) : cutAtS tol s st rows = none := by
  unfold cutAtS
  cases htb : cutTable st.dict 0 rows with
  | none => rfl
  | some tb =>
    simp only
    obtain ⟨t1, t2, t3, t4, t5⟩ := cutTable_spec st.dict rows 0 lens tb hl hpos htb
    have hend : ∀ (tb : List CutRow) (a : ℝ), endOf a tb = a + (tb.map CutRow.len).sum := by
      intro tb
      induction tb with
      | nil => intro a; simp [endOf]
      | cons r tb ih => intro a; rw [endOf, ih, List.map_cons, List.sum_cons]; ring
    rw [scan_beyond tol tb (sortedSet s) 0 htol t1]
    obtain ⟨x, hx, hx'⟩ := h
    refine ⟨x, (sortedSet_mem s x).mpr hx, ?_⟩
    rw [hend, t3, zero_add]
    exact hx'

/-- A table with a thin element between two thick ones; the requested position is in the second one. -/
example : Contiguous 0 [⟨"a", 0, 2, true⟩, ⟨"m", 2, 0, false⟩, ⟨"b", 2, 3, true⟩] ∧
    scan 0 [⟨"a", 0, 2, true⟩, ⟨"m", 2, 0, false⟩, ⟨"b", 2, 3, true⟩] [4] = some [("b", 2)] := by
  constructor
  · simp [Contiguous]
  · simp [scan]; norm_num

end Verif.Slicing
