import Verif.Composer.Build
import Verif.Composer.OrderProps
import Verif.Composer.ResolveProps
import Verif.Slicing.Lemmas

/-!
# Lemmas on building a line
-/

namespace Verif.Composer

open Slicing (St getDrift rowLen isThick Grow CacheOk getDrift_spec)

theorem totalLen_append (st : St) (a b : List String) (x y : ℝ) (ha : totalLen st a = some x) (hb : totalLen st b = some y) :
    totalLen st (a ++ b) = some (x + y) := by
  induction a generalizing x with
  | nil => simp only [totalLen, Option.some.injEq] at ha; rw [List.nil_append, hb, ← ha, zero_add]
  | cons n a ih =>
    simp only [totalLen] at ha
    split at ha
    · next u v hu hv =>
      rw [List.cons_append, totalLen, hu, ih v hv]
      simp only [Option.some.injEq] at ha ⊢
      rw [← ha]; ring
    · cases ha

theorem totalLen_grow {st st' : St} (h : Grow st.dict st'.dict) {l : List String} {x : ℝ} (hx : totalLen st l = some x) :
    totalLen st' l = some x := by
  induction l generalizing x with
  | nil => exact hx
  | cons n l ih =>
    simp only [totalLen] at hx ⊢
    split at hx
    · next u v hu hv => rw [h.1.rowLen hu, ih hv]; exact hx
    · cases hx

theorem totalLen_some (st : St) (l : List String) (h : ∀ n ∈ l, rowLen st.dict n ≠ none) : ∃ x, totalLen st l = some x := by
  induction l with
  | nil => exact ⟨0, rfl⟩
  | cons n l ih =>
    obtain ⟨y, hy⟩ := ih (fun m hm => h m (List.mem_cons_of_mem _ hm))
    obtain ⟨x, hx⟩ := Option.ne_none_iff_exists'.mp (h n List.mem_cons_self)
    exact ⟨x + y, by simp only [totalLen, hx, hy]⟩

theorem totalLen_mem (st : St) (l : List String) (x : ℝ) (h : totalLen st l = some x) : ∀ n ∈ l, rowLen st.dict n ≠ none := by
  induction l generalizing x with
  | nil => simp
  | cons m l ih =>
    simp only [totalLen] at h
    split at h
    · next u v hu hv =>
      intro n hn
      rcases List.mem_cons.mp hn with rfl | hn
      · rw [hu]; simp
      · exact ih v hv n hn
    · cases h

theorem rowLen_drift {st : St} {n : String} {l : ℝ} (h : Slicing.get st.dict n = some (.body Slicing.driftKind l)) :
    rowLen st.dict n = some l := by
  simp [rowLen, Slicing.baseEl, Slicing.baseName, h, Slicing.elLen]

/-- The line `marks` (names, with a mark on the components) realises the rows from position `e` on: the marked names are the rows in
order, the others are drifts longer than the tolerance, every component starts where it should within the
tolerance times the number of components up to it, and so does the end of the line. -/
structure Realises (tol : ℝ) (st : St) (e : ℝ) (rows : List Placed) (marks : List (String × Bool)) : Prop where
  comps : (marks.filter (fun m => m.2)).map (fun m => m.1) = rows.map (fun r => r.name)
  drifts : ∀ n : String, (n, false) ∈ marks → ∃ l : ℝ, tol < l ∧ Slicing.get st.dict n = some (.body Slicing.driftKind l)
  starts : ∀ (k : Nat) (r : Placed), rows[k]? = some r → ∃ (m1 m2 : List (String × Bool)) (T : ℝ), marks = m1 ++ (r.name, true) :: m2 ∧
    (m1.filter (fun m => m.2)).length = k ∧ totalLen st (m1.map (fun m => m.1)) = some T ∧ |e + T - r.s| ≤ tol * (k + 1)
  total : ∃ T : ℝ, totalLen st (marks.map (fun m => m.1)) = some T ∧
    ∀ f : ℝ, lastEnd rows = some f → |e + T - f| ≤ tol * rows.length

theorem lastEnd_cons (r : Placed) (rows : List Placed) :
    lastEnd (r :: rows) = some ((lastEnd rows).getD (r.s + r.len)) := by
  induction rows generalizing r with
  | nil => rfl
  | cons q rows ih => rw [lastEnd, ih]; rfl

theorem lastEnd_nil : lastEnd [] = none := rfl

theorem fill_spec (tol : ℝ) (h0 : 0 ≤ tol) (rows : List Placed) : ∀ (st : St) (e : ℝ) (st' : St) (names : List String),
    CacheOk st → (∀ r ∈ rows, rowLen st.dict r.name = some r.len) → fill tol st e rows = some (st', names) →
    Grow st.dict st'.dict ∧ CacheOk st' ∧ ∃ marks : List (String × Bool), names = marks.map (fun m => m.1) ∧
      Realises tol st' e rows marks := by
  induction rows with
  | nil =>
    intro st e st' names hc hl h
    simp only [fill, Option.some.injEq, Prod.mk.injEq] at h
    obtain ⟨rfl, rfl⟩ := h
    exact ⟨Grow.refl _, hc, [], rfl, by simp, by simp, by simp, 0, rfl, by simp [lastEnd]⟩
  | cons r rows ih =>
    intro st e st' names hc hl h
    rw [fill] at h
    split at h
    · next hgap =>
      split at h
      · cases h
      · next hneg =>
        rw [Option.map_eq_some_iff] at h
        obtain ⟨⟨st1, ns⟩, h, hpair⟩ := h
        simp only [Prod.mk.injEq] at hpair
        obtain ⟨rfl, rfl⟩ := hpair
        obtain ⟨hg, hc1, hget⟩ := getDrift_spec st (r.s - e) hc
        obtain ⟨hg', hc', marks, rfl, hR⟩ := ih _ _ _ _ hc1
          (fun q hq => hg.1.rowLen (hl q (List.mem_cons_of_mem _ hq))) h
        have hd := hg'.1 _ _ hget
        have hdl := rowLen_drift (st := st1) hd
        have hrl : rowLen st1.dict r.name = some r.len := hg'.1.rowLen (hg.1.rowLen (hl r List.mem_cons_self))
        have hpos : |r.s - e| = r.s - e := abs_of_nonneg (not_lt.mp hneg)
        refine ⟨hg.trans hg', hc', ((getDrift st (r.s - e)).2, false) :: (r.name, true) :: marks, rfl, ?_, ?_, ?_, ?_⟩
        · simp [hR.comps]
        · intro n hn
          rcases List.mem_cons.mp hn with hn | hn
          · rw [Prod.mk.injEq] at hn
            rw [hn.1]
            exact ⟨r.s - e, by rwa [hpos] at hgap, hd⟩
          · rcases List.mem_cons.mp hn with hn | hn
            · simp at hn
            · exact hR.drifts n hn
        · intro k q hk
          cases k with
          | zero =>
            simp only [List.getElem?_cons_zero, Option.some.injEq] at hk
            subst hk
            refine ⟨[((getDrift st (r.s - e)).2, false)], marks, r.s - e, rfl, rfl, ?_, ?_⟩
            · simp [totalLen, hdl]
            · rw [show e + (r.s - e) - r.s = 0 by ring, abs_zero]; push_cast; nlinarith
          | succ k =>
            rw [List.getElem?_cons_succ] at hk
            obtain ⟨m1, m2, T, rfl, hm1, hT, hb⟩ := hR.starts k q hk
            refine ⟨((getDrift st (r.s - e)).2, false) :: (r.name, true) :: m1, m2, (r.s - e) + (r.len + T), rfl, ?_, ?_, ?_⟩
            · simp [hm1]
            · simp only [List.map_cons, totalLen, hdl, hrl, hT]
            · rw [show e + (r.s - e + (r.len + T)) - q.s = r.s + r.len + T - q.s by ring]
              push_cast; nlinarith
        · obtain ⟨T, hT, hb⟩ := hR.total
          refine ⟨(r.s - e) + (r.len + T), by simp only [List.map_cons, totalLen, hdl, hrl, hT], ?_⟩
          intro f hf
          rw [show e + (r.s - e + (r.len + T)) - f = r.s + r.len + T - f by ring]
          rw [lastEnd_cons, Option.some.injEq] at hf
          cases hle : lastEnd rows with
          | some g =>
            rw [hle] at hf; simp only [Option.getD_some] at hf; subst hf
            have := hb g hle
            rw [List.length_cons]; push_cast; nlinarith
          | none =>
            cases rows with
            | cons q rows => rw [lastEnd_cons] at hle; cases hle
            | nil =>
              simp only [fill, Option.some.injEq, Prod.mk.injEq] at h
              have hm : marks = [] := by simpa using h.2
              subst hm
              simp only [List.map_nil, totalLen, Option.some.injEq] at hT
              rw [hle] at hf; simp only [Option.getD_none] at hf
              rw [← hT, ← hf, add_zero, sub_self, abs_zero]; simp [h0]
    · next hgap =>
      rw [not_lt] at hgap
      rw [Option.map_eq_some_iff] at h
      obtain ⟨⟨st1, ns⟩, h, hpair⟩ := h
      simp only [Prod.mk.injEq] at hpair
      obtain ⟨rfl, rfl⟩ := hpair
      obtain ⟨hg', hc', marks, rfl, hR⟩ := ih _ _ _ _ hc (fun q hq => hl q (List.mem_cons_of_mem _ hq)) h
      have hrl : rowLen st1.dict r.name = some r.len := hg'.1.rowLen (hl r List.mem_cons_self)
      have ha := abs_le.mp hgap
      refine ⟨hg', hc', (r.name, true) :: marks, rfl, ?_, ?_, ?_, ?_⟩
      · simp [hR.comps]
      · intro n hn
        rcases List.mem_cons.mp hn with hn | hn
        · simp at hn
        · exact hR.drifts n hn
      · intro k q hk
        cases k with
        | zero =>
          simp only [List.getElem?_cons_zero, Option.some.injEq] at hk
          subst hk
          refine ⟨[], marks, 0, rfl, rfl, rfl, ?_⟩
          rw [add_zero, abs_sub_comm]; push_cast; linarith
        | succ k =>
          rw [List.getElem?_cons_succ] at hk
          obtain ⟨m1, m2, T, rfl, hm1, hT, hb⟩ := hR.starts k q hk
          refine ⟨(r.name, true) :: m1, m2, r.len + T, rfl, ?_, ?_, ?_⟩
          · simp [hm1]
          · simp only [List.map_cons, totalLen, hrl, hT]
          · have hb := abs_le.mp hb
            push_cast
            rw [abs_le]
            constructor <;> nlinarith
      · obtain ⟨T, hT, hb⟩ := hR.total
        refine ⟨r.len + T, by simp only [List.map_cons, totalLen, hrl, hT], ?_⟩
        intro f hf
        rw [lastEnd_cons, Option.some.injEq] at hf
        cases hle : lastEnd rows with
        | some g =>
          rw [hle] at hf; simp only [Option.getD_some] at hf; subst hf
          have hb := abs_le.mp (hb g hle)
          rw [List.length_cons]; push_cast
          rw [abs_le]
          constructor <;> nlinarith
        | none =>
          cases rows with
          | cons q rows => rw [lastEnd_cons] at hle; cases hle
          | nil =>
            simp only [fill, Option.some.injEq, Prod.mk.injEq] at h
            have hm : marks = [] := by simpa using h.2
            subst hm
            simp only [List.map_nil, totalLen, Option.some.injEq] at hT
            rw [hle] at hf; simp only [Option.getD_none] at hf
            rw [← hT, ← hf, add_zero, abs_le]
            simp only [List.length_cons, List.length_nil]
            push_cast
            constructor <;> linarith

/-- `fill` raises exactly when two rows overlap by more than the tolerance. -/
theorem fill_none (tol : ℝ) (h0 : 0 ≤ tol) (rows : List Placed) : ∀ (st : St) (e : ℝ),
    fill tol st e rows = none ↔ ¬ (rows.IsChain (fun a b => a.s + a.len - tol ≤ b.s) ∧ ∀ r, rows.head? = some r → e - tol ≤ r.s) := by
  induction rows with
  | nil => intro st e; simp [fill]
  | cons r rows ih =>
    intro st e
    have hch : (r :: rows).IsChain (fun a b => a.s + a.len - tol ≤ b.s) ↔
        (rows.IsChain (fun a b => a.s + a.len - tol ≤ b.s) ∧ ∀ q, rows.head? = some q → r.s + r.len - tol ≤ q.s) := by
      cases rows with
      | nil => simp
      | cons q rows => simp [List.isChain_cons_cons, and_comm]
    rw [hch, fill]
    simp only [List.head?_cons, Option.some.injEq, forall_eq']
    split
    · next hgap =>
      split
      · next hneg =>
        rw [abs_of_neg hneg] at hgap
        simp only [true_iff, not_and, not_le]
        intro _; linarith
      · next hneg =>
        rw [Option.map_eq_none_iff, ih]
        have : e - tol ≤ r.s := by linarith [not_lt.mp hneg]
        simp [this]
    · next hgap =>
      rw [not_lt, abs_le] at hgap
      rw [Option.map_eq_none_iff, ih]
      have : e - tol ≤ r.s := by linarith
      simp [this]

end Verif.Composer
