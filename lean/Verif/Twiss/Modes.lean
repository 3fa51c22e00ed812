import Verif.Twiss.Props

/-! # Pairing and selection of the modes of a one-turn matrix -/

namespace Verif.Twiss

open Matrix

/-- What `numpy.linalg.eig` finds for the symplectic matrix of a stable machine: six independent
eigenvectors, in complex conjugate pairs (`cj` gives the partner), eigenvalues on the unit circle, all
different. -/
structure EigenPairs (M : Mat) (v : Fin 6 → CVec) (w : Fin 6 → ℂ) (cj : Fin 6 → Fin 6) : Prop where
  symplectic : Symplectic M
  eigen : ∀ j, act M (v j) = fun i => w j * v j i
  unit : ∀ j, ‖w j‖ = 1
  distinct : Function.Injective w
  conj_w : ∀ j, w (cj j) = starRingEnd ℂ (w j)
  conj_v : ∀ j i, v (cj j) i = starRingEnd ℂ (v j i)
  conj_ne : ∀ j, cj j ≠ j
  indep : ∀ c : Fin 6 → ℂ, (∀ i, ∑ j, c j * v j i = 0) → c = 0

/-- In addition no two tunes differ by one half: the imaginary part of an eigenvalue identifies its
partner. -/
structure Stable (M : Mat) (v : Fin 6 → CVec) (w : Fin 6 → ℂ) (cj : Fin 6 → Fin 6) : Prop
    extends EigenPairs M v w cj where
  paired : ∀ i j, i ≠ j → (w i + w j).im = 0 → j = cj i

namespace Stable

variable {M : Mat} {v : Fin 6 → CVec} {w : Fin 6 → ℂ} {cj : Fin 6 → Fin 6}

theorem invol (h : Stable M v w cj) (j : Fin 6) : cj (cj j) = j := by
  apply h.distinct
  rw [h.conj_w, h.conj_w, Complex.conj_conj]

theorem im_zero (h : Stable M v w cj) (j : Fin 6) : (w j + w (cj j)).im = 0 := by
  rw [h.conj_w]
  simp

end Stable

/-! ## Search of the minimum -/

theorem fold_min {f : Fin 6 → ℝ} (hpos : ∀ i, 0 ≤ f i) (l : List (Fin 6)) (n : ℕ) (m : ℝ × ℕ)
    (hm : m.1 = 0) :
    ((l.zipIdx n).foldl (fun (m : ℝ × ℕ) (b : Fin 6 × ℕ) =>
      if m.1 > f b.1 then (f b.1, b.2) else m) m) = m := by
  induction l generalizing n with
  | nil => rfl
  | cons a l ih =>
    rw [List.zipIdx_cons, List.foldl_cons]
    have : ¬ m.1 > f a := by rw [hm]; exact not_lt.mpr (hpos a)
    simp only [this, if_false]
    exact ih (n + 1)

theorem fold_find {f : Fin 6 → ℝ} (hpos : ∀ i, 0 ≤ f i) {c : Fin 6} (hc : f c = 0) (l : List (Fin 6))
    (hl : c ∈ l) (huniq : ∀ b ∈ l, f b = 0 → b = c) (nd : l.Nodup) (n : ℕ) (m : ℝ × ℕ)
    (hm : 0 < m.1) :
    ∃ k, k < l.length ∧ l[k]? = some c ∧
      ((l.zipIdx n).foldl (fun (m : ℝ × ℕ) (b : Fin 6 × ℕ) =>
        if m.1 > f b.1 then (f b.1, b.2) else m) m).2 = n + k := by
  induction l generalizing n m with
  | nil => simp at hl
  | cons a l ih =>
    rw [List.zipIdx_cons, List.foldl_cons]
    by_cases ha : a = c
    · refine ⟨0, by simp, by simp [ha], ?_⟩
      have : m.1 > f a := by rw [ha, hc]; exact hm
      simp only [this, if_true]
      rw [fold_min hpos l (n + 1) _ (by rw [ha, hc])]
      simp
    · have hl' : c ∈ l := by
        rcases List.mem_cons.mp hl with h | h
        · exact absurd h.symm ha
        · exact h
      have fa : 0 < f a := lt_of_le_of_ne (hpos a)
        (fun e => ha (huniq a (by simp) e.symm))
      have hstep : 0 < (if m.1 > f a then (f a, n) else m).1 := by
        split
        · exact fa
        · exact hm
      obtain ⟨k, h1, h2, h3⟩ := ih hl' (fun b hb => huniq b (by simp [hb])) (List.nodup_cons.mp nd).2
        (n + 1) _ hstep
      refine ⟨k + 1, by simp; omega, by simpa using h2, ?_⟩
      rw [h3]
      omega

theorem argmin_cons (f : Fin 6 → ℝ) (a : Fin 6) (l : List (Fin 6)) : argmin f (a :: l)
    = ((l.zipIdx 1).foldl (fun (m : ℝ × ℕ) (b : Fin 6 × ℕ) =>
      if m.1 > f b.1 then (f b.1, b.2) else m) (f a, 0)).2 := rfl

/-- The search finds the place of the only zero. -/
theorem argmin_zero {f : Fin 6 → ℝ} (hpos : ∀ i, 0 ≤ f i) {c : Fin 6} (hc : f c = 0)
    {l : List (Fin 6)} (hl : c ∈ l) (huniq : ∀ b ∈ l, f b = 0 → b = c) (nd : l.Nodup) :
    argmin f l < l.length ∧ l[argmin f l]? = some c := by
  cases l with
  | nil => simp at hl
  | cons a l =>
    rw [argmin_cons]
    by_cases ha : a = c
    · rw [fold_min hpos l 1 (f a, 0) (by rw [ha, hc])]
      simp [ha]
    · have hl' : c ∈ l := by
        rcases List.mem_cons.mp hl with h | h
        · exact absurd h.symm ha
        · exact h
      have fa : 0 < f a := lt_of_le_of_ne (hpos a)
        (fun e => ha (huniq a (by simp) e.symm))
      obtain ⟨k, h1, h2, h3⟩ := fold_find hpos hc l hl' (fun b hb => huniq b (by simp [hb]))
        (List.nodup_cons.mp nd).2 1 (f a, 0) fa
      rw [h3]
      refine ⟨by simp; omega, ?_⟩
      rw [Nat.add_comm]
      simpa using h2

/-! ## Pairs -/

/-- A list of indices made of whole pairs. -/
def Whole (cj : Fin 6 → Fin 6) (l : List (Fin 6)) : Prop := l.Nodup ∧ ∀ a ∈ l, cj a ∈ l

theorem pairOff_spec {M : Mat} {v : Fin 6 → CVec} {w : Fin 6 → ℂ} {cj : Fin 6 → Fin 6}
    (h : Stable M v w cj) {a : Fin 6} {l : List (Fin 6)} (hw : Whole cj (a :: l)) :
    ∃ l', pairOff w (a :: l) = ((a, cj a), l') ∧ Whole cj l' ∧ l'.length + 1 = l.length
      ∧ (∀ b, b ∈ l' ↔ b ∈ a :: l ∧ b ≠ a ∧ b ≠ cj a) := by
  obtain ⟨nd, hc⟩ := hw
  have nd' := List.nodup_cons.mp nd
  have hl : cj a ∈ l := by
    rcases List.mem_cons.mp (hc a (by simp)) with e | e
    · exact absurd e (h.conj_ne a)
    · exact e
  have hz : |(w a + w (cj a)).im| = 0 := by rw [h.im_zero, abs_zero]
  obtain ⟨k1, k2⟩ := argmin_zero (f := fun b => |(w a + w b).im|) (fun _ => abs_nonneg _) hz hl
    (fun b hb e => by
      refine h.paired a b ?_ (abs_eq_zero.mp e)
      rintro rfl
      exact nd'.1 hb) nd'.2
  generalize hk : argmin (fun b => |(w a + w b).im|) l = k at k1 k2
  have hget : l.getD k 0 = cj a := by
    rw [List.getD_eq_getElem?_getD, k2]; rfl
  have hk2 : l[k] = cj a := by
    rw [List.getElem?_eq_getElem k1] at k2
    exact Option.some.inj k2
  have er : l.eraseIdx k = l.erase (cj a) := by
    rw [← hk2, nd'.2.erase_getElem]
  have mem : ∀ b, b ∈ l.eraseIdx k ↔ b ∈ a :: l ∧ b ≠ a ∧ b ≠ cj a := by
    intro b
    rw [er, nd'.2.mem_erase_iff]
    constructor
    · rintro ⟨h1, h2⟩
      exact ⟨by simp [h2], fun e => nd'.1 (e ▸ h2), h1⟩
    · rintro ⟨h1, h2, h3⟩
      refine ⟨h3, ?_⟩
      rcases List.mem_cons.mp h1 with e | e
      · exact absurd e h2
      · exact e
  refine ⟨l.eraseIdx k, ?_, ⟨?_, ?_⟩, ?_, mem⟩
  · unfold pairOff
    simp only [hk, hget]
  · exact List.Nodup.eraseIdx _ nd'.2
  · intro b hb
    obtain ⟨h1, h2, h3⟩ := (mem b).mp hb
    refine (mem _).mpr ⟨hc b h1, ?_, ?_⟩
    · intro e
      exact h3 (by rw [← e, h.invol])
    · intro e
      exact h2 (by rw [← h.invol b, e, h.invol])
  · rw [List.length_eraseIdx]
    simp [k1]
    omega

/-- The three pairs found are pairs of conjugate modes and contain all six. -/
theorem conjModes_spec {M : Mat} {v : Fin 6 → CVec} {w : Fin 6 → ℂ} {cj : Fin 6 → Fin 6}
    (h : Stable M v w cj) :
    ∃ a b c, conjModes w = [(a, cj a), (b, cj b), (c, cj c)]
      ∧ b ≠ a ∧ b ≠ cj a ∧ c ≠ a ∧ c ≠ cj a ∧ c ≠ b ∧ c ≠ cj b := by
  have h0 : Whole cj [0, 5, 1, 2, 3, 4] := by
    refine ⟨by decide, fun a _ => ?_⟩
    generalize cj a = b
    fin_cases b <;> simp
  obtain ⟨l1, e1, w1, n1, m1⟩ := pairOff_spec h h0
  match l1, n1 with
  | [], n1 => simp at n1
  | b :: l1', n1 =>
    obtain ⟨l2, e2, w2, n2, m2⟩ := pairOff_spec h w1
    match l2, n2 with
    | [], n2 => simp at n1 n2; omega
    | [c], n2 => simp at n1 n2; omega
    | c :: d :: e :: l2', n2 => simp at n1 n2; omega
    | [c, d], n2 =>
      have hcd : cj c = d := by
        have := w2.2 c (by simp)
        simp at this
        rcases this with e | e
        · exact absurd e (h.conj_ne c)
        · exact e
      have hb := (m1 b).mp (by simp)
      have hc2 := (m2 c).mp (by simp)
      have hc1 := (m1 c).mp hc2.1
      refine ⟨0, b, c, ?_, hb.2.1, hb.2.2, hc1.2.1, hc1.2.2, hc2.2.1, hc2.2.2⟩
      unfold conjModes
      simp only [e1, e2]
      simp [hcd]

end Verif.Twiss
