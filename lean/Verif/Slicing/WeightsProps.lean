import Verif.Slicing.Weights
import Mathlib.Tactic.Ring
import Mathlib.Tactic.Linarith
import Mathlib.Tactic.FieldSimp
import Mathlib.Tactic.NormNum
import Mathlib.Algebra.BigOperators.Ring.List

/-!
# C30: weights of the slices
-/

namespace Verif.Slicing

/-- Alternation of drifts and element slices: drift, element, drift, ..., drift. -/
def alternating : List (ℝ × Bool) → List Bool := List.map Prod.snd

/-- Weights of the drift parts. -/
def driftPart (l : List (ℝ × Bool)) : List ℝ := (l.filter (fun e => e.2)).map Prod.fst

/-- Weights of the element slices. -/
def elementPart (l : List (ℝ × Bool)) : List ℝ := (l.filter (fun e => !e.2)).map Prod.fst

/-- `n` times (drift, element), then a drift. -/
def pattern : Nat → List Bool
  | 0 => [true]
  | n + 1 => true :: false :: pattern n

theorem sum_replicate (n : Nat) (x : ℝ) : (List.replicate n x).sum = n * x := by
  induction n with
  | zero => simp
  | succ n ih => rw [List.replicate_succ, List.sum_cons, ih]; push_cast; ring

theorem sum_sections (p : ℝ) (l : List ℝ) : (sections p l).sum = l.getLastD p - p := by
  induction l generalizing p with
  | nil => simp [sections]
  | cons a l ih =>
    rw [sections, List.sum_cons, ih, List.getLastD_cons]
    ring

theorem length_sections (p : ℝ) (l : List ℝ) : (sections p l).length = l.length := by
  induction l generalizing p with
  | nil => rfl
  | cons a l ih => rw [sections, List.length_cons, ih, List.length_cons]

theorem sum_map_div (l : List ℝ) (x : ℝ) : (l.map (· / x)).sum = l.sum / x := by
  induction l with
  | nil => simp
  | cons a l ih => rw [List.map_cons, List.sum_cons, ih, List.sum_cons]; ring

theorem sections_nonneg (p : ℝ) (l : List ℝ) (h : List.Pairwise (· ≤ ·) (p :: l)) : ∀ x ∈ sections p l, 0 ≤ x := by
  induction l generalizing p with
  | nil => intro x hx; exact absurd hx (by simp [sections])
  | cons a l ih =>
    intro x hx
    rw [sections] at hx
    rw [List.pairwise_cons] at h
    rcases List.mem_cons.mp hx with rfl | hx
    · have := h.1 a List.mem_cons_self
      linarith
    · exact ih a h.2 x hx

theorem getLastD_mem_cons (p : ℝ) (l : List ℝ) : l.getLastD p ∈ p :: l := by
  induction l generalizing p with
  | nil => simp
  | cons a l ih => rw [List.getLastD_cons]; exact List.mem_cons_of_mem _ (ih a)

/-- **C30, drift weights.**  They add up to one. -/
theorem driftWeights_sum (s : Scheme) (length : ℝ) (ds : List ℝ) (h : s.driftWeights length = some ds) : ds.sum = 1 := by
  unfold Scheme.driftWeights at h
  split at h
  · split at h
    · cases h; simp
    · cases h
      rw [sum_replicate]
      rename_i n m _
      have : (((Scheme.uniform n m).order + 1 : Nat) : ℝ) ≠ 0 := by exact Nat.cast_ne_zero.mpr (Nat.succ_ne_zero _)
      exact mul_one_div_cancel this
  · split at h
    · cases h; simp
    · split at h
      · cases h; norm_num
      · rename_i n' m h0 h1
        cases h
        have hn : 2 ≤ (Scheme.teapot n' m).order := by omega
        revert hn
        generalize (Scheme.teapot n' m).order = n
        intro hn
        have hn' : (2 : ℝ) ≤ n := by exact_mod_cast hn
        rw [List.sum_append, List.sum_append, sum_replicate]
        simp only [List.sum_cons, List.sum_nil, add_zero]
        have e : ((n - 1 : Nat) : ℝ) = (n : ℝ) - 1 := by
          rw [Nat.cast_sub (by omega)]; simp
        rw [e]
        have h1 : (n : ℝ) - 1 ≠ 0 := by intro hc; linarith
        have h2 : (1 : ℝ) + n ≠ 0 := by intro hc; linarith
        have h3 : (n : ℝ) ^ 2 - 1 = (n - 1) * (1 + n) := by ring
        rw [h3]
        field_simp
        ring
  · split at h
    · exact absurd h (by simp)
    · rename_i h0
      cases h
      rw [sum_map_div, List.sum_append, sum_sections]
      unfold lastCut
      simp only [List.sum_cons, List.sum_nil, add_zero, sub_zero]
      rw [add_sub_cancel, div_self h0]

theorem driftWeights_length (s : Scheme) (length : ℝ) (ds : List ℝ) (h : s.driftWeights length = some ds) :
    ds.length = s.order + 1 ∨ (∃ atS m, s = .custom atS m ∧ ds.length = atS.length + 1) := by
  unfold Scheme.driftWeights at h
  split at h
  · split at h
    · cases h
      rename_i h0
      left
      simp [h0]
    · cases h
      left
      simp
  · split at h
    · cases h
      rename_i h0
      left
      simp [h0]
    · split at h
      · cases h
        rename_i h1
        left
        simp [h1]
      · cases h
        left
        rename_i n m h0 h1
        simp only [List.length_append, List.length_cons, List.length_nil, List.length_replicate]
        omega
  · split at h
    · exact absurd h (by simp)
    · cases h
      right
      rename_i atS m _
      refine ⟨atS, m, rfl, ?_⟩
      simp [length_sections]

theorem custom_order (atS : List ℝ) (m : Mode) : (Scheme.custom atS m).order = atS.length := by
  unfold Scheme.order Scheme.mode Scheme.arg
  cases m <;> rfl

theorem driftWeights_count (s : Scheme) (length : ℝ) (ds : List ℝ) (h : s.driftWeights length = some ds) :
    ds.length = s.order + 1 := by
  rcases driftWeights_length s length ds h with h1 | ⟨atS, m, rfl, h1⟩
  · exact h1
  · rw [custom_order]; exact h1

theorem elementWeights_spec (s : Scheme) (es : List ℝ) (h : s.elementWeights = some es) :
    es.sum = 1 ∧ (es.length = s.order ∨ (s.order = 0 ∧ s.mode = .thick ∧ es = [1])) := by
  have key : ∀ n : Nat, n ≠ 0 → (List.replicate n (1 / (n : ℝ))).sum = 1 := by
    intro n hn
    rw [sum_replicate]
    have : (n : ℝ) ≠ 0 := by exact_mod_cast hn
    field_simp
  unfold Scheme.elementWeights at h
  split at h
  · split at h
    · exact absurd h (by simp)
    · rename_i h0
      cases h
      exact ⟨key _ h0, Or.inl (by simp)⟩
  · split at h
    · rename_i hc
      cases h
      exact ⟨by simp, Or.inr ⟨hc.1, hc.2, rfl⟩⟩
    · split at h
      · exact absurd h (by simp)
      · rename_i h0
        cases h
        exact ⟨key _ h0, Or.inl (by simp)⟩

theorem zipWeights_thin (ds es : List ℝ) (hl : ds.length = es.length + 1) :
    ∃ l, zipWeights .thin ds es = some l ∧ driftPart l = ds ∧ elementPart l = es ∧ alternating l = pattern es.length := by
  induction es generalizing ds with
  | nil =>
    match ds, hl with
    | [d], _ => exact ⟨[(d, true)], rfl, rfl, rfl, rfl⟩
  | cons e es ih =>
    match ds, hl with
    | d :: ds, hl =>
      obtain ⟨l, h1, h2, h3, h4⟩ := ih ds (by simpa using hl)
      refine ⟨(d, true) :: (e, false) :: l, ?_, ?_, ?_, ?_⟩
      · rw [zipWeights, h1]; rfl
      · unfold driftPart at *
        simp [h2]
      · unfold elementPart at *
        simp [h3]
      · unfold alternating at *
        simp [h4, pattern]

theorem zipWeights_thick (ds es : List ℝ) (hl : ds.length = es.length + 1 ∨ ds.length = es.length) :
    ∃ l, zipWeights .thick ds es = some l ∧ driftPart l = ds ∧ elementPart l = [] ∧ alternating l = ds.map (fun _ => true) := by
  induction es generalizing ds with
  | nil =>
    match ds, hl with
    | [d], _ => exact ⟨[(d, true)], rfl, rfl, rfl, rfl⟩
    | [], _ => exact ⟨[], rfl, rfl, rfl, rfl⟩
  | cons e es ih =>
    match ds, hl with
    | [], hl => exact absurd hl (by simp)
    | d :: ds, hl =>
      obtain ⟨l, h1, h2, h3, h4⟩ := ih ds (by simpa using hl)
      refine ⟨(d, true) :: l, ?_, ?_, ?_, ?_⟩
      · rw [zipWeights, h1]; rfl
      · unfold driftPart at *
        simp [h2]
      · unfold elementPart at *
        simp [h3]
      · unfold alternating at *
        simp [h4]

/-- **C30, thin slicing.**  For every valid thin scheme and every length different from zero the weights are available;
they alternate drift, element, ..., drift with as many element slices as requested; the drift weights add up
to one and so do the element weights. -/
theorem C30_thin (s : Scheme) (hm : s.mode = .thin) (hv : s.Valid) (length : ℝ) (hl : length ≠ 0) :
    ∃ l, s.iterWeights length = some l ∧ alternating l = pattern s.arg ∧ (driftPart l).sum = 1 ∧ (elementPart l).sum = 1 := by
  have ho : s.order = s.arg := by unfold Scheme.order; rw [hm]
  have hpos : s.order ≠ 0 := by unfold Scheme.Valid at hv; omega
  obtain ⟨ds, hds⟩ : ∃ ds, s.driftWeights length = some ds := by
    unfold Scheme.driftWeights
    split
    · rw [if_neg hpos]; exact ⟨_, rfl⟩
    · rw [if_neg hpos]; split <;> exact ⟨_, rfl⟩
    · rw [if_neg hl]; exact ⟨_, rfl⟩
  obtain ⟨es, hes⟩ : ∃ es, s.elementWeights = some es := by
    unfold Scheme.elementWeights
    split
    · rw [if_neg hpos]; exact ⟨_, rfl⟩
    · rw [if_neg (fun hc => hpos hc.1), if_neg hpos]; exact ⟨_, rfl⟩
  have hd := driftWeights_count s length ds hds
  obtain ⟨he1, he2⟩ := elementWeights_spec s es hes
  have he : es.length = s.order := by
    rcases he2 with h | ⟨h, _⟩
    · exact h
    · exact absurd h hpos
  obtain ⟨l, h1, h2, h3, h4⟩ := zipWeights_thin ds es (by omega)
  refine ⟨l, ?_, ?_, ?_, ?_⟩
  · unfold Scheme.iterWeights
    rw [hds, hes, hm]
    exact h1
  · rw [h4, he, ho]
  · rw [h2]; exact driftWeights_sum s length ds hds
  · rw [h3]; exact he1

/-- **C30 (partial), thick slicing.**  For every valid thick scheme and every length different from zero there are as many
slices as requested and their weights add up to one.  Missing: a custom scheme without cuts, see
`C30_custom_without_cuts_violated`. -/
theorem C30_thick_partial (s : Scheme) (hm : s.mode = .thick) (hv : s.Valid) (length : ℝ) (hl : length ≠ 0)
    (hc : ∀ m, s ≠ .custom [] m) :
    ∃ l, s.iterWeights length = some l ∧ l.map Prod.snd = List.replicate s.arg true ∧ (l.map Prod.fst).sum = 1 := by
  have ho : s.order + 1 = s.arg := by
    unfold Scheme.order Scheme.Valid at *; rw [hm]; simp only; omega
  obtain ⟨ds, hds⟩ : ∃ ds, s.driftWeights length = some ds := by
    unfold Scheme.driftWeights
    split
    · split <;> exact ⟨_, rfl⟩
    · split
      · exact ⟨_, rfl⟩
      · split <;> exact ⟨_, rfl⟩
    · rw [if_neg hl]; exact ⟨_, rfl⟩
  obtain ⟨es, hes⟩ : ∃ es, s.elementWeights = some es := by
    unfold Scheme.elementWeights
    split
    · rename_i atS m
      rw [if_neg]
      · exact ⟨_, rfl⟩
      · rw [custom_order]
        intro h0
        exact hc m (by rw [List.length_eq_zero_iff.mp h0])
    · by_cases h0 : s.order = 0
      · rw [if_pos ⟨h0, hm⟩]; exact ⟨_, rfl⟩
      · rw [if_neg (fun hc => h0 hc.1), if_neg h0]; exact ⟨_, rfl⟩
  have hd := driftWeights_count s length ds hds
  obtain ⟨he1, he2⟩ := elementWeights_spec s es hes
  have hlen : ds.length = es.length + 1 ∨ ds.length = es.length := by
    rcases he2 with h | ⟨h, _, rfl⟩
    · left; omega
    · right; simp [hd, h]
  obtain ⟨l, h1, h2, h3, h4⟩ := zipWeights_thick ds es hlen
  have hall : ∀ l : List (ℝ × Bool), elementPart l = [] → driftPart l = l.map Prod.fst := by
    intro l hl
    unfold elementPart at hl
    unfold driftPart
    rw [List.filter_eq_self.mpr]
    intro e he
    by_contra hne
    have : e ∈ l.filter (fun e => !e.2) := List.mem_filter.mpr ⟨he, by simpa using hne⟩
    have hnil := List.map_eq_nil_iff.mp hl
    rw [hnil] at this
    exact absurd this (by simp)
  refine ⟨l, ?_, ?_, ?_⟩
  · unfold Scheme.iterWeights
    rw [hds, hes, hm]
    exact h1
  · have : alternating l = l.map Prod.snd := rfl
    rw [← this, h4, List.map_const', hd, ho]
  · rw [← hall l h3, h2]; exact driftWeights_sum s length ds hds

/-- **C30, no negative drift.**  For the uniform and teapot schemes always; for a custom scheme if the cuts are in order and
inside the element. -/
theorem C30_nonneg (s : Scheme) (length : ℝ) (hl : 0 < length)
    (hc : ∀ atS m, s = .custom atS m → List.Pairwise (· ≤ ·) (0 :: atS) ∧ ∀ a ∈ atS, a ≤ length)
    (ds : List ℝ) (h : s.driftWeights length = some ds) : ∀ d ∈ ds, 0 ≤ d := by
  unfold Scheme.driftWeights at h
  split at h
  · split at h
    · cases h; intro d hd; rw [List.mem_singleton.mp hd]; norm_num
    · cases h
      intro d hd
      rw [List.eq_of_mem_replicate hd]
      positivity
  · split at h
    · cases h; intro d hd; rw [List.mem_singleton.mp hd]; norm_num
    · split at h
      · cases h
        intro d hd
        simp at hd
        rw [hd]; norm_num
      · rename_i n m h0 h1
        cases h
        have hn : 2 ≤ (Scheme.teapot n m).order := by omega
        revert hn
        generalize (Scheme.teapot n m).order = k
        intro hn d hd
        have hk : (2 : ℝ) ≤ k := by exact_mod_cast hn
        rcases List.mem_append.mp hd with hd | hd
        · rcases List.mem_append.mp hd with hd | hd
          · rw [List.mem_singleton.mp hd]; positivity
          · rw [List.eq_of_mem_replicate hd]
            apply div_nonneg (by linarith)
            nlinarith
        · rw [List.mem_singleton.mp hd]; positivity
  · rename_i atS m
    split at h
    · exact absurd h (by simp)
    · cases h
      obtain ⟨hs, hle⟩ := hc atS m rfl
      intro d hd
      obtain ⟨x, hx, rfl⟩ := List.mem_map.mp hd
      apply div_nonneg _ hl.le
      rcases List.mem_append.mp hx with hx | hx
      · exact sections_nonneg 0 atS hs x hx
      · rw [List.mem_singleton.mp hx]
        have := getLastD_mem_cons 0 atS
        unfold lastCut
        rcases List.mem_cons.mp this with h0 | hmem
        · rw [h0]; linarith
        · have := hle _ hmem
          linarith

/-- **C30, custom cuts.**  The cumulated drift weights times the length are the requested cut positions. -/
theorem C30_custom_positions (atS : List ℝ) (m : Mode) (length : ℝ) (hl : length ≠ 0) (ds : List ℝ)
    (h : (Scheme.custom atS m).driftWeights length = some ds) (k : Nat) (hk : k < atS.length) :
    ((ds.take (k + 1)).map (· * length)).sum = atS[k] := by
  unfold Scheme.driftWeights at h
  simp only at h
  rw [if_neg hl] at h
  cases h
  rw [← List.map_take, List.map_map]
  have hcomp : ((fun x : ℝ => x * length) ∘ fun x => x / length) = id := by
    funext x
    simp only [Function.comp, id]
    field_simp
  rw [hcomp, List.map_id, List.take_append_of_le_length (by rw [length_sections]; omega)]
  have key : ∀ (l : List ℝ) (p : ℝ) (k : Nat) (hk : k < l.length), ((sections p l).take (k + 1)).sum = l[k] - p := by
    intro l
    induction l with
    | nil => intro p k hk; exact absurd hk (by simp)
    | cons a l ih =>
      intro p k hk
      rw [sections, List.take_succ_cons, List.sum_cons]
      cases k with
      | zero => simp
      | succ k =>
        rw [ih a k (by simpa using hk)]
        simp only [List.getElem_cons_succ]
        ring
  rw [key atS 0 k hk, sub_zero]

/-- **C30 violated**: a custom thick scheme without cuts is accepted by the constructor but has no weights: using it raises. -/
theorem C30_custom_without_cuts_violated (length : ℝ) :
    (Scheme.custom [] .thick).Valid ∧ (Scheme.custom [] .thick).iterWeights length = none := by
  constructor
  · exact Nat.le_refl 1
  · unfold Scheme.iterWeights
    have : (Scheme.custom [] .thick).elementWeights = none := by
      unfold Scheme.elementWeights
      simp only
      exact if_pos (custom_order [] .thick)
    rw [this]
    split
    · rename_i h; exact absurd h (by simp)
    · rfl

/-- Two thin teapot slices: weights 1/6, 1/2, 2/3, 1/2, 1/6. -/
example : (Scheme.teapot 2 .thin).Valid ∧
    (Scheme.teapot 2 .thin).driftWeights 5 = some [1 / 6, 2 / 3, 1 / 6] := by
  constructor
  · unfold Scheme.Valid Scheme.arg; decide
  · unfold Scheme.driftWeights Scheme.order Scheme.mode Scheme.arg
    norm_num

end Verif.Slicing
