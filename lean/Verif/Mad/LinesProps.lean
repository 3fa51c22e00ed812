import Verif.Mad.Lines

/-!
# C143: MAD-X beam lines
-/

namespace Verif.Mad.Lines

theorem times_flatMap {α β : Type} (n : ℕ) (l : List α) (f : α → List β) : (times n l).flatMap f = times n (l.flatMap f) := by
  induction n with
  | zero => simp [times]
  | succ n ih =>
    have h1 : times (n + 1) l = l ++ times n l := by simp [times, List.replicate_succ]
    have h2 : times (n + 1) (l.flatMap f) = l.flatMap f ++ times n (l.flatMap f) := by simp [times, List.replicate_succ]
    rw [h1, h2, List.flatMap_append, ih]

theorem times_reverse {α : Type} (n : ℕ) (l : List α) : (times n l).reverse = times n l.reverse := by
  simp [times, List.reverse_flatten]

theorem elements_append (a b : List Piece) : elements (a ++ b) = elements a ++ elements b := by simp [elements]

theorem elements_reverse (a : List Piece) : elements a.reverse = (elements a).reverse := by
  simp [elements, List.filterMap_reverse]

theorem elements_times (n : ℕ) (l : List Piece) : elements (times n l) = times n (elements l) := by
  induction n with
  | zero => simp [times, elements]
  | succ n ih =>
    have h1 : times (n + 1) l = l ++ times n l := by simp [times, List.replicate_succ]
    have h2 : times (n + 1) (elements l) = elements l ++ times n (elements l) := by simp [times, List.replicate_succ]
    rw [h1, h2, elements_append, ih]

theorem elements_single (limits : Bool) (n : ℕ) (a : Option ℕ) : elements ((single limits n a).flatMap Comp.pieces) = [n] := by
  cases a <;> cases limits <;> simp [single, Comp.pieces, elements]

theorem reverse_single (limits : Bool) (n : ℕ) (a : Option ℕ) :
    elements ((single limits n a).reverse.flatMap Comp.pieces) = [n] := by
  cases a <;> cases limits <;> simp [single, Comp.pieces, elements]

/-- Without lines, the reversed components are the reversed elements. -/
theorem elements_reversed (limits : Bool) (look : ℕ → Kind) : ∀ i : Items, NoLines (fun n => (look n).meaning) i →
    elements ((parse limits look i).reverse.flatMap Comp.pieces) = (elements (contents limits look i)).reverse
  | .nil, _ => by simp [parse, contents, elements]
  | .ref rep inv n rest, h => by
    obtain ⟨h1, h2⟩ := h
    have ih := elements_reversed limits look rest h2
    cases hk : look n with
    | line l => simp [hk, Kind.meaning] at h1
    | elem a =>
      simp only [contents] at ih ⊢
      simp only [parse, hk, List.reverse_append, List.flatMap_append, elements_append, ih, List.reverse_append, times_reverse,
        times_flatMap, elements_times, elements_single, reverse_single, List.reverse_cons, List.reverse_nil, List.nil_append]
  | .nest rep inv sub rest, h => by
    obtain ⟨h1, h2⟩ := h
    have ihs := elements_reversed limits look sub h1
    have ihr := elements_reversed limits look rest h2
    simp only [contents] at ihs ihr ⊢
    cases inv
    · simp only [parse, Bool.false_eq_true, if_false, List.reverse_append, List.flatMap_append, elements_append, ihr, times_reverse,
        times_flatMap, elements_times, ihs]
    · simp only [parse, if_true, List.reverse_append, List.flatMap_append, elements_append, ihr, times_reverse,
        times_flatMap, elements_times, ihs, List.reverse_reverse]

/-- Where there are no lines there are none inside parentheses with a sign. -/
theorem NoLines.careful {look : ℕ → Meaning} : ∀ {i : Items}, NoLines look i → Careful look i
  | .nil, _ => trivial
  | .ref _ _ _ _, h => by unfold Careful; exact NoLines.careful h.2
  | .nest _ inv _ _, h => ⟨by cases inv <;> simp [h.1, NoLines.careful h.1], NoLines.careful h.2⟩

theorem contents_expand (limits : Bool) (look : ℕ → Kind) : ∀ i : Items, Careful (fun n => (look n).meaning) i →
    elements (contents limits look i) = expand (fun n => (look n).meaning) i
  | .nil, _ => by simp [parse, contents, elements, expand]
  | .ref rep inv n rest, h => by
    have ih := contents_expand limits look rest h
    simp only [contents] at ih ⊢
    cases hk : look n with
    | line l =>
      simp only [parse, hk, List.flatMap_append, elements_append, ih, expand, Kind.meaning]
      cases inv <;> simp [Comp.pieces, elements_times, elements_reverse]
    | elem a =>
      simp only [parse, hk, List.flatMap_append, elements_append, ih, expand, Kind.meaning, times_flatMap, elements_times,
        elements_single]
      cases inv <;> simp [times_reverse]
  | .nest rep inv sub rest, h => by
    obtain ⟨h1, h2⟩ := h
    have ihr := contents_expand limits look rest h2
    cases inv
    · simp only [Bool.false_eq_true, if_false] at h1
      have ihs := contents_expand limits look sub h1
      simp only [contents] at ihs ihr ⊢
      simp only [parse, Bool.false_eq_true, if_false, List.flatMap_append, elements_append, times_flatMap, elements_times, ihs, ihr,
        expand]
    · simp only [if_true] at h1
      have ihs := contents_expand limits look sub h1.careful
      have hrev := elements_reversed limits look sub h1
      rw [ihs] at hrev
      simp only [contents] at ihr ⊢
      simp only [parse, if_true, List.flatMap_append, elements_append, times_flatMap, elements_times, hrev, ihr, expand,
        times_reverse]

/-- **C143.** Every line of a file has its elements in the order in which MAD-X has them, whatever the repetitions, signs, inner
parentheses and lines named in it, and whether or not apertures are installed. *Missing*: lines named inside parentheses with a
sign; they fail, see below. -/
theorem C143_partial (limits : Bool) : ∀ (file : List (ℕ × Items)) (look : ℕ → Kind), AllCareful (fun n => (look n).meaning) file →
    ∀ n, (define limits look file n).meaning = expandAll (fun n => (look n).meaning) file n
  | [], look, _, n => by simp [define, expandAll]
  | (m, i) :: t, look, h, n => by
    have hk : (fun k => (if k = m then Kind.line (contents limits look i) else look k).meaning) =
        fun k => if k = m then .line (expand (fun n => (look n).meaning) i) else (look k).meaning := by
      funext k
      by_cases hkm : k = m
      · rw [if_pos hkm, if_pos hkm, ← contents_expand limits look i h.1]; rfl
      · simp only [if_neg hkm]
    have ih := C143_partial limits t (fun k => if k = m then .line (contents limits look i) else look k) (by rw [hk]; exact h.2) n
    simp only [define, expandAll]
    rw [ih, hk]

/-- `l1: line = (a, b); l2: line = (2*-l1, 3*(a, l1), -(a, b))`. -/
def demo : List (ℕ × Items) :=
  [(10, .ref 1 false 0 (.ref 1 false 1 .nil)),
   (11, .ref 2 true 10 (.nest 3 false (.ref 1 false 0 (.ref 1 false 10 .nil)) (.nest 1 true (.ref 1 false 0 (.ref 1 false 1 .nil)) .nil)))]

example : AllCareful (fun n => (Kind.elem (if n = 0 then some 5 else none)).meaning) demo ∧
    expandAll (fun _ => .elem) demo 11 = .line [1, 0, 1, 0, 0, 0, 1, 0, 0, 1, 0, 0, 1, 1, 0] := by
  constructor
  · simp [demo, AllCareful, Careful, NoLines, Kind.meaning]
  · simp [demo, expandAll, expand, times]

/-- An element with its aperture before it. -/
def withAperture (ap : ℕ → Option ℕ) (n : ℕ) : List Piece := match ap n with
  | some a => [.ap a, .el n]
  | none => [.el n]

/-- The aperture of a name. -/
def Kind.aperture : Kind → Option ℕ
  | .elem a => a
  | .line _ => none

theorem single_withAperture (n : ℕ) (a : Option ℕ) (ap : ℕ → Option ℕ) (h : ap n = a) :
    (single true n a).flatMap Comp.pieces = withAperture ap n := by
  subst h
  cases h : ap n <;> simp [single, withAperture, h, Comp.pieces]

/-- The lines held are made of elements with their apertures before them. -/
def Dressed (ap : ℕ → Option ℕ) (look : ℕ → Kind) : Prop :=
  ∀ n l, look n = .line l → l = (elements l).flatMap (withAperture ap)

theorem contents_dressed (ap : ℕ → Option ℕ) (look : ℕ → Kind) (hd : Dressed ap look) (ha : ∀ n a, look n = .elem a → ap n = a) :
    ∀ i : Items, NoSigns i → contents true look i = (elements (contents true look i)).flatMap (withAperture ap)
  | .nil, _ => by simp [contents, parse, elements]
  | .ref rep inv n rest, h => by
    obtain ⟨h1, h2⟩ := h
    have ih := contents_dressed ap look hd ha rest h2
    simp only [contents] at ih ⊢
    cases hk : look n with
    | line l =>
      simp only [parse, hk, h1, Bool.false_eq_true, if_false, List.flatMap_append, elements_append]
      rw [← ih]
      congr 1
      have hl := hd n l hk
      simp only [List.flatMap_cons, List.flatMap_nil, List.append_nil, Comp.pieces, elements_times, times_flatMap]
      rw [← hl]
    | elem a =>
      simp only [parse, hk, List.flatMap_append, elements_append, times_flatMap, elements_times, elements_single]
      rw [← ih, single_withAperture n a ap (ha n a hk)]
      simp
  | .nest rep inv sub rest, h => by
    obtain ⟨h1, h2, h3⟩ := h
    have ihs := contents_dressed ap look hd ha sub h2
    have ihr := contents_dressed ap look hd ha rest h3
    simp only [contents] at ihs ihr ⊢
    simp only [parse, h1, Bool.false_eq_true, if_false, List.flatMap_append, elements_append, times_flatMap, elements_times]
    rw [← ihs, ← ihr]

/-- **C143, apertures.** When apertures are installed, each occurrence of an element which has one is immediately preceded by it,
and there are no others. *Missing*: signs; they fail, see below. -/
theorem C143_apertures_partial (ap : ℕ → Option ℕ) (look : ℕ → Kind) (hd : Dressed ap look)
    (ha : ∀ n a, look n = .elem a → ap n = a) (i : Items) (h : NoSigns i) :
    contents true look i = (elements (contents true look i)).flatMap (withAperture ap) := contents_dressed ap look hd ha i h

/-- Without apertures there are only the elements. -/
theorem C143_bare (look : ℕ → Kind) (hd : ∀ n l, look n = .line l → ∀ p ∈ l, ∃ k, p = .el k) : ∀ (i : Items),
    ∀ p ∈ contents false look i, ∃ k, p = .el k := by
  have hc : ∀ i : Items, ∀ c ∈ parse false look i, ∀ p ∈ c.pieces, ∃ k, p = .el k := by
    intro i
    induction i with
    | nil => simp [parse]
    | ref rep inv n rest ih =>
      intro c hc
      simp only [parse, List.mem_append] at hc
      rcases hc with hc | hc
      · cases hk : look n with
        | line l =>
          simp only [hk, List.mem_singleton] at hc
          subst hc
          intro p hp
          apply hd n l hk p
          cases inv <;> simp only [Comp.pieces, Bool.false_eq_true, if_false, if_true, List.mem_reverse, times, List.mem_flatten] at hp <;>
            · obtain ⟨l', hl', hp⟩ := hp
              rw [(List.mem_replicate.mp hl').2] at hp
              exact hp
        | elem a =>
          simp only [hk, times, List.mem_flatten] at hc
          obtain ⟨l', hl', hc⟩ := hc
          rw [(List.mem_replicate.mp hl').2] at hc
          intro p hp
          have : c = .piece (.el n) := by cases a <;> simpa [single] using hc
          subst this
          exact ⟨n, by simpa [Comp.pieces] using hp⟩
      · exact ih c hc
    | nest rep inv sub rest ihs ihr =>
      intro c hc
      simp only [parse, List.mem_append] at hc
      rcases hc with hc | hc
      · simp only [times, List.mem_flatten] at hc
        obtain ⟨l', hl', hc⟩ := hc
        rw [(List.mem_replicate.mp hl').2] at hc
        apply ihs c
        cases inv <;> simpa using hc
      · exact ihr c hc
  intro i p hp
  simp only [contents, List.mem_flatMap] at hp
  obtain ⟨c, hc1, hc2⟩ := hp
  exact hc i c hc1 p hc2

/-- **C143 fails** for a line inside a parenthesis with a sign: with `l1: line = (a, b)`, the line `(-(l1, c))` is `c, a, b` instead of
`c, b, a`. -/
theorem C143_reflection_violated :
    let look : ℕ → Kind := fun n => if n = 10 then .line [.el 0, .el 1] else .elem none
    let i := Items.nest 1 true (.ref 1 false 10 (.ref 1 false 2 .nil)) .nil
    elements (contents true look i) = [2, 0, 1] ∧ expand (fun n => (look n).meaning) i = [2, 1, 0] := by
  simp [contents, parse, times, Comp.pieces, single, elements, expand, Kind.meaning]

/-- **C143 fails** for the apertures of what is reflected: in `(-l1)` with `l1: line = (a, b)` the aperture of `a` comes after it. -/
theorem C143_apertures_violated :
    contents true (fun n => if n = 10 then .line (contents true (fun n => .elem (if n = 0 then some 5 else none))
      (.ref 1 false 0 (.ref 1 false 1 .nil))) else .elem (if n = 0 then some 5 else none)) (.ref 1 true 10 .nil)
      = [.el 1, .el 0, .ap 5] := by
  simp [contents, parse, times, Comp.pieces, single]

end Verif.Mad.Lines
