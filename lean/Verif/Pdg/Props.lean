import Verif.Pdg.Model
import Mathlib.Tactic.Common

namespace Verif.Pdg

/-! ## Texts with digits -/

def Digits (D : Text) : Prop := ∀ c ∈ D, isDigit c = true
def NoDigits (u : Text) : Prop := ∀ c ∈ u, isDigit c = false

theorem isPre_digits {sub : Text} (hs : NoDigits sub) (hne : sub ≠ []) {D : Text} (hD : Digits D) (w : Text) :
    isPre sub (w ++ D) = isPre sub w := by
  induction sub generalizing w with
  | nil => exact absurd rfl hne
  | cons a s ih =>
    cases w with
    | nil =>
      cases D with
      | nil => rfl
      | cons d D =>
        have h1 := hs a (by simp)
        have h2 := hD d (by simp)
        have : (a == d) = false := by
          rw [beq_eq_false_iff_ne]; rintro rfl; rw [h1] at h2; simp at h2
        simp [isPre, this]
    | cons b w =>
      cases s with
      | nil => simp [isPre]
      | cons a' s =>
        have := ih (fun c hc => hs c (by simp [hc])) (by simp) w
        simp only [List.cons_append, isPre] at this ⊢
        rw [this]

theorem isPre_nil {sub : Text} (hne : sub ≠ []) : isPre sub [] = false := by
  cases sub with
  | nil => exact absurd rfl hne
  | cons a s => rfl

theorem isPre_digit {sub : Text} (hs : NoDigits sub) (hne : sub ≠ []) {d : Char} (hd : isDigit d = true) (t : Text) : isPre sub (d :: t) = false := by
  cases sub with
  | nil => exact absurd rfl hne
  | cons a s =>
    have h1 := hs a (by simp)
    have : (a == d) = false := by
      rw [beq_eq_false_iff_ne]; rintro rfl; rw [h1] at hd; simp at hd
    simp [isPre, this]

theorem contains_digits {sub : Text} (hs : NoDigits sub) (hne : sub ≠ []) {D : Text} (hD : Digits D) (w : Text) :
    contains sub (w ++ D) = contains sub w := by
  induction w with
  | nil =>
    induction D with
    | nil => rfl
    | cons d D ih =>
      have := ih fun c hc => hD c (by simp [hc])
      simp only [List.nil_append, contains] at this ⊢
      rw [this, isPre_digit hs hne (hD d (by simp)), isPre_nil hne]
      rfl
  | cons c w ih =>
    simp only [List.cons_append, contains] at ih ⊢
    rw [ih, ← List.cons_append, isPre_digits hs hne hD _]

theorem contains_digits_front {sub : Text} (hs : NoDigits sub) (hne : sub ≠ []) {D : Text} (hD : Digits D) (w : Text) :
    contains sub (D ++ w) = contains sub w := by
  induction D with
  | nil => rfl
  | cons d D ih =>
    have := ih fun c hc => hD c (by simp [hc])
    simp only [List.cons_append, contains]
    rw [this, isPre_digit hs hne (hD d (by simp))]
    rfl

theorem isPre_length {sub t : Text} (h : isPre sub t = true) : sub.length ≤ t.length := by
  induction sub generalizing t with
  | nil => simp
  | cons a s ih =>
    cases t with
    | nil => simp [isPre] at h
    | cons b t =>
      simp only [isPre, Bool.and_eq_true] at h
      have := ih h.2
      simp only [List.length_cons]
      omega

theorem removeN_digits_only {sub : Text} (hs : NoDigits sub) (hne : sub ≠ []) {D : Text} (hD : Digits D) (k : ℕ) : removeN sub k D = D := by
  induction k generalizing D with
  | zero => cases D <;> rfl
  | succ k ih =>
    cases D with
    | nil => rfl
    | cons d D =>
      unfold removeN
      rw [if_neg (by rw [isPre_digit hs hne (hD d (by simp))]; simp), ih fun c hc => hD c (by simp [hc])]

theorem removeN_digits {sub : Text} (hs : NoDigits sub) (hne : sub ≠ []) {D : Text} (hD : Digits D) (k : ℕ) (w : Text) (hk : w.length ≤ k) :
    removeN sub k (w ++ D) = removeN sub k w ++ D := by
  induction k generalizing w with
  | zero =>
    have : w = [] := List.eq_nil_of_length_eq_zero (by omega)
    subst this
    cases D <;> rfl
  | succ k ih =>
    cases w with
    | nil =>
      rw [List.nil_append, removeN_digits_only hs hne hD]
      rfl
    | cons c w =>
      have e := isPre_digits hs hne hD (c :: w)
      rw [List.cons_append] at e ⊢
      unfold removeN
      rw [e]
      split_ifs with hp
      · have hl := isPre_length hp
        have h0 : 0 < sub.length := List.length_pos_iff.mpr hne
        have : (c :: (w ++ D)).drop sub.length = (c :: w).drop sub.length ++ D := by
          rw [← List.cons_append, List.drop_append_of_le_length hl]
        rw [this, ih]
        rw [List.length_drop]
        simp only [List.length_cons] at hk ⊢
        omega
      · rw [ih w (by simp only [List.length_cons] at hk; omega)]
        rfl

theorem removeN_fuel {sub : Text} (hne : sub ≠ []) (k : ℕ) (w : Text) (hk : w.length ≤ k) : removeN sub k w = remove sub w := by
  have step : ∀ (k : ℕ) (w : Text), w.length ≤ k → removeN sub (k + 1) w = removeN sub k w := by
    intro k
    induction k with
    | zero =>
      intro w hk
      have : w = [] := List.eq_nil_of_length_eq_zero (by omega)
      subst this; rfl
    | succ k ih =>
      intro w hk
      cases w with
      | nil => rfl
      | cons c w =>
        have h0 : 0 < sub.length := List.length_pos_iff.mpr hne
        rw [removeN, removeN]
        simp only [List.length_cons] at hk
        split_ifs with hp
        · exact ih _ (by rw [List.length_drop]; simp only [List.length_cons]; omega)
        · rw [ih w (by omega)]
  have : ∀ d, removeN sub (w.length + d) w = remove sub w := by
    intro d
    induction d with
    | zero => rfl
    | succ d ih => rw [← Nat.add_assoc, step _ _ (by omega), ih]
  rw [← this (k - w.length)]
  congr 1
  omega

theorem remove_digits {sub : Text} (hs : NoDigits sub) (hne : sub ≠ []) {D : Text} (hD : Digits D) (w : Text) :
    remove sub (w ++ D) = remove sub w ++ D := by
  show removeN sub (w ++ D).length (w ++ D) = _
  rw [removeN_digits hs hne hD _ w (by simp), removeN_fuel hne _ w (by simp)]

theorem remove_digits_front {sub : Text} (hs : NoDigits sub) (hne : sub ≠ []) {D : Text} (hD : Digits D) (w : Text) :
    remove sub (D ++ w) = D ++ remove sub w := by
  induction D with
  | nil => rfl
  | cons d D ih =>
    have := ih fun c hc => hD c (by simp [hc])
    show removeN sub ((D ++ w).length + 1) (d :: (D ++ w)) = _
    rw [removeN, if_neg (by rw [isPre_digit hs hne (hD d (by simp))]; simp)]
    show d :: remove sub (D ++ w) = _
    rw [this]
    rfl

theorem removeN_noDigits (sub : Text) (k : ℕ) {w : Text} (hw : NoDigits w) : NoDigits (removeN sub k w) := by
  induction k generalizing w with
  | zero => cases w <;> exact hw
  | succ k ih =>
    cases w with
    | nil => exact hw
    | cons c w =>
      rw [removeN]
      split_ifs
      · exact ih fun a ha => hw a (List.mem_of_mem_drop ha)
      · intro a ha
        rcases List.mem_cons.mp ha with rfl | h
        · exact hw _ (by simp)
        · exact ih (fun b hb => hw b (by simp [hb])) a h

/-- The first element whose name is, or is repeated in, the letters. -/
def searchLetters (w : Text) : List (ℕ × Text) → Option ℕ
  | [] => none
  | (Z, e) :: rest => if contains (plain e) w && (remove (plain e) w).isEmpty then some Z else searchLetters w rest

theorem numeric_iff {r D : Text} (hr : NoDigits r) (hD : Digits D) (hne : D ≠ []) :
    isNumeric (r ++ D) = r.isEmpty ∧ isNumeric (D ++ r) = r.isEmpty := by
  have hd : D.all isDigit = true := List.all_eq_true.mpr hD
  have hemp : D.isEmpty = false := by cases D <;> simp_all
  cases r with
  | nil => simp [isNumeric, hd, hemp]
  | cons a r =>
    have := hr a (by simp)
    simp [isNumeric, this]

theorem searchIon_eq {w D : Text} (hw : NoDigits w) (hD : Digits D) (hne : D ≠ []) (hpos : 0 < readNat D) (l : List (ℕ × Text))
    (hl : ∀ e ∈ l, NoDigits (plain e.2) ∧ plain e.2 ≠ []) :
    searchIon (w ++ D) l = (searchLetters w l).map (ionId (readNat D)) ∧ searchIon (D ++ w) l = (searchLetters w l).map (ionId (readNat D)) := by
  induction l with
  | nil => exact ⟨rfl, rfl⟩
  | cons x rest ih =>
    obtain ⟨Z, e⟩ := x
    obtain ⟨h1, h2⟩ := hl (Z, e) (by simp)
    obtain ⟨i1, i2⟩ := ih fun y hy => hl y (by simp [hy])
    have hr : NoDigits (remove (plain e) w) := removeN_noDigits _ _ hw
    obtain ⟨n1, n2⟩ := numeric_iff hr hD hne
    constructor
    · rw [searchIon, searchLetters]
      rw [contains_digits h1 h2 hD, remove_digits h1 h2 hD, n1, i1]
      by_cases he : remove (plain e) w = []
      · rw [he]
        simp only [List.nil_append, List.isEmpty_nil, Bool.true_and, decide_eq_true hpos]
        split_ifs <;> rfl
      · have : (remove (plain e) w).isEmpty = false := by simpa using he
        rw [this]
        simp
    · rw [searchIon, searchLetters]
      rw [contains_digits_front h1 h2 hD, remove_digits_front h1 h2 hD, n2, i2]
      by_cases he : remove (plain e) w = []
      · rw [he]
        simp only [List.append_nil, List.isEmpty_nil, Bool.true_and, decide_eq_true hpos]
        split_ifs <;> rfl
      · have : (remove (plain e) w).isEmpty = false := by simpa using he
        rw [this]
        simp

theorem elements_ok : ∀ e ∈ elements ++ elementsLong, NoDigits (plain e.2) ∧ plain e.2 ≠ [] := by
  unfold NoDigits; decide +kernel

/-! ## Names in the table -/

def letters (t : Text) : Text := t.filter fun c => !isDigit c
def digits (t : Text) : Text := t.filter isDigit

theorem letters_eq {u D : Text} (hu : NoDigits u) (hD : Digits D) :
    letters (u ++ D) = u ∧ letters (D ++ u) = u ∧ digits (u ++ D) = D ∧ digits (D ++ u) = D := by
  have a1 : u.filter (fun c => !isDigit c) = u := List.filter_eq_self.mpr fun c hc => by simp [hu c hc]
  have a2 : D.filter (fun c => !isDigit c) = [] := List.filter_eq_nil_iff.mpr fun c hc => by simp [hD c hc]
  have a3 : u.filter isDigit = [] := List.filter_eq_nil_iff.mpr fun c hc => by simp [hu c hc]
  have a4 : D.filter isDigit = D := List.filter_eq_self.mpr fun c hc => by simp [hD c hc]
  unfold letters digits
  refine ⟨?_, ?_, ?_, ?_⟩ <;> simp only [List.filter_append, a1, a2, a3, a4, List.append_nil, List.nil_append]

theorem lookup_some {n : Text} {i : ℤ} (h : lookup n = some i) : ∃ e ∈ table, ∃ nm ∈ e.names, plain nm = n ∧ e.id = i := by
  unfold lookup at h
  obtain ⟨e, he, rfl⟩ := Option.map_eq_some_iff.mp h
  have h1 := List.find?_some he
  have h2 := List.mem_of_find?_eq_some he
  rw [List.any_eq_true] at h1
  obtain ⟨nm, hm, hb⟩ := h1
  exact ⟨e, h2, nm, hm, by simpa using hb, rfl⟩

/-- Separators which are removed. -/
abbrev seps : List Text := [[], ['-'], ['_'], [' '], ['.']]

def clean (t : Text) : Text := t.filter fun c => !(c == '_' || c == '-' || c == ' ' || c == '.')

/-- The names in the table with digits other than a zero are those of the two ions. -/
theorem table_digits : ∀ e ∈ table, ∀ nm ∈ e.names, digits (plain nm) = [] ∨ digits (plain nm) = ['0']
    ∨ ((letters (plain nm) = ['h'] ∨ letters (plain nm) = "hydrogen-".toList)
      ∧ ((e.id = 1000010020 ∧ digits (plain nm) = ['2']) ∨ (e.id = 1000010030 ∧ digits (plain nm) = ['3']))) := by decide +kernel

theorem hydrogen : ∀ x ∈ elements ++ elementsLong, ∀ s ∈ seps,
    (plain x.2 ++ s = ['h'] ∨ plain x.2 ++ s = "hydrogen-".toList ∨ s ++ plain x.2 = ['h'] ∨ s ++ plain x.2 = "hydrogen-".toList) → x.1 = 1 := by
  decide +kernel

theorem antimony : ∀ x ∈ elements ++ elementsLong, ∀ s ∈ seps, isPre ['a', 'n', 't', 'i', '-'] (plain x.2 ++ s) = false
    ∧ isPre ['a', 'n', 't', 'i', ' '] (plain x.2 ++ s) = false
    ∧ (isPre ['a', 'n', 't', 'i'] (plain x.2 ++ s) = true → plain x.2 = "antimony".toList) := by decide +kernel

theorem mony : ∀ e ∈ table, ∀ nm ∈ e.names, ∀ s ∈ seps, letters (plain nm) ≠ "mony".toList ++ s := by decide +kernel

/-- A search which looks only at the beginning. -/
def searchFast (w : Text) : List (ℕ × Text) → Option ℕ
  | [] => none
  | (Z, e) :: rest => if isPre (plain e) w && (remove (plain e) w).isEmpty then some Z else searchFast w rest

theorem search_fast {w : Text} (hw : w ≠ []) (l : List (ℕ × Text)) : searchLetters w l = searchFast w l := by
  induction l with
  | nil => rfl
  | cons x rest ih =>
    obtain ⟨Z, e⟩ := x
    rw [searchLetters, searchFast, ih]
    obtain ⟨c, t, rfl⟩ := List.exists_cons_of_ne_nil hw
    by_cases hp : isPre (plain e) (c :: t) = true
    · have : contains (plain e) (c :: t) = true := by simp [contains, hp]
      rw [hp, this]
    · have : (remove (plain e) (c :: t)).isEmpty = false := by
        show (removeN (plain e) (t.length + 1) (c :: t)).isEmpty = false
        rw [removeN, if_neg hp]
        rfl
      rw [this]
      simp

theorem search_long : ∀ x ∈ elementsLong, searchFast (plain x.2) elementsLong = some x.1 := by decide +kernel
theorem search_short : ∀ x ∈ elements, searchFast (plain x.2) elementsLong = none ∧ searchFast (plain x.2) elements = some x.1 := by decide +kernel
theorem clean_ok : ∀ x ∈ elements ++ elementsLong, clean (plain x.2) = plain x.2 := by decide +kernel
theorem clean_seps : ∀ s ∈ seps, clean s = [] ∧ NoDigits s := by unfold NoDigits; decide
theorem plain_seps : ∀ s ∈ seps, plain s = s := by decide

theorem flipRev_digit {c : Char} (hc : isDigit c = true) (t : Text) : flipRev (c :: t) = c :: t := by
  unfold flipRev
  split <;> simp_all [isDigit]

theorem flipEnd_digits (u : Text) {D : Text} (hD : Digits D) (hne : D ≠ []) : flipEnd (u ++ D) = u ++ D := by
  unfold flipEnd
  rw [List.reverse_append]
  obtain ⟨d, D', h⟩ := List.exists_cons_of_ne_nil (l := D.reverse) (by simpa using hne)
  rw [h, List.cons_append, flipRev_digit (hD d (by rw [← List.mem_reverse, h]; simp)), ← List.cons_append, ← h, ← List.reverse_append, List.reverse_reverse]

theorem lookup_nil : lookup [] = none := by decide +kernel

theorem clean_digits {D : Text} (hD : Digits D) : clean D = D := by
  apply List.filter_eq_self.mpr
  intro c hc
  have h := hD c hc
  by_contra hcon
  simp only [Bool.not_eq_true, Bool.not_eq_false', Bool.or_eq_true, beq_iff_eq] at hcon
  rcases hcon with ((rfl | rfl) | rfl) | rfl <;> revert h <;> decide

/-- The name of an ion in the form in which it is looked for. -/
theorem ion_name {x : ℕ × Text} (hx : x ∈ elements ++ elementsLong) {s : Text} (hs : s ∈ seps) {D : Text} (hD : Digits D) (hne : D ≠ [])
    (h2 : 2 ≤ readNat D) (name : Text) (hn : plain name = plain x.2 ++ s ++ D ∨ plain name = D ++ (s ++ plain x.2)) :
    idOfName name = ionId (readNat D) x.1 := by
  obtain ⟨e1, e2⟩ := elements_ok x hx
  obtain ⟨c1, c2⟩ := clean_seps s hs
  have u1 : NoDigits (plain x.2 ++ s) := by
    intro c hc; rcases List.mem_append.mp hc with h | h
    · exact e1 c h
    · exact c2 c h
  have u2 : NoDigits (s ++ plain x.2) := by
    intro c hc; rcases List.mem_append.mp hc with h | h
    · exact c2 c h
    · exact e1 c h
  obtain ⟨l1, -, l3, -⟩ := letters_eq u1 hD
  obtain ⟨-, l2, -, l4⟩ := letters_eq u2 hD
  have hl : digits (plain name) = D ∧ (letters (plain name) = plain x.2 ++ s ∨ letters (plain name) = s ++ plain x.2) := by
    rcases hn with h | h <;> rw [h]
    · exact ⟨l3, Or.inl l1⟩
    · exact ⟨l4, Or.inr l2⟩
  have hD0 : D ≠ ['0'] := by rintro rfl; revert h2; decide
  unfold idOfName
  simp only
  cases hlk : lookup (plain name) with
  | some i =>
    simp only
    obtain ⟨e, he, nm, hm, hp, rfl⟩ := lookup_some hlk
    rcases table_digits e he nm hm with h | h | ⟨hlet, h⟩
    · rw [hp, hl.1] at h; exact absurd h hne
    · rw [hp, hl.1] at h; exact absurd h hD0
    · rw [hp] at hlet
      have hz : x.1 = 1 := by
        apply hydrogen x hx s hs
        rcases hl.2 with k | k <;> rw [k] at hlet <;> tauto
      rw [hz]
      rw [hp, hl.1] at h
      rcases h with ⟨h, rfl⟩ | ⟨h, rfl⟩ <;> rw [h] <;> rfl
  | none =>
    simp only
    have hanti : lookup (antiName (plain name)) = none := by
      rcases hn with h | h
      · rw [h]
        obtain ⟨a1, a2, a3⟩ := antimony x hx s hs
        unfold antiName
        rw [isPre_digits (by unfold NoDigits; decide) (by simp) hD, isPre_digits (by unfold NoDigits; decide) (by simp) hD,
          isPre_digits (by unfold NoDigits; decide) (by simp) hD, a1, a2]
        simp only [Bool.false_eq_true, if_false]
        split_ifs with h3
        · rw [a3 h3]
          have : ("antimony".toList ++ s ++ D).drop 4 = ("mony".toList ++ s) ++ D := by simp
          rw [this, flipEnd_digits _ hD hne]
          cases hk : lookup ("mony".toList ++ s ++ D) with
          | none => rfl
          | some i =>
            obtain ⟨e, he, nm, hm, hp, -⟩ := lookup_some hk
            have um : NoDigits ("mony".toList ++ s) := by
              intro c hc; rcases List.mem_append.mp hc with h | h
              · exact (show NoDigits "mony".toList by unfold NoDigits; decide) c h
              · exact c2 c h
            have := (letters_eq um hD).1
            rw [← hp] at this
            exact absurd this (mony e he nm hm s hs)
        · exact lookup_nil
      · rw [h]
        obtain ⟨d, D', rfl⟩ := List.exists_cons_of_ne_nil hne
        have hd := hD d (by simp)
        unfold antiName
        rw [List.cons_append, isPre_digit (by unfold NoDigits; decide) (by simp) hd, isPre_digit (by unfold NoDigits; decide) (by simp) hd,
          isPre_digit (by unfold NoDigits; decide) (by simp) hd]
        exact lookup_nil
    rw [hanti]
    simp only
    have hcl : clean (plain name) = plain x.2 ++ D ∨ clean (plain name) = D ++ plain x.2 := by
      rcases hn with h | h
      · left
        rw [h]
        unfold clean
        rw [List.filter_append, List.filter_append]
        have := clean_ok x hx
        have k2 := clean_digits hD
        unfold clean at this c1 k2
        rw [this, c1, k2, List.append_nil]
      · right
        rw [h]
        unfold clean
        rw [List.filter_append, List.filter_append]
        have := clean_ok x hx
        have k2 := clean_digits hD
        unfold clean at this c1 k2
        rw [this, c1, k2, List.nil_append]
    have hpos : 0 < readNat D := by omega
    have sl := searchIon_eq e1 hD hne hpos elementsLong fun e he => elements_ok e (by simp only [List.mem_append]; exact Or.inr he)
    have ss := searchIon_eq e1 hD hne hpos elements fun e he => elements_ok e (by simp only [List.mem_append]; exact Or.inl he)
    rw [search_fast e2] at sl ss
    have fin : ∀ cn, (searchIon cn elementsLong = (searchFast (plain x.2) elementsLong).map (ionId (readNat D))) →
        (searchIon cn elements = (searchFast (plain x.2) elements).map (ionId (readNat D))) →
        (match searchIon cn elementsLong with
          | some r => r
          | none => (searchIon cn elements).join) = ionId (readNat D) x.1 := by
      intro cn q1 q2
      rcases List.mem_append.mp hx with h | h
      · obtain ⟨k1, k2⟩ := search_short x h
        rw [q1, k1, q2, k2]
        simp
      · rw [q1, search_long x h]
        simp
    have hcl' : (List.filter (fun c => !(c == '_' || c == '-' || c == ' ' || c == '.')) (plain name)) = clean (plain name) := rfl
    rw [hcl']
    rcases hcl with h | h <;> rw [h]
    · exact fin _ sl.1 ss.1
    · exact fin _ sl.2 ss.2

/-! ## Theorems -/

theorem dec_ok : ∀ n < 1000, plain (dec n) = dec n ∧ plain ((dec n).map superChar) = dec n ∧ dec n ≠ [] ∧ readNat (dec n) = n ∧ (∀ c ∈ dec n, isDigit c = true) := by
  decide +kernel

theorem plain_append (a b : Text) : plain (a ++ b) = plain a ++ plain b := List.map_append

/-- **C119, names of ions.**  The name of an element, long or short, in any case, with the number of nucleons behind or before it, with or without a
separator, in normal script or superscript, gives the number of the ion. -/
theorem C119_names {Z A : ℕ} {name : Text} (hx : (Z, name) ∈ elements ++ elementsLong) (hA : 2 ≤ A) (hZ : Z ≤ A) (hA' : A < 1000) (s : Text) (hs : s ∈ seps) :
    let i : ℤ := 1000000000 + Z * 10000 + A * 10
    idOfName (name ++ s ++ dec A) = some i ∧ idOfName (dec A ++ (s ++ name)) = some i ∧ idOfName ((dec A).map superChar ++ (s ++ name)) = some i
      ∧ idOfName (plain name ++ s ++ dec A) = some i := by
  intro i
  obtain ⟨d1, d2, d3, d4, d5⟩ := dec_ok A hA'
  have hz1 : ∀ x ∈ elements ++ elementsLong, 1 ≤ x.1 ∧ plain (plain x.2) = plain x.2 := by decide +kernel
  have hi : ionId (readNat (dec A)) Z = some i := by
    have := (hz1 _ hx).1
    simp only at this
    rw [d4, ionId, if_neg (by omega)]
  have hp := plain_seps s hs
  refine ⟨?_, ?_, ?_, ?_⟩ <;> rw [← hi]
  · exact ion_name hx hs d5 d3 (by omega) _ (Or.inl (by rw [plain_append, plain_append, d1, hp]))
  · exact ion_name hx hs d5 d3 (by omega) _ (Or.inr (by rw [plain_append, plain_append, d1, hp]))
  · exact ion_name hx hs d5 d3 (by omega) _ (Or.inr (by rw [plain_append, plain_append, d2, hp]))
  · exact ion_name hx hs d5 d3 (by omega) _ (Or.inl (by rw [plain_append, plain_append, d1, hp, (hz1 _ hx).2]))

theorem elementName_mem {l : List (ℕ × Text)} {Z : ℕ} {e : Text} (h : elementName l Z = some e) : (Z, e) ∈ l := by
  unfold elementName at h
  obtain ⟨x, hx, rfl⟩ := Option.map_eq_some_iff.mp h
  have h1 := List.find?_some hx
  have h2 := List.mem_of_find?_eq_some hx
  have : x.1 = Z := by simpa using h1
  rw [← this]
  exact h2

theorem known : ∀ Z < 119, 1 ≤ Z → (elementName elements Z).isSome = true ∧ (elementName elementsLong Z).isSome = true := by decide +kernel

theorem special : ∀ st ∈ [Style.long, .short, .ascii], ∀ A ∈ [2, 3], ∃ p, props (1000000000 + 1 * 10000 + A * 10) st = some p ∧ p.charge = 1 ∧ p.A = A
    ∧ p.Z = 1 ∧ idOfName p.name = some (1000000000 + 1 * 10000 + A * 10) := by
  have h : ∀ st ∈ [Style.long, .short, .ascii], ∀ A ∈ [(2 : ℤ), 3], (props (1000000000 + 1 * 10000 + A * 10) st).any (fun p => decide (p.charge = 1 ∧ p.A = A
    ∧ p.Z = 1 ∧ idOfName p.name = some (1000000000 + 1 * 10000 + A * 10))) = true := by decide +kernel
  intro st hst A hA
  have := h st hst A hA
  cases hp : props (1000000000 + 1 * 10000 + A * 10) st with
  | none => rw [hp] at this; simp at this
  | some p => rw [hp] at this; exact ⟨p, rfl, by simpa using this⟩

theorem not_in_table {i : ℤ} (h1 : 1000000000 < i) (h2 : i ≠ 1000010020) (h3 : i ≠ 1000010030) : table.find? (fun e => e.id == i) = none := by
  have h : ∀ e ∈ table, e.id ≤ 1000000000 ∨ e.id = 1000010020 ∨ e.id = 1000010030 := by decide +kernel
  rw [List.find?_eq_none]
  intro e he
  have := h e he
  simp only [beq_iff_eq]
  omega

/-- **C119, ions.**  Every ion has, in each of the three styles, a name which is read back as the ion; its charge and atomic number are the number of
protons, its mass number is the number of nucleons. -/
theorem C119_ions (Z A : ℕ) (hZ : 1 ≤ Z) (hZ' : Z ≤ 118) (hA : 2 ≤ A) (hZA : Z ≤ A) (hA' : A < 1000) (st : Style) :
    ∃ i p, ionId A Z = some i ∧ props i st = some p ∧ p.charge = Z ∧ p.A = A ∧ p.Z = Z ∧ idOfName p.name = some i := by
  refine ⟨(1000000000 + Z * 10000 + A * 10 : ℤ), ?_⟩
  have hid : ionId A Z = some (1000000000 + Z * 10000 + A * 10 : ℤ) := by rw [ionId, if_neg (by omega)]
  by_cases hsp : Z = 1 ∧ (A = 2 ∨ A = 3)
  · obtain ⟨rfl, h⟩ := hsp
    obtain ⟨p, h1, h2, h3, h4, h5⟩ := special st (by cases st <;> simp) A (by rcases h with rfl | rfl <;> simp)
    exact ⟨p, hid, h1, by simpa using h2, h3, by simpa using h4, h5⟩
  · have hnt : table.find? (fun e => e.id == (1000000000 + Z * 10000 + A * 10 : ℤ)) = none :=
      not_in_table (by omega) (by omega) (by omega)
    have hn : ((1000000000 + Z * 10000 + A * 10 : ℤ) - 1000000000).toNat = Z * 10000 + A * 10 := by omega
    have hm : (Z * 10000 + A * 10) % 10000000 = Z * 10000 + A * 10 := by omega
    have hz : (Z * 10000 + A * 10) / 10000 = Z := by omega
    have ha : (Z * 10000 + A * 10) % 10000 / 10 = A := by omega
    have hp : props (1000000000 + Z * 10000 + A * 10 : ℤ) st = ionProps (Z * 10000 + A * 10) st
        ∨ ionProps (Z * 10000 + A * 10) st = none := by
      unfold props posProps
      rw [hnt]
      simp only
      rw [if_pos (by omega), hn]
      cases ionProps (Z * 10000 + A * 10) st with
      | none => right; rfl
      | some p => left; rfl
    obtain ⟨k1, k2⟩ := known Z (by omega) hZ
    obtain ⟨e, he⟩ := Option.isSome_iff_exists.mp k1
    obtain ⟨e', he'⟩ := Option.isSome_iff_exists.mp k2
    have m1 : (Z, e) ∈ elements ++ elementsLong := List.mem_append.mpr (Or.inl (elementName_mem he))
    have m2 : (Z, e') ∈ elements ++ elementsLong := List.mem_append.mpr (Or.inr (elementName_mem he'))
    cases st with
    | long =>
      have hio : ionProps (Z * 10000 + A * 10) .long = some ⟨Z, A, Z, e' ++ '-' :: dec A⟩ := by
        unfold ionProps; simp only [hm, hz, ha, he', Option.map_some]
      rw [hio] at hp
      refine ⟨_, hid, by simpa using hp, rfl, rfl, rfl, ?_⟩
      have := (C119_names m2 hA hZA hA' ['-'] (by simp)).1
      simpa using this
    | short =>
      have hio : ionProps (Z * 10000 + A * 10) .short = some ⟨Z, A, Z, (dec A).map superChar ++ e⟩ := by
        unfold ionProps; simp only [hm, hz, ha, he, Option.map_some]
      rw [hio] at hp
      refine ⟨_, hid, by simpa using hp, rfl, rfl, rfl, ?_⟩
      have := (C119_names m1 hA hZA hA' [] (by simp)).2.2.1
      simpa using this
    | ascii =>
      have hio : ionProps (Z * 10000 + A * 10) .ascii = some ⟨Z, A, Z, e ++ dec A⟩ := by
        unfold ionProps; simp only [hm, hz, ha, he, Option.map_some]
      rw [hio] at hp
      refine ⟨_, hid, by simpa using hp, rfl, rfl, rfl, ?_⟩
      have := (C119_names m1 hA hZA hA' [] (by simp)).1
      simpa using this

/-- **C119, particles.**  Every particle in the table and its anti-particle have, in each style, a name which is read back as the particle; all names in the table,
and these in normal script and lower case, are names of the particle; the anti-particle has the opposite charge. -/
theorem C119_table : ∀ e ∈ table,
    (∀ nm ∈ e.names, idOfName nm = some e.id ∧ idOfName (plain nm) = some e.id)
    ∧ ∀ st ∈ [Style.long, .short, .ascii], (props e.id st).bind (fun p => idOfName p.name) = some e.id
      ∧ (props (-e.id) st).bind (fun p => idOfName p.name) = some (-e.id)
      ∧ (props e.id st).map (·.charge) = some e.charge ∧ (props (-e.id) st).map (·.charge) = some (-e.charge) := by decide +kernel

/-- **C119, violation.**  The name which is given for an anti-ion can not be read. -/
theorem C119_anti_ion_violated : ∀ st ∈ [Style.long, .short, .ascii], ∃ p, props (-1000822080) st = some p ∧ p.charge = -82 ∧ idOfName p.name = none := by
  have h : ∀ st ∈ [Style.long, .short, .ascii], (props (-1000822080) st).any (fun p => decide (p.charge = -82 ∧ idOfName p.name = none)) = true := by decide +kernel
  intro st hst
  have := h st hst
  cases hp : props (-1000822080) st with
  | none => rw [hp] at this; simp at this
  | some p => rw [hp] at this; exact ⟨p, rfl, by simpa using this⟩

/-- **C119, violation.**  Numbers of nucleons from `1000` run into the number of protons: `Pb2080` is read as polonium with 80 nucleons, which is not refused. -/
theorem C119_overflow_violated : (idOfName "Pb2080".toList).bind (fun i => props i .ascii) = some ⟨84, 80, 84, "Po80".toList⟩ := by decide +kernel

/-- **C119, violation.**  An ion without neutrons can be made, but `is_ion` denies that it is one. -/
theorem C119_is_ion_violated : ∃ i, ionId 2 2 = some i ∧ isIon i = false := ⟨1000020020, by decide, by decide⟩

/-- `is_ion` holds for all others. -/
theorem C119_is_ion_partial (Z A : ℕ) (hZ : 1 ≤ Z) (hZA : Z < A) (hA' : A < 1000) (hZ' : Z < 1000) : ∃ i, ionId A Z = some i ∧ isIon i = true := by
  refine ⟨1000000000 + Z * 10000 + A * 10, by rw [ionId, if_neg (by omega)], ?_⟩
  unfold isIon
  have hn : ((1000000000 + Z * 10000 + A * 10 : ℤ) - 1000000000).toNat = Z * 10000 + A * 10 := by omega
  rw [if_pos (by omega), hn]
  simp only [Bool.and_eq_true, decide_eq_true_eq]
  omega

end Verif.Pdg
