import Verif.RevElem.Model
import Mathlib.Tactic.Linarith
import Mathlib.Tactic.Ring
import Mathlib.Tactic.NormNum

/-!
# C196: a reversed line is the same machine seen by a particle which moves the other way
-/

namespace Verif.RevElem

open Complex

/-! ## Specification -/

/-- The integrated multipole of an order: normal and skew. -/
noncomputable def multipole (e : Elem) (n : ℕ) : ℂ :=
  ⟨e.k n * e.length + e.knl.getD n 0, e.kskew n * e.length + e.ksl.getD n 0⟩

/-- The integrated transverse field up to an order, at a point: vertical component as real part, horizontal one as imaginary part. -/
noncomputable def field (e : Elem) (N : ℕ) (x y : ℝ) : ℂ :=
  ∑ n ∈ Finset.range N, multipole e n * ((x : ℂ) + y * I) ^ n / (n.factorial : ℂ)

/-- There are attributes `k0` to `k3` only. -/
def Known (e : Elem) : Prop := ∀ n, 3 < n → e.k n = 0 ∧ e.kskew n = 0

/-- A point which is inside the aperture. -/
def inside (e : Elem) (x y : ℝ) : Prop := e.shape (x - e.shiftX) (y - e.shiftY)

/-! ## Lemmas -/

theorem flip_getD (p : ℕ) (l : List ℝ) (n : ℕ) : (flip p l).getD n 0 = if n % 2 = p then -(l.getD n 0) else l.getD n 0 := by
  unfold flip
  rw [List.getD_eq_getElem?_getD, List.getD_eq_getElem?_getD, List.getElem?_mapIdx]
  cases l[n]? with
  | none => simp
  | some v => simp

theorem flip_flip (p : ℕ) (l : List ℝ) : flip p (flip p l) = l := by
  unfold flip
  apply List.ext_getElem
  · simp
  · intro i h1 h2
    simp only [List.getElem_mapIdx]
    split <;> simp

theorem multipole_reverse (e : Elem) (hk : Known e) (n : ℕ) : multipole (reverse e) n = (-1) ^ n * (starRingEnd ℂ) (multipole e n) := by
  have hre : (if n = 1 ∨ n = 3 then -e.k n else e.k n) = if n % 2 = 1 then -e.k n else e.k n := by
    by_cases h3 : 3 < n
    · simp [(hk n h3).1]
    · have : n = 0 ∨ n = 1 ∨ n = 2 ∨ n = 3 := by omega
      rcases this with rfl | rfl | rfl | rfl <;> simp
  have him : (if n = 0 ∨ n = 2 then -e.kskew n else e.kskew n) = if n % 2 = 0 then -e.kskew n else e.kskew n := by
    by_cases h3 : 3 < n
    · simp [(hk n h3).2]
    · have : n = 0 ∨ n = 1 ∨ n = 2 ∨ n = 3 := by omega
      rcases this with rfl | rfl | rfl | rfl <;> simp
  rcases Nat.mod_two_eq_zero_or_one n with h | h
  · have hp : ((-1 : ℂ)) ^ n = 1 := Even.neg_one_pow (Nat.even_iff.2 h)
    rw [hp, one_mul]
    apply Complex.ext
    · simp only [multipole, reverse, hre, flip_getD, h, Complex.conj_re]
      norm_num
    · simp only [multipole, reverse, him, flip_getD, h, Complex.conj_im, if_true]
      ring
  · have hp : ((-1 : ℂ)) ^ n = -1 := Odd.neg_one_pow (Nat.odd_iff.2 h)
    rw [hp, neg_one_mul]
    apply Complex.ext
    · simp only [multipole, reverse, hre, flip_getD, h, Complex.neg_re, Complex.conj_re, if_true]
      ring
    · simp only [multipole, reverse, him, flip_getD, h, Complex.neg_im, Complex.conj_im, neg_neg]
      norm_num

theorem field_reverse (e : Elem) (hk : Known e) (N : ℕ) (x y : ℝ) : field (reverse e) N x y = (starRingEnd ℂ) (field e N (-x) y) := by
  unfold field
  rw [map_sum]
  apply Finset.sum_congr rfl
  intro n _
  rw [multipole_reverse e hk, map_div₀, map_mul, map_pow, map_natCast]
  have hz : (starRingEnd ℂ) (((-x : ℝ) : ℂ) + y * I) = -((x : ℂ) + y * I) := by
    simp only [map_add, map_mul, map_neg, Complex.conj_ofReal, Complex.conj_I, Complex.ofReal_neg]
    ring
  rw [hz, neg_pow ((x : ℂ) + y * I) n]
  ring

/-! ## C196 -/

/-- C196: the field of a reversed element, in the frame with the horizontal axis turned round, is the field of the element: the vertical component is
the same, the horizontal and longitudinal ones have the other sign; the edge met first is the one which was met last. -/
theorem C196_field (e : Elem) (hk : Known e) :
    (∀ N x y, (field (reverse e) N x y).re = (field e N (-x) y).re ∧ (field (reverse e) N x y).im = -(field e N (-x) y).im) ∧
      (reverse e).ks = -e.ks ∧ (reverse e).length = e.length ∧ (reverse e).entry = e.exit ∧ (reverse e).exit = e.entry := by
  refine ⟨?_, rfl, rfl, rfl, rfl⟩
  intro N x y
  rw [field_reverse e hk]
  exact ⟨Complex.conj_re _, Complex.conj_im _⟩

/-- C196: an element reversed twice is the element. -/
theorem C196_twice (e : Elem) : reverse (reverse e) = e := by
  have h1 : (fun n => if n = 1 ∨ n = 3 then -(if n = 1 ∨ n = 3 then -e.k n else e.k n) else if n = 1 ∨ n = 3 then -e.k n else e.k n) = e.k := by
    funext n; split <;> simp
  have h2 : (fun n => if n = 0 ∨ n = 2 then -(if n = 0 ∨ n = 2 then -e.kskew n else e.kskew n) else if n = 0 ∨ n = 2 then -e.kskew n
      else e.kskew n) = e.kskew := by
    funext n; split <;> simp
  unfold reverse
  simp only [h1, h2, neg_neg, flip_flip]

theorem foldl_count (n : String) : ∀ (names : List String) (els : String → Elem),
    (names.foldl (fun els n => fun m => if m = n then reverse (els n) else els m) els) n =
      if names.count n % 2 = 1 then reverse (els n) else els n := by
  intro names
  induction names with
  | nil => intro els; simp
  | cons a names ih =>
    intro els
    rw [List.foldl_cons, ih]
    by_cases h : n = a
    · subst h
      simp only [if_true, List.count_cons_self]
      rcases Nat.mod_two_eq_zero_or_one (names.count n) with hc | hc
      · rw [if_neg (by omega), if_pos (by omega)]
      · rw [if_pos hc, if_neg (by omega), C196_twice]
    · rw [List.count_cons_of_ne (fun hh => h hh.symm)]
      simp only [if_neg h]

/-- C196: a line in which no element occurs twice: the order is reversed and each element. -/
theorem C196_line_partial (l : Line) (hn : l.names.Nodup) :
    (reverseLine l).names = l.names.reverse ∧ ∀ n ∈ l.names, (reverseLine l).elems n = reverse (l.elems n) := by
  refine ⟨rfl, ?_⟩
  intro n h
  show (l.names.foldl _ l.elems) n = _
  rw [foldl_count, List.count_eq_one_of_mem hn h]
  rfl

/-- C196: elements which are not in the line are not touched. -/
theorem C196_others (l : Line) (n : String) (h : n ∉ l.names) : (reverseLine l).elems n = l.elems n := by
  show (l.names.foldl _ l.elems) n = _
  rw [foldl_count, List.count_eq_zero_of_not_mem h]
  rfl

/-- C196, violated: in every line each element which occurs an even number of times is not reversed. -/
theorem C196_repeated_violated (l : Line) (n : String) (h : l.names.count n % 2 = 0) : (reverseLine l).elems n = l.elems n := by
  show (l.names.foldl _ l.elems) n = _
  rw [foldl_count, if_neg (by omega)]

/-- C196: an aperture without horizontal shift and symmetric about the vertical axis lets through what it should. -/
theorem C196_aperture_partial (e : Elem) (hs : e.shiftX = 0) (hsym : ∀ x y, e.shape (-x) y ↔ e.shape x y) (x y : ℝ) :
    inside (reverse e) x y ↔ inside e (-x) y := by
  show e.shape (x - e.shiftX) (y - e.shiftY) ↔ e.shape (-x - e.shiftX) (y - e.shiftY)
  rw [hs, sub_zero, sub_zero, hsym]

/-- A marker with an aperture, a rectangle of half sizes one. -/
noncomputable def limit (dx : ℝ) : Elem :=
  ⟨0, fun _ => 0, fun _ => 0, [], [], 0, ⟨0, 0, 0, 0, 0⟩, ⟨0, 0, 0, 0, 0⟩, dx, 0, fun x y => -1 ≤ x ∧ x ≤ 1 ∧ -1 ≤ y ∧ y ≤ 1⟩

/-- C196, violated: the horizontal offset of an aperture is not reversed: for every offset there is a point on the axis which is inside on one side only, and
the reversed aperture has it on the wrong side. -/
theorem C196_offset_violated (dx : ℝ) (h : 0 < dx) : inside (limit dx) (1 + dx) 0 ∧ ¬ inside (reverse (limit dx)) (-(1 + dx)) 0 := by
  constructor
  · refine ⟨?_, ?_, ?_, ?_⟩ <;> simp only [limit] <;> linarith
  · intro hh
    have h1 : -1 ≤ -(1 + dx) - dx := hh.1
    linarith

/-- A quadrupole with errors. -/
example : Known ⟨1, fun n => if n = 1 then 2 else 0, fun _ => 0, [1, 2, 3], [4], 0, ⟨0, 0, 0, 0, 0⟩, ⟨0, 1, 0, 0, 0⟩, 0, 0, fun _ _ => True⟩ := by
  intro n hn
  exact ⟨if_neg (by omega), rfl⟩

/-- A line with an element twice, and one without. -/
example : ["a", "b", "a"].count "a" % 2 = 0 ∧ ["a", "b", "c"].Nodup := by decide

/-- An aperture which is symmetric. -/
example : (limit 0).shiftX = 0 ∧ ∀ x y, (limit 0).shape (-x) y ↔ (limit 0).shape x y := by
  refine ⟨rfl, ?_⟩
  intro x y
  simp only [limit]
  constructor <;> rintro ⟨h1, h2, h3, h4⟩ <;> exact ⟨by linarith, by linarith, h3, h4⟩

end Verif.RevElem
