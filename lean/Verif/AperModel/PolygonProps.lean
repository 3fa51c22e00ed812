import Verif.AperModel.Polygon

/-!
C154: a point is reported to be inside the cross-section of an aperture exactly when it is.
-/
namespace Verif.AperModel.Polygon

/-- Twice the signed area of the triangle: positive if `c` lies strictly to the left of the line from `a` to `b`. -/
def turn (a b c : P) : Rat := (b.x - a.x) * (c.y - a.y) - (c.x - a.x) * (b.y - a.y)

/-- The `n` vertices are the corners of a convex polygon, counterclockwise: any three of them, taken in order, turn to the left. -/
def Convex (v : Nat → P) (n : Nat) : Prop := 3 ≤ n ∧ ∀ i j k, i < j → j < k → k < n → 0 < turn (v i) (v j) (v k)

/-- The index of the next vertex. -/
def nx (n i : Nat) : Nat := if i + 1 < n then i + 1 else 0

/-- The closed polygon: the first point is repeated at the end. -/
def closed (v : Nat → P) (n : Nat) : List P := (List.range (n + 1)).map fun i => v (if i < n then i else 0)

/-- `q` is in the interior: strictly to the left of all the sides. -/
def Interior (v : Nat → P) (n : Nat) (q : P) : Prop := ∀ i, i < n → 0 < turn (v i) (v (nx n i)) q

/-- `q` is in the exterior: strictly to the right of some side. -/
def Exterior (v : Nat → P) (n : Nat) (q : P) : Prop := ∃ i, i < n ∧ turn (v i) (v (nx n i)) q < 0

/-! ### Single sides -/

theorem ray_up {q a b : P} (ha : a.y ≤ q.y) (hb : q.y < b.y) : ray q a b = decide (0 < turn a b q) := by
  unfold ray turn
  rw [if_neg (by simp [not_lt.mpr ha, hb]), if_pos (by linarith)]
  congr 1
  exact propext ⟨fun h => by linarith, fun h => by linarith⟩

theorem ray_down {q a b : P} (ha : q.y < a.y) (hb : b.y ≤ q.y) : ray q a b = decide (turn a b q < 0) := by
  unfold ray turn
  rw [if_neg (by simp [not_lt.mpr hb, ha]), if_neg (by linarith)]
  congr 1
  exact propext ⟨fun h => by linarith, fun h => by linarith⟩

theorem ray_none {q a b : P} (h : decide (a.y > q.y) = decide (b.y > q.y)) : ray q a b = false := by
  unfold ray; rw [if_pos h]

theorem turn_swap (a b q : P) : turn b a q = - turn a b q := by unfold turn; ring
theorem turn_rot (a b c : P) : turn b c a = turn a b c := by unfold turn; ring

theorem ray_symm (q a b : P) : ray q a b = ray q b a := by
  by_cases ha : q.y < a.y
  · by_cases hb : q.y < b.y
    · rw [ray_none (by simp [ha, hb]), ray_none (by simp [ha, hb])]
    · rw [ray_down ha (not_lt.mp hb), ray_up (not_lt.mp hb) ha, turn_swap]
      congr 1; exact propext ⟨fun h => by linarith, fun h => by linarith⟩
  · by_cases hb : q.y < b.y
    · rw [ray_down hb (not_lt.mp ha), ray_up (not_lt.mp ha) hb, turn_swap]
      congr 1; exact propext ⟨fun h => by linarith, fun h => by linarith⟩
    · rw [ray_none (by simp [ha, hb]), ray_none (by simp [ha, hb])]

/-! ### Parities -/

theorem parity_congr {r r' : Nat → Bool} {n : Nat} (h : ∀ i, i < n → r i = r' i) : parity r n = parity r' n := by
  induction n with
  | zero => rfl
  | succ n ih =>
    simp only [parity]
    rw [ih fun i hi => h i (by omega), h n (by omega)]

theorem parity_xor (r r' : Nat → Bool) (n : Nat) : parity (fun i => xor (r i) (r' i)) n = xor (parity r n) (parity r' n) := by
  induction n with
  | zero => rfl
  | succ n ih =>
    simp only [parity]
    rw [ih]
    cases parity r n <;> cases parity r' n <;> cases r n <;> cases r' n <;> rfl

theorem parity_none {r : Nat → Bool} {n : Nat} (h : ∀ i, i < n → r i = false) : parity r n = false := by
  induction n with
  | zero => rfl
  | succ n ih =>
    simp only [parity]
    rw [ih fun i hi => h i (by omega), h n (by omega)]; rfl

theorem parity_one {r : Nat → Bool} {n u : Nat} (hu : u < n) (h : ∀ i, i < n → i ≠ u → r i = false) : parity r n = r u := by
  induction n with
  | zero => omega
  | succ n ih =>
    simp only [parity]
    by_cases hc : u = n
    · rw [parity_none fun i hi => h i (by omega) (by omega), hc]; simp
    · rw [ih (by omega) fun i hi hne => h i (by omega) hne, h n (by omega) (by omega)]; simp

/-- Over a closed polygon a property of vertices changes an even number of times. -/
theorem parity_changes (f : Nat → Bool) (n : Nat) : parity (fun i => xor (f i) (f (i + 1))) n = xor (f 0) (f n) := by
  induction n with
  | zero => simp [parity]
  | succ n ih =>
    simp only [parity]
    rw [ih]
    cases f 0 <;> cases f n <;> cases f (n + 1) <;> rfl

/-! ### Any polygon -/

/-- **C154 (boxes).** Outside the smallest upright rectangle around it, every polygon, convex or not, reports a point as outside. -/
theorem C154_box (q : P) (pts : List P) (hclosed : pts.getD 0 default = pts.getD (pts.length - 1) default)
    (h : (∀ p ∈ pts, p.y ≤ q.y) ∨ (∀ p ∈ pts, q.y < p.y) ∨ (∀ p ∈ pts, p.x ≤ q.x) ∨ (∀ p ∈ pts, q.x < p.x)) :
    inside q pts = false := by
  have mem : ∀ i, i < pts.length → pts.getD i default ∈ pts := by
    intro i hi
    rw [List.getD_eq_getElem?_getD, List.getElem?_eq_getElem hi]
    exact List.getElem_mem hi
  unfold inside
  rcases h with h | h | h | h
  · refine parity_none fun i hi => ray_none ?_
    rw [decide_eq_false (not_lt.mpr (h _ (mem i (by omega)))), decide_eq_false (not_lt.mpr (h _ (mem (i + 1) (by omega))))]
  · refine parity_none fun i hi => ray_none ?_
    rw [decide_eq_true (h _ (mem i (by omega))), decide_eq_true (h _ (mem (i + 1) (by omega)))]
  · refine parity_none fun i hi => ?_
    have h1 := h _ (mem i (by omega))
    have h2 := h _ (mem (i + 1) (by omega))
    generalize pts.getD i default = a at *
    generalize pts.getD (i + 1) default = b at *
    by_cases ha : q.y < a.y
    · by_cases hb : q.y < b.y
      · exact ray_none (by simp [ha, hb])
      · rw [ray_down ha (not_lt.mp hb)]
        rw [decide_eq_false_iff_not]
        unfold turn
        nlinarith [not_lt.mp hb]
    · by_cases hb : q.y < b.y
      · rw [ray_up (not_lt.mp ha) hb]
        rw [decide_eq_false_iff_not]
        unfold turn
        nlinarith [not_lt.mp ha]
      · exact ray_none (by simp [ha, hb])
  · rw [parity_congr (r' := fun i => xor (decide (q.y < (pts.getD i default).y)) (decide (q.y < (pts.getD (i + 1) default).y)))]
    · rw [parity_changes (fun i => decide (q.y < (pts.getD i default).y)), hclosed]; simp
    · intro i hi
      have h1 := h _ (mem i (by omega))
      have h2 := h _ (mem (i + 1) (by omega))
      generalize pts.getD i default = a at *
      generalize pts.getD (i + 1) default = b at *
      by_cases ha : q.y < a.y
      · by_cases hb : q.y < b.y
        · rw [ray_none (by simp [ha, hb])]; simp [ha, hb]
        · rw [ray_down ha (not_lt.mp hb)]
          have : turn a b q < 0 := by unfold turn; nlinarith [not_lt.mp hb]
          simp [ha, hb, this]
      · by_cases hb : q.y < b.y
        · rw [ray_up (not_lt.mp ha) hb]
          have : 0 < turn a b q := by unfold turn; nlinarith [not_lt.mp ha]
          simp [ha, hb, this]
        · rw [ray_none (by simp [ha, hb])]; simp [ha, hb]

example : inside ⟨5, 1⟩ [⟨0, 0⟩, ⟨4, 0⟩, ⟨1, 1⟩, ⟨0, 4⟩, ⟨0, 0⟩] = false ∧ inside ⟨1 / 2, 1⟩ [⟨0, 0⟩, ⟨4, 0⟩, ⟨1, 1⟩, ⟨0, 4⟩, ⟨0, 0⟩] = true := by
  decide +kernel

theorem ray_shift (q a b d : P) : ray ⟨q.x + d.x, q.y + d.y⟩ ⟨a.x + d.x, a.y + d.y⟩ ⟨b.x + d.x, b.y + d.y⟩ = ray q a b := by
  unfold ray
  simp only [add_sub_add_right_eq_sub, gt_iff_lt, add_lt_add_iff_right]

/-- **C154 (displacement).** A point displaced together with the polygon gets the same answer. -/
theorem C154_shift (q d : P) (pts : List P) :
    inside ⟨q.x + d.x, q.y + d.y⟩ (pts.map fun p => ⟨p.x + d.x, p.y + d.y⟩) = inside q pts := by
  unfold inside
  rw [List.length_map]
  refine parity_congr fun i hi => ?_
  have e : ∀ j, j < pts.length → (pts.map fun p : P => (⟨p.x + d.x, p.y + d.y⟩ : P)).getD j default =
      ⟨(pts.getD j default).x + d.x, (pts.getD j default).y + d.y⟩ := by
    intro j hj
    simp [List.getD_eq_getElem?_getD, List.getElem?_eq_getElem hj]
  rw [e i (by omega), e (i + 1) (by omega), ray_shift]

/-- The sum over the sides, as a recursion over the list. -/
def insideRec (q : P) : List P → Bool
  | a :: b :: rest => xor (ray q a b) (insideRec q (b :: rest))
  | _ => false

theorem parity_shift (r : Nat → Bool) (n : Nat) : parity r (n + 1) = xor (r 0) (parity (fun i => r (i + 1)) n) := by
  induction n with
  | zero => simp [parity]
  | succ n ih =>
    rw [parity, ih]
    simp only [parity]
    cases r 0 <;> cases parity (fun i => r (i + 1)) n <;> cases r (n + 1) <;> rfl

theorem inside_eq (q : P) : ∀ pts, inside q pts = insideRec q pts
  | [] => rfl
  | [_] => rfl
  | a :: b :: rest => by
    have ih := inside_eq q (b :: rest)
    unfold inside at ih ⊢
    simp only [List.length_cons, Nat.add_sub_cancel] at ih ⊢
    rw [parity_shift]
    simp only [insideRec]
    rw [← ih]
    rfl

/-- **C154 (more points).** A further point on a side changes nothing: polygons sampled with several points per side give the
answer of the polygon of the corners. -/
theorem C154_subdivide (q : P) (before after : List P) (a b : P) (t : Rat) (h0 : 0 ≤ t) (h1 : t ≤ 1) :
    inside q (before ++ a :: ⟨a.x + t * (b.x - a.x), a.y + t * (b.y - a.y)⟩ :: b :: after) = inside q (before ++ a :: b :: after) := by
  rw [inside_eq, inside_eq]
  have base : xor (ray q a ⟨a.x + t * (b.x - a.x), a.y + t * (b.y - a.y)⟩) (ray q ⟨a.x + t * (b.x - a.x), a.y + t * (b.y - a.y)⟩ b) = ray q a b := by
    generalize hc : (⟨a.x + t * (b.x - a.x), a.y + t * (b.y - a.y)⟩ : P) = c
    have hx : c.x = a.x + t * (b.x - a.x) := by rw [← hc]
    have hy : c.y = a.y + t * (b.y - a.y) := by rw [← hc]
    have e1 : turn a c q = t * turn a b q := by unfold turn; rw [hx, hy]; ring
    have e2 : turn c b q = (1 - t) * turn a b q := by unfold turn; rw [hx, hy]; ring
    by_cases ha : q.y < a.y
    · by_cases hb : q.y < b.y
      · have : q.y < c.y := by
          rw [hy]
          rcases le_total a.y b.y with hab | hab
          · have := mul_nonneg h0 (sub_nonneg.mpr hab); linarith
          · have := mul_nonneg (sub_nonneg.mpr h1) (sub_nonneg.mpr hab); linarith
        rw [ray_none (by simp [ha, this]), ray_none (by simp [hb, this]), ray_none (by simp [ha, hb])]; rfl
      · have hb' := not_lt.mp hb
        rw [ray_down ha hb']
        by_cases hcy : q.y < c.y
        · rw [ray_none (by simp [ha, hcy]), ray_down hcy hb', e2]
          have : 0 < 1 - t := by
            rcases lt_or_eq_of_le h1 with h | h
            · linarith
            · exfalso; rw [h] at hy; linarith
          simp [mul_neg_iff, this, not_lt.mpr this.le]
        · rw [ray_down ha (not_lt.mp hcy), ray_none (by simp [hb, hcy]), e1]
          have : 0 < t := by
            rcases lt_or_eq_of_le h0 with h | h
            · exact h
            · exfalso; rw [← h] at hy; exact hcy (by linarith)
          simp [mul_neg_iff, this, not_lt.mpr this.le]
    · have ha' := not_lt.mp ha
      by_cases hb : q.y < b.y
      · rw [ray_up ha' hb]
        by_cases hcy : q.y < c.y
        · rw [ray_up ha' hcy, ray_none (by simp [hb, hcy]), e1]
          have : 0 < t := by
            rcases lt_or_eq_of_le h0 with h | h
            · exact h
            · exfalso; rw [← h] at hy; linarith
          simp [mul_pos_iff, this, not_lt.mpr this.le]
        · rw [ray_none (by simp [ha, hcy]), ray_up (not_lt.mp hcy) hb, e2]
          have : 0 < 1 - t := by
            rcases lt_or_eq_of_le h1 with h | h
            · linarith
            · exfalso; rw [h] at hy; exact hcy (by linarith)
          simp [mul_pos_iff, this, not_lt.mpr this.le]
      · have : ¬ q.y < c.y := by rw [hy]; nlinarith [not_lt.mp hb]
        rw [ray_none (by simp [ha, this]), ray_none (by simp [hb, this]), ray_none (by simp [ha, hb])]; rfl
  induction before with
  | nil =>
    simp only [List.nil_append, insideRec]
    rw [← base]
    cases ray q a ⟨a.x + t * (b.x - a.x), a.y + t * (b.y - a.y)⟩ <;> cases ray q ⟨a.x + t * (b.x - a.x), a.y + t * (b.y - a.y)⟩ b <;>
      cases insideRec q (b :: after) <;> rfl
  | cons p rest ih =>
    cases rest with
    | nil => simpa only [List.cons_append, List.nil_append, insideRec] using congrArg (xor (ray q p a)) ih
    | cons p' rest => simpa only [List.cons_append, List.nil_append, insideRec] using congrArg (xor (ray q p p')) ih

example : inside ⟨1, 1⟩ [⟨0, 0⟩, ⟨2, 0⟩, ⟨4, 0⟩, ⟨0, 4⟩, ⟨0, 0⟩] = true := by decide +kernel

/-! ### Convex polygons -/

/-- A side going down whose ends lie to the left of a side going up crosses every height to the left of it. -/
theorem crossed {a b d e q : P} (ha : a.y ≤ q.y) (hb : q.y < b.y) (hd : q.y < d.y) (he : e.y ≤ q.y) (c1 : turn a b q ≤ 0)
    (c2 : turn d e q < 0) (f1 : 0 ≤ turn a b d) (f2 : 0 ≤ turn a b e) : False := by
  have id : (d.y - e.y) * turn a b q = (q.y - e.y) * turn a b d + (d.y - q.y) * turn a b e + (- turn d e q) * (b.y - a.y) := by
    unfold turn; ring
  have g1 : 0 ≤ (q.y - e.y) * turn a b d := mul_nonneg (by linarith) f1
  have g2 : 0 ≤ (d.y - q.y) * turn a b e := mul_nonneg (by linarith) f2
  have g3 : 0 < (- turn d e q) * (b.y - a.y) := mul_pos (by linarith) (by linarith)
  have g4 : (d.y - e.y) * turn a b q ≤ 0 := mul_nonpos_of_nonneg_of_nonpos (by linarith) c1
  linarith

/-- A point between a side going down and a side going up lies to the left of every line which has the ends of both to its left. -/
theorem between {a b d e q k l : P} (ha : a.y ≤ q.y) (hb : q.y < b.y) (hd : q.y < d.y) (he : e.y ≤ q.y) (c1 : 0 < turn a b q)
    (c2 : 0 ≤ turn d e q) (f1 : 0 ≤ turn k l a) (f2 : 0 ≤ turn k l b) (f3 : 0 ≤ turn k l d) (f4 : 0 ≤ turn k l e) (hk : turn k l q < 0) : False := by
  have id1 : (b.y - a.y) * turn k l q = (b.y - q.y) * turn k l a + (q.y - a.y) * turn k l b + turn a b q * (l.y - k.y) := by
    unfold turn; ring
  have id2 : (d.y - e.y) * turn k l q = (q.y - e.y) * turn k l d + (d.y - q.y) * turn k l e - turn d e q * (l.y - k.y) := by
    unfold turn; ring
  have g1 : 0 ≤ (b.y - q.y) * turn k l a := mul_nonneg (by linarith) f1
  have g2 : 0 ≤ (q.y - a.y) * turn k l b := mul_nonneg (by linarith) f2
  have g3 : 0 ≤ (q.y - e.y) * turn k l d := mul_nonneg (by linarith) f3
  have g4 : 0 ≤ (d.y - q.y) * turn k l e := mul_nonneg (by linarith) f4
  have g5 : (b.y - a.y) * turn k l q < 0 := mul_neg_of_pos_of_neg (by linarith) hk
  have g6 : (d.y - e.y) * turn k l q < 0 := mul_neg_of_pos_of_neg (by linarith) hk
  rcases le_total 0 (l.y - k.y) with h | h
  · have := mul_nonneg c1.le h; linarith
  · have := mul_nonpos_of_nonneg_of_nonpos c2 h; linarith

section
variable {v : Nat → P} {n : Nat}

theorem nx_lt (hn : 3 ≤ n) (i : Nat) : nx n i < n := by unfold nx; split <;> omega

theorem left_of_side (h : Convex v n) {i j : Nat} (hi : i < n) (hj : j < n) : 0 ≤ turn (v i) (v (nx n i)) (v j) := by
  obtain ⟨hn, ht⟩ := h
  have z1 : ∀ a b : P, turn a b a = 0 := by intro a b; unfold turn; ring
  have z2 : ∀ a b : P, turn a b b = 0 := by intro a b; unfold turn; ring
  unfold nx
  by_cases hc : i + 1 < n
  · rw [if_pos hc]
    rcases Nat.lt_trichotomy j i with h1 | h1 | h1
    · have := ht j i (i + 1) h1 (by omega) hc
      rw [← turn_rot] at this; exact this.le
    · rw [h1, z1]
    · rcases Nat.lt_or_ge (i + 1) j with h2 | h2
      · exact (ht i (i + 1) j (by omega) h2 hj).le
      · rw [show j = i + 1 by omega, z2]
  · rw [if_neg hc]
    rcases Nat.eq_zero_or_pos j with h1 | h1
    · rw [h1, z2]
    · rcases Nat.lt_or_ge j i with h2 | h2
      · have := ht 0 j i h1 h2 hi
        rw [← turn_rot, ← turn_rot] at this; exact this.le
      · rw [show j = i by omega, z1]

/-- Four corners cannot be alternately at or below and above a height. -/
theorem no_low_high (h : Convex v n) {i j k l : Nat} (h1 : i < j) (h2 : j < k) (h3 : k < l) (h4 : l < n) (c : Rat) :
    ¬ ((v i).y ≤ c ∧ c < (v j).y ∧ (v k).y ≤ c ∧ c < (v l).y) ∧ ¬ (c < (v i).y ∧ (v j).y ≤ c ∧ c < (v k).y ∧ (v l).y ≤ c) := by
  have a1 := h.2 i j k h1 h2 (by omega)
  have a2 := h.2 i j l h1 (by omega) h4
  have a3 := h.2 i k l (by omega) h3 h4
  have a4 := h.2 j k l h2 h3 h4
  have id1 : turn (v j) (v k) (v l) * (v i).y + turn (v i) (v j) (v l) * (v k).y =
      turn (v i) (v k) (v l) * (v j).y + turn (v i) (v j) (v k) * (v l).y := by unfold turn; ring
  have id0 : turn (v j) (v k) (v l) + turn (v i) (v j) (v l) = turn (v i) (v k) (v l) + turn (v i) (v j) (v k) := by unfold turn; ring
  generalize turn (v j) (v k) (v l) = t1 at *
  generalize turn (v i) (v j) (v l) = t2 at *
  generalize turn (v i) (v k) (v l) = t3 at *
  generalize turn (v i) (v j) (v k) = t4 at *
  constructor
  · rintro ⟨b1, b2, b3, b4⟩
    have e1 : t1 * (v i).y ≤ t1 * c := mul_le_mul_of_nonneg_left b1 a4.le
    have e2 : t2 * (v k).y ≤ t2 * c := mul_le_mul_of_nonneg_left b3 a2.le
    have e3 : t3 * c < t3 * (v j).y := mul_lt_mul_of_pos_left b2 a3
    have e4 : t4 * c < t4 * (v l).y := mul_lt_mul_of_pos_left b4 a1
    have : (t1 + t2) * c = (t3 + t4) * c := by rw [id0]
    linarith
  · rintro ⟨b1, b2, b3, b4⟩
    have e1 : t1 * c < t1 * (v i).y := mul_lt_mul_of_pos_left b1 a4
    have e2 : t2 * c < t2 * (v k).y := mul_lt_mul_of_pos_left b3 a2
    have e3 : t3 * (v j).y ≤ t3 * c := mul_le_mul_of_nonneg_left b2 a3.le
    have e4 : t4 * (v l).y ≤ t4 * c := mul_le_mul_of_nonneg_left b4 a1.le
    have : (t1 + t2) * c = (t3 + t4) * c := by rw [id0]
    linarith

/-- The side `i` goes up through the height `c`. -/
def Up (v : Nat → P) (n : Nat) (c : Rat) (i : Nat) : Prop := (v i).y ≤ c ∧ c < (v (nx n i)).y
/-- The side `i` goes down through the height `c`. -/
def Down (v : Nat → P) (n : Nat) (c : Rat) (i : Nat) : Prop := c < (v i).y ∧ (v (nx n i)).y ≤ c

theorem up_unique (h : Convex v n) {c : Rat} {i j : Nat} (hi : i < n) (hj : j < n) (h1 : Up v n c i) (h2 : Up v n c j) : i = j := by
  have key : ∀ i j, i < n → j < n → Up v n c i → Up v n c j → ¬ i < j := by
    rintro i j hi hj ⟨a1, a2⟩ ⟨b1, b2⟩ hij
    have e : nx n i = i + 1 := by unfold nx; rw [if_pos (by omega)]
    rw [e] at a2
    have hne : i + 1 ≠ j := by rintro rfl; linarith
    by_cases hc : j + 1 < n
    · have e' : nx n j = j + 1 := by unfold nx; rw [if_pos hc]
      rw [e'] at b2
      exact (no_low_high h (i := i) (j := i + 1) (k := j) (l := j + 1) (by omega) (by omega) (by omega) hc c).1 ⟨a1, a2, b1, b2⟩
    · have e' : nx n j = 0 := by unfold nx; rw [if_neg hc]
      rw [e'] at b2
      have h0 : i ≠ 0 := by rintro rfl; linarith
      exact (no_low_high h (i := 0) (j := i) (k := i + 1) (l := j) (by omega) (by omega) (by omega) hj c).2 ⟨b2, a1, a2, b1⟩
  rcases Nat.lt_trichotomy i j with hlt | heq | hgt
  · exact absurd hlt (key i j hi hj h1 h2)
  · exact heq
  · exact absurd hgt (key j i hj hi h2 h1)

theorem down_unique (h : Convex v n) {c : Rat} {i j : Nat} (hi : i < n) (hj : j < n) (h1 : Down v n c i) (h2 : Down v n c j) : i = j := by
  have key : ∀ i j, i < n → j < n → Down v n c i → Down v n c j → ¬ i < j := by
    rintro i j hi hj ⟨a1, a2⟩ ⟨b1, b2⟩ hij
    have e : nx n i = i + 1 := by unfold nx; rw [if_pos (by omega)]
    rw [e] at a2
    have hne : i + 1 ≠ j := by rintro rfl; linarith
    by_cases hc : j + 1 < n
    · have e' : nx n j = j + 1 := by unfold nx; rw [if_pos hc]
      rw [e'] at b2
      exact (no_low_high h (i := i) (j := i + 1) (k := j) (l := j + 1) (by omega) (by omega) (by omega) hc c).2 ⟨a1, a2, b1, b2⟩
    · have e' : nx n j = 0 := by unfold nx; rw [if_neg hc]
      rw [e'] at b2
      have h0 : i ≠ 0 := by rintro rfl; linarith
      exact (no_low_high h (i := 0) (j := i) (k := i + 1) (l := j) (by omega) (by omega) (by omega) hj c).1 ⟨b2, a1, a2, b1⟩
  rcases Nat.lt_trichotomy i j with hlt | heq | hgt
  · exact absurd hlt (key i j hi hj h1 h2)
  · exact heq
  · exact absurd hgt (key j i hj hi h2 h1)

theorem inside_closed (q : P) (v : Nat → P) (n : Nat) : inside q (closed v n) = parity (fun i => ray q (v i) (v (nx n i))) n := by
  have e : ∀ j, j ≤ n → (closed v n).getD j default = v (if j < n then j else 0) := by
    intro j hj
    unfold closed
    simp [List.getD_eq_getElem?_getD, List.getElem?_map, List.getElem?_range (show j < n + 1 by omega)]
  have hl : (closed v n).length - 1 = n := by simp [closed]
  unfold inside
  rw [hl]
  refine parity_congr fun i hi => ?_
  rw [e i (by omega), e (i + 1) (by omega), if_pos hi]
  rfl

/-- Going around, what changes in one way changes in the other way too. -/
theorem exists_change (f : Nat → Prop) (hn : 0 < n) {a b : Nat} (ha : a < n) (hb : b < n) (h1 : f a) (h2 : ¬ f b) :
    ∃ i, i < n ∧ f i ∧ ¬ f (nx n i) := by
  by_contra hno
  have step : ∀ i, i < n → f i → f (nx n i) := fun i hi hf => by
    by_contra hc; exact hno ⟨i, hi, hf, hc⟩
  have up : ∀ k, a + k < n → f (a + k) := by
    intro k
    induction k with
    | zero => intro _; exact h1
    | succ k ih =>
      intro hk
      have := step (a + k) (by omega) (ih (by omega))
      unfold nx at this
      rwa [if_pos (by omega)] at this
  have last : f (n - 1) := by have := up (n - 1 - a) (by omega); rwa [show a + (n - 1 - a) = n - 1 by omega] at this
  have zero : f 0 := by
    have := step (n - 1) (by omega) last
    unfold nx at this
    rwa [if_neg (by omega)] at this
  have all : ∀ k, k < n → f k := by
    intro k
    induction k with
    | zero => intro _; exact zero
    | succ k ih =>
      intro hk
      have := step k (by omega) (ih (by omega))
      unfold nx at this
      rwa [if_pos (by omega)] at this
  exact h2 (all b hb)

/-- The answer for a convex polygon. -/
theorem inside_convex (h : Convex v n) (q : P) :
    ((∀ i, i < n → ray q (v i) (v (nx n i)) = false) ∧ ((∀ i, i < n → (v i).y ≤ q.y) ∨ (∀ i, i < n → q.y < (v i).y)) ∧ inside q (closed v n) = false) ∨
    ∃ i j, i < n ∧ j < n ∧ Up v n q.y i ∧ Down v n q.y j ∧
      inside q (closed v n) = xor (decide (0 < turn (v i) (v (nx n i)) q)) (decide (turn (v j) (v (nx n j)) q < 0)) := by
  have hn := h.1
  by_cases hc : (∃ a, a < n ∧ q.y < (v a).y) ∧ ∃ b, b < n ∧ (v b).y ≤ q.y
  · right
    obtain ⟨⟨a, ha, ha'⟩, b, hb, hb'⟩ := hc
    obtain ⟨j, hj, j1, j2⟩ := exists_change (fun i => q.y < (v i).y) (by omega) ha hb ha' (not_lt.mpr hb')
    obtain ⟨i, hi, i1, i2⟩ := exists_change (fun i => (v i).y ≤ q.y) (by omega) hb ha hb' (not_le.mpr ha')
    have hU : Up v n q.y i := ⟨i1, not_le.mp i2⟩
    have hD : Down v n q.y j := ⟨j1, not_lt.mp j2⟩
    refine ⟨i, j, hi, hj, hU, hD, ?_⟩
    rw [inside_closed]
    have hr : ∀ k, k < n → ray q (v k) (v (nx n k)) =
        xor (decide (k = i) && ray q (v k) (v (nx n k))) (decide (k = j) && ray q (v k) (v (nx n k))) := by
      intro k hk
      have hij : i ≠ j := by rintro rfl; have := hU.1; have := hD.1; linarith
      by_cases hki : k = i
      · simp [hki, hij]
      · by_cases hkj : k = j
        · simp [hkj, Ne.symm hij]
        · have : ray q (v k) (v (nx n k)) = false := by
            refine ray_none ?_
            by_cases h1 : q.y < (v k).y
            · have h2 : q.y < (v (nx n k)).y := by
                by_contra hh
                exact hkj (down_unique h hk hj ⟨h1, not_lt.mp hh⟩ hD)
              simp [h1, h2]
            · have h2 : ¬ q.y < (v (nx n k)).y := fun hh => hki (up_unique h hk hi ⟨not_lt.mp h1, hh⟩ hU)
              simp [h1, h2]
          simp [this]
    rw [parity_congr hr, parity_xor, parity_one hi (fun k _ hne => by simp [hne]), parity_one hj (fun k _ hne => by simp [hne])]
    simp only [decide_true, Bool.true_and]
    rw [ray_up hU.1 hU.2, ray_down hD.1 hD.2]
  · left
    have hside : (∀ i, i < n → (v i).y ≤ q.y) ∨ (∀ i, i < n → q.y < (v i).y) := by
      by_cases h1 : ∃ a, a < n ∧ q.y < (v a).y
      · right
        intro i hi
        by_contra hh
        exact hc ⟨h1, i, hi, not_lt.mp hh⟩
      · left
        intro i hi
        by_contra hh
        exact h1 ⟨i, hi, not_le.mp hh⟩
    have hr : ∀ i, i < n → ray q (v i) (v (nx n i)) = false := by
      intro i hi
      refine ray_none ?_
      rcases hside with hs | hs
      · simp [not_lt.mpr (hs i hi), not_lt.mpr (hs _ (nx_lt hn i))]
      · simp [hs i hi, hs _ (nx_lt hn i)]
    exact ⟨hr, hside, by rw [inside_closed]; exact parity_none hr⟩

/-- Some vertex is the highest. -/
theorem exists_extreme (f : Nat → Rat) (hn : 0 < n) : ∃ m, m < n ∧ ∀ i, i < n → f i ≤ f m := by
  induction n with
  | zero => omega
  | succ n ih =>
    rcases Nat.eq_zero_or_pos n with h0 | h0
    · exact ⟨0, by omega, fun i hi => by rw [show i = 0 by omega]⟩
    · obtain ⟨m, hm, hmax⟩ := ih h0
      by_cases hc : f m ≤ f n
      · refine ⟨n, by omega, fun i hi => ?_⟩
        rcases Nat.lt_or_ge i n with h | h
        · exact le_trans (hmax i h) hc
        · rw [show i = n by omega]
      · refine ⟨m, by omega, fun i hi => ?_⟩
        rcases Nat.lt_or_ge i n with h | h
        · exact hmax i h
        · rw [show i = n by omega]; exact (not_le.mp hc).le

/-- Every corner has a neighbour before it, and turns to the left. -/
theorem exists_prev (h : Convex v n) {m : Nat} (hm : m < n) : ∃ p, p < n ∧ nx n p = m ∧ 0 < turn (v p) (v m) (v (nx n m)) := by
  obtain ⟨hn, ht⟩ := h
  rcases Nat.eq_zero_or_pos m with h0 | h0
  · subst h0
    refine ⟨n - 1, by omega, by unfold nx; rw [if_neg (by omega)], ?_⟩
    have e : nx n 0 = 1 := by unfold nx; rw [if_pos (by omega)]
    rw [e, ← turn_rot]
    exact ht 0 1 (n - 1) (by omega) (by omega) (by omega)
  · refine ⟨m - 1, by omega, by unfold nx; rw [if_pos (by omega)]; omega, ?_⟩
    by_cases hc : m + 1 < n
    · have e : nx n m = m + 1 := by unfold nx; rw [if_pos hc]
      rw [e]
      exact ht (m - 1) m (m + 1) (by omega) (by omega) hc
    · have e : nx n m = 0 := by unfold nx; rw [if_neg hc]
      rw [e, turn_rot (v 0) (v (m - 1)) (v m)]
      exact ht 0 (m - 1) m (by omega) (by omega) hm

/-- **C154.** A point in the interior of a convex polygon is reported as inside. -/
theorem C154_interior (h : Convex v n) (q : P) (hq : Interior v n q) : inside q (closed v n) = true := by
  have hn := h.1
  rcases inside_convex h q with ⟨-, hs, -⟩ | ⟨i, j, hi, hj, -, -, he⟩
  · exfalso
    have corner : ∀ m, m < n → ∃ p s, p < n ∧ s < n ∧ 0 < turn (v p) (v m) (v s) ∧
        turn (v p) (v m) (v s) * (q.y - (v m).y) = turn (v m) (v s) q * ((v p).y - (v m).y) + turn (v p) (v m) q * ((v s).y - (v m).y) ∧
        0 < turn (v m) (v s) q ∧ 0 < turn (v p) (v m) q := by
      intro m hm
      obtain ⟨p, hp, e, ht⟩ := exists_prev h hm
      have q1 := hq m hm
      have q2 := hq p hp
      rw [e] at q2
      exact ⟨p, nx n m, hp, nx_lt hn m, ht, by unfold turn; ring, q1, q2⟩
    rcases hs with hs | hs
    · obtain ⟨m, hm, hmax⟩ := exists_extreme (fun i => (v i).y) (n := n) (by omega)
      obtain ⟨p, s, hp, hs', ht, hid, c1, c2⟩ := corner m hm
      have p1 := hmax p hp
      have p2 := hmax s hs'
      have q1 := hs m hm
      have hl : 0 ≤ turn (v p) (v m) (v s) * (q.y - (v m).y) := mul_nonneg ht.le (by linarith)
      have l1 : turn (v m) (v s) q * ((v p).y - (v m).y) ≤ 0 := mul_nonpos_of_nonneg_of_nonpos c1.le (by linarith)
      have l2 : turn (v p) (v m) q * ((v s).y - (v m).y) ≤ 0 := mul_nonpos_of_nonneg_of_nonpos c2.le (by linarith)
      have z1 : turn (v m) (v s) q * ((v p).y - (v m).y) = 0 := by linarith
      have z2 : turn (v p) (v m) q * ((v s).y - (v m).y) = 0 := by linarith
      have y1 : (v p).y = (v m).y := by
        rcases mul_eq_zero.mp z1 with h' | h'
        · linarith
        · linarith
      have y2 : (v s).y = (v m).y := by
        rcases mul_eq_zero.mp z2 with h' | h'
        · linarith
        · linarith
      have : turn (v p) (v m) (v s) = 0 := by unfold turn; rw [y1, y2]; ring
      linarith
    · obtain ⟨m, hm, hmax⟩ := exists_extreme (fun i => -(v i).y) (n := n) (by omega)
      obtain ⟨p, s, hp, hs', ht, hid, c1, c2⟩ := corner m hm
      have p1 := hmax p hp
      have p2 := hmax s hs'
      have q1 := hs m hm
      have hl : turn (v p) (v m) (v s) * (q.y - (v m).y) < 0 := mul_neg_of_pos_of_neg ht (by linarith)
      have l1 : 0 ≤ turn (v m) (v s) q * ((v p).y - (v m).y) := mul_nonneg c1.le (by linarith)
      have l2 : 0 ≤ turn (v p) (v m) q * ((v s).y - (v m).y) := mul_nonneg c2.le (by linarith)
      linarith
  · rw [he, decide_eq_true (hq i hi), decide_eq_false (not_lt.mpr (hq j hj).le)]; rfl

/-- **C154.** A point in the exterior of a convex polygon is reported as outside. -/
theorem C154_exterior (h : Convex v n) (q : P) (hq : Exterior v n q) : inside q (closed v n) = false := by
  have hn := h.1
  obtain ⟨k, hk, hkq⟩ := hq
  rcases inside_convex h q with ⟨-, -, he⟩ | ⟨i, j, hi, hj, hU, hD, he⟩
  · exact he
  · rw [he]
    by_cases c1 : 0 < turn (v i) (v (nx n i)) q
    · by_cases c2 : turn (v j) (v (nx n j)) q < 0
      · simp [c1, c2]
      · exfalso
        -- `q` lies between the two sides, hence to the left of the side `k`
        have f1 := left_of_side h hk hi
        have f2 := left_of_side h hk (nx_lt hn i)
        have f3 := left_of_side h hk hj
        have f4 := left_of_side h hk (nx_lt hn j)
        exact between hU.1 hU.2 hD.1 hD.2 c1 (not_lt.mp c2) f1 f2 f3 f4 hkq
    · by_cases c2 : turn (v j) (v (nx n j)) q < 0
      · exfalso
        -- the side going up would lie to the left of the one going down
        have f1 := left_of_side h hi hj
        have f2 := left_of_side h hi (nx_lt hn j)
        exact crossed hU.1 hU.2 hD.1 hD.2 (not_lt.mp c1) c2 f1 f2
      · simp [c1, c2]

/-- **C154 (beams).** If all the points of the beam lie in the interior of a convex aperture, the beam fits, and if one of them lies in the
exterior, it does not. -/
theorem C154_beam (h : Convex v n) (points : List P) :
    ((∀ q ∈ points, Interior v n q) → allInside points (closed v n) = true) ∧
    ((∃ q ∈ points, Exterior v n q) → allInside points (closed v n) = false) := by
  constructor
  · intro hq
    unfold allInside
    rw [List.all_eq_true]
    exact fun q hm => C154_interior h q (hq q hm)
  · rintro ⟨q, hm, hq⟩
    unfold allInside
    rw [List.all_eq_false]
    exact ⟨q, hm, by rw [C154_exterior h q hq]; simp⟩
end

/-- A square, and points inside and outside of it. -/
def square : Nat → P
  | 0 => ⟨0, 0⟩ | 1 => ⟨2, 0⟩ | 2 => ⟨2, 2⟩ | _ => ⟨0, 2⟩

theorem square_convex : Convex square 4 := by
  refine ⟨by decide, fun i j k h1 h2 h3 => ?_⟩
  have : (i = 0 ∧ j = 1 ∧ k = 2) ∨ (i = 0 ∧ j = 1 ∧ k = 3) ∨ (i = 0 ∧ j = 2 ∧ k = 3) ∨ (i = 1 ∧ j = 2 ∧ k = 3) := by omega
  rcases this with ⟨rfl, rfl, rfl⟩ | ⟨rfl, rfl, rfl⟩ | ⟨rfl, rfl, rfl⟩ | ⟨rfl, rfl, rfl⟩ <;> norm_num [turn, square]

example : Interior square 4 ⟨1, 1⟩ ∧ Exterior square 4 ⟨3, 1⟩ := by
  refine ⟨fun i hi => ?_, 1, by decide, by norm_num [turn, square, nx]⟩
  have : i = 0 ∨ i = 1 ∨ i = 2 ∨ i = 3 := by omega
  rcases this with rfl | rfl | rfl | rfl <;> norm_num [turn, square, nx]

/-- What the theorems leave open is the boundary, where the answer depends on the side: the left and the lower side count as inside, the right
and the upper one as outside. -/
theorem C154_boundary : inside ⟨0, 1⟩ (closed square 4) = true ∧ inside ⟨1, 0⟩ (closed square 4) = true ∧
    inside ⟨2, 1⟩ (closed square 4) = false ∧ inside ⟨1, 2⟩ (closed square 4) = false := by
  decide +kernel

end Verif.AperModel.Polygon
