import Verif.AperModel.Rays
import Verif.AperModel.PolygonProps
import Mathlib.Tactic.FieldSimp
import Mathlib.Tactic.LinearCombination

/-!
C158: distances to the aperture along rays. C159: the extents of the aperture on the axes.
-/
namespace Verif.AperModel.Rays
open Polygon

/-- The ray from `o` in the direction `d` meets the edge from `a` to `b` (prolonged by the fraction `eps` at both ends) at the distance `t`. -/
def Meets (eps : Rat) (o d a b : P) (t : Rat) : Prop :=
  0 ≤ t ∧ ∃ u, -eps ≤ u ∧ u ≤ 1 + eps ∧ o.x + t * d.x = a.x + u * (b.x - a.x) ∧ o.y + t * d.y = a.y + u * (b.y - a.y)

/-- The edge is not along the ray. -/
def Clear (eps : Rat) (o d a b : P) : Prop :=
  eps < |cross (sub b o) d - cross (sub a o) d| ∨ (cross (sub b o) d = cross (sub a o) d ∧ eps < |cross (sub a o) d|)

theorem look_spec {eps : Rat} (he : 0 ≤ eps) {o d a b : P} (hd : d.x ^ 2 + d.y ^ 2 = 1) (hc : Clear eps o d a b) :
    (∀ t, look eps o d a b = .at t ↔ Meets eps o d a b t) ∧ look eps o d a b ≠ .zero := by
  have hcr : ∀ {u t : Rat}, o.x + t * d.x = a.x + u * (b.x - a.x) → o.y + t * d.y = a.y + u * (b.y - a.y) →
      cross (sub a o) d + u * (cross (sub b o) d - cross (sub a o) d) = 0 := by
    intro u t h1 h2
    have e1 : a.x - o.x + u * (b.x - a.x) = t * d.x := by linarith
    have e2 : a.y - o.y + u * (b.y - a.y) = t * d.y := by linarith
    have : cross (sub a o) d + u * (cross (sub b o) d - cross (sub a o) d) =
        (a.x - o.x + u * (b.x - a.x)) * d.y - (a.y - o.y + u * (b.y - a.y)) * d.x := by unfold cross sub; ring
    rw [this, e1, e2]; ring
  rcases hc with hc | ⟨hc1, hc2⟩
  · have hne : cross (sub b o) d - cross (sub a o) d ≠ 0 := by
      intro h; rw [h] at hc; simp at hc; linarith
    have hne' : cross (sub a o) d - cross (sub b o) d ≠ 0 := by intro h; exact hne (by linarith)
    unfold look
    dsimp only
    rw [if_pos hc]
    generalize hu : cross (sub a o) d / (cross (sub a o) d - cross (sub b o) d) = u
    have hu0 : cross (sub a o) d + u * (cross (sub b o) d - cross (sub a o) d) = 0 := by
      rw [← hu]; field_simp; ring
    -- the point of the line through the edge is on the line of the ray
    have hx : (sub a o).x + u * ((sub b o).x - (sub a o).x) = dot ⟨(sub a o).x + u * ((sub b o).x - (sub a o).x), (sub a o).y + u * ((sub b o).y - (sub a o).y)⟩ d * d.x := by
      have hz : ((sub a o).x + u * ((sub b o).x - (sub a o).x)) * d.y - ((sub a o).y + u * ((sub b o).y - (sub a o).y)) * d.x = 0 := by
        rw [← hu0]; unfold cross; ring
      unfold dot
      dsimp only
      generalize (sub a o).x + u * ((sub b o).x - (sub a o).x) = X at *
      generalize (sub a o).y + u * ((sub b o).y - (sub a o).y) = Y at *
      have : X = X * (d.x ^ 2 + d.y ^ 2) := by rw [hd]; ring
      linear_combination this + d.y * hz
    have hy : (sub a o).y + u * ((sub b o).y - (sub a o).y) = dot ⟨(sub a o).x + u * ((sub b o).x - (sub a o).x), (sub a o).y + u * ((sub b o).y - (sub a o).y)⟩ d * d.y := by
      have hz : ((sub a o).x + u * ((sub b o).x - (sub a o).x)) * d.y - ((sub a o).y + u * ((sub b o).y - (sub a o).y)) * d.x = 0 := by
        rw [← hu0]; unfold cross; ring
      unfold dot
      dsimp only
      generalize (sub a o).x + u * ((sub b o).x - (sub a o).x) = X at *
      generalize (sub a o).y + u * ((sub b o).y - (sub a o).y) = Y at *
      have : Y = Y * (d.x ^ 2 + d.y ^ 2) := by rw [hd]; ring
      linear_combination this - d.x * hz
    generalize dot ⟨(sub a o).x + u * ((sub b o).x - (sub a o).x), (sub a o).y + u * ((sub b o).y - (sub a o).y)⟩ d = T at *
    -- uniqueness of the parameters
    have huniq : ∀ t, Meets eps o d a b t → t = T ∧ -eps ≤ u ∧ u ≤ 1 + eps := by
      rintro t ⟨-, u', h1, h2, h3, h4⟩
      have e := hcr h3 h4
      have huu : u' = u := by
        have : (u' - u) * (cross (sub b o) d - cross (sub a o) d) = 0 := by linarith
        rcases mul_eq_zero.mp this with h | h
        · linarith
        · exact absurd h hne
      rw [huu] at h1 h2 h3 h4
      refine ⟨?_, h1, h2⟩
      unfold sub at hx hy
      dsimp only at hx hy
      have e1 : (t - T) * d.x = 0 := by linarith
      have e2 : (t - T) * d.y = 0 := by linarith
      have : (t - T) * (d.x ^ 2 + d.y ^ 2) = 0 := by linear_combination d.x * e1 + d.y * e2
      rw [hd] at this
      linarith
    have hmeet : 0 ≤ T → -eps ≤ u → u ≤ 1 + eps → Meets eps o d a b T := by
      intro h0 h1 h2
      unfold sub at hx hy
      dsimp only at hx hy
      exact ⟨h0, u, h1, h2, by linarith, by linarith⟩
    by_cases k1 : u < -eps ∨ 1 + eps < u
    · rw [if_pos k1]
      refine ⟨fun t => ⟨fun h => (by cases h), fun h => ?_⟩, by simp⟩
      obtain ⟨-, h1, h2⟩ := huniq t h
      rcases k1 with h | h <;> linarith
    · rw [if_neg k1]
      rw [not_or, not_lt, not_lt] at k1
      by_cases k2 : T ≥ 0
      · rw [if_pos k2]
        refine ⟨fun t => ⟨fun h => ?_, fun h => ?_⟩, by simp⟩
        · cases h; exact hmeet k2 k1.1 k1.2
        · rw [(huniq t h).1]
      · rw [if_neg k2]
        refine ⟨fun t => ⟨fun h => (by cases h), fun h => ?_⟩, by simp⟩
        have := (huniq t h).1
        have h0 := h.1
        exact absurd (by linarith : T ≥ 0) k2
  · unfold look
    dsimp only
    rw [if_neg (by rw [hc1]; simp; exact he), if_pos (Or.inl hc2)]
    refine ⟨fun t => ⟨fun h => (by cases h), ?_⟩, by simp⟩
    rintro ⟨-, u, -, -, h3, h4⟩
    have := hcr h3 h4
    rw [hc1, sub_self, mul_zero, add_zero] at this
    rw [this] at hc2
    simp at hc2
    linarith

/-- What the loop keeps: the least of the distances found. -/
theorem scan_spec {eps : Rat} (he : 0 ≤ eps) {o d : P} (hd : d.x ^ 2 + d.y ^ 2 = 1) :
    ∀ (es : List (P × P)) (best : Option Rat), (∀ e ∈ es, Clear eps o d e.1 e.2) →
      (∀ t, scan eps o d false es best = some t → best = some t ∨ ∃ e ∈ es, Meets eps o d e.1 e.2 t) ∧
      (∀ b, best = some b → ∃ t, scan eps o d false es best = some t ∧ t ≤ b) ∧
      (∀ e ∈ es, ∀ t', Meets eps o d e.1 e.2 t' → ∃ t, scan eps o d false es best = some t ∧ t ≤ t')
  | [], best, _ => by
    refine ⟨fun t h => Or.inl h, fun b h => ⟨b, h, le_rfl⟩, fun e h => (by cases h)⟩
  | e :: rest, best, hc => by
    obtain ⟨l1, l2⟩ := look_spec he hd (hc e (by simp))
    have ih := fun b => scan_spec he hd rest b (fun e' h => hc e' (by simp [h]))
    cases hl : look eps o d e.1 e.2 with
    | zero => exact absurd hl l2
    | miss =>
      have hs : scan eps o d false (e :: rest) best = scan eps o d false rest best := by simp only [scan, hl]
      rw [hs]
      obtain ⟨i1, i2, i3⟩ := ih best
      refine ⟨fun t h => ?_, i2, fun e' he' t' ht' => ?_⟩
      · rcases i1 t h with h | ⟨e', h1, h2⟩
        · exact Or.inl h
        · exact Or.inr ⟨e', by simp [h1], h2⟩
      · rcases List.mem_cons.mp he' with rfl | hm
        · have := (l1 t').mpr ht'; rw [hl] at this; cases this
        · exact i3 e' hm t' ht'
    | «at» T =>
      have hT := (l1 T).mp hl
      have huniq : ∀ t', Meets eps o d e.1 e.2 t' → t' = T := by
        intro t' h
        have := (l1 t').mpr h
        rw [hl] at this
        cases this; rfl
      by_cases hb : better T best = true
      · have hs : scan eps o d false (e :: rest) best = scan eps o d false rest (some T) := by
          simp only [scan, hl]; rw [if_pos hb]; rfl
        rw [hs]
        obtain ⟨i1, i2, i3⟩ := ih (some T)
        refine ⟨fun t h => ?_, fun b hbb => ?_, fun e' he' t' ht' => ?_⟩
        · rcases i1 t h with h | ⟨e', h1, h2⟩
          · cases h; exact Or.inr ⟨e, by simp, hT⟩
          · exact Or.inr ⟨e', by simp [h1], h2⟩
        · obtain ⟨t, h1, h2⟩ := i2 T rfl
          rw [hbb] at hb
          simp only [better, decide_eq_true_eq] at hb
          exact ⟨t, h1, by linarith⟩
        · rcases List.mem_cons.mp he' with rfl | hm
          · rw [huniq t' ht']; exact i2 T rfl
          · exact i3 e' hm t' ht'
      · have hs : scan eps o d false (e :: rest) best = scan eps o d false rest best := by
          simp only [scan, hl]; rw [if_neg hb]
        rw [hs]
        obtain ⟨i1, i2, i3⟩ := ih best
        refine ⟨fun t h => ?_, i2, fun e' he' t' ht' => ?_⟩
        · rcases i1 t h with h | ⟨e', h1, h2⟩
          · exact Or.inl h
          · exact Or.inr ⟨e', by simp [h1], h2⟩
        · rcases List.mem_cons.mp he' with rfl | hm
          · rw [huniq t' ht']
            cases best with
            | none => exact absurd rfl hb
            | some b =>
              simp only [better, decide_eq_true_eq, not_lt] at hb
              obtain ⟨t, h1, h2⟩ := i2 b rfl
              exact ⟨t, h1, by linarith⟩
          · exact i3 e' hm t' ht'

theorem mem_rotate {α : Type} (l : List α) (n : Nat) (x : α) : x ∈ l.rotateLeft n ↔ x ∈ l := by
  unfold List.rotateLeft
  dsimp only
  split
  · rfl
  · rw [List.mem_append, or_comm, ← List.mem_append, List.take_append_drop]

/-- **C158 (partial).** If no edge lies along the ray, the distance returned is one at which the ray meets the polygon, no other is smaller, and
infinity is returned only if the ray meets no edge; wherever the search begins. What is missing are edges along the ray: see
`C158_behind_violated`. -/
theorem C158_distance_partial (eps : Rat) (he : 0 ≤ eps) (o d : P) (hd : d.x ^ 2 + d.y ^ 2 = 1) (pts : List P) (start : Nat)
    (hc : ∀ e ∈ edges pts, Clear eps o d e.1 e.2) :
    (∀ t, distance eps o d pts false start = some t → ∃ e ∈ edges pts, Meets eps o d e.1 e.2 t) ∧
    (∀ e ∈ edges pts, ∀ t', Meets eps o d e.1 e.2 t' → ∃ t, distance eps o d pts false start = some t ∧ t ≤ t') := by
  obtain ⟨h1, -, h3⟩ := scan_spec he hd ((edges pts).rotateLeft start) none (fun e h => hc e ((mem_rotate _ _ _).mp h))
  refine ⟨fun t ht => ?_, fun e hm t' ht' => h3 e ((mem_rotate _ _ _).mpr hm) t' ht'⟩
  rcases h1 t ht with h | ⟨e, hm, h⟩
  · cases h
  · exact ⟨e, (mem_rotate _ _ _).mp hm, h⟩

example : distance 0 ⟨1, 1⟩ ⟨3 / 5, 4 / 5⟩ (closed square 4) false 2 = some (5 / 4) := by decide +kernel

theorem edges_getElem : ∀ (pts : List P) (e : P × P), e ∈ edges pts ↔ ∃ i, ∃ h : i + 1 < pts.length, e = (pts[i], pts[i + 1])
  | [], e => by simp [edges]
  | [a], e => by simp [edges]
  | a :: b :: rest, e => by
    simp only [edges, List.mem_cons]
    rw [edges_getElem (b :: rest) e]
    constructor
    · rintro (rfl | ⟨i, h, rfl⟩)
      · exact ⟨0, by simp, rfl⟩
      · exact ⟨i + 1, by simpa using h, by simp⟩
    · rintro ⟨i, h, rfl⟩
      cases i with
      | zero => exact Or.inl rfl
      | succ i => exact Or.inr ⟨i, by simpa using h, by simp⟩

theorem edges_closed (v : Nat → P) (n : Nat) (e : P × P) : e ∈ edges (closed v n) ↔ ∃ i, i < n ∧ e = (v i, v (nx n i)) := by
  rw [edges_getElem]
  have hl : (closed v n).length = n + 1 := by simp [closed]
  constructor
  · rintro ⟨i, h, rfl⟩
    rw [hl] at h
    refine ⟨i, by omega, ?_⟩
    simp only [closed, List.getElem_map, List.getElem_range]
    rw [if_pos (by omega)]
    rfl
  · rintro ⟨i, h, rfl⟩
    refine ⟨i, by rw [hl]; omega, ?_⟩
    simp only [closed, List.getElem_map, List.getElem_range]
    rw [if_pos h]
    rfl

theorem turn_comb (a b p q : P) (u : Rat) :
    turn a b ⟨p.x + u * (q.x - p.x), p.y + u * (q.y - p.y)⟩ = (1 - u) * turn a b p + u * turn a b q := by unfold turn; ring

/-- From a point in the interior of a convex polygon the ray meets the boundary at one distance only. -/
theorem one_distance {v : Nat → P} {n : Nat} (h : Convex v n) {o d : P} (ho : Interior v n o) {i j : Nat} (hi : i < n) (hj : j < n) {t t' : Rat}
    (h1 : Meets 0 o d (v i) (v (nx n i)) t) (h2 : Meets 0 o d (v j) (v (nx n j)) t') : t = t' := by
  have key : ∀ {i j : Nat} (hi : i < n) (hj : j < n) {t t' : Rat}, Meets 0 o d (v i) (v (nx n i)) t → Meets 0 o d (v j) (v (nx n j)) t' → ¬ t < t' := by
    rintro i j hi hj t t' ⟨t0, u, -, -, h3, h4⟩ ⟨t0', u', k1, k2, k3, k4⟩ hlt
    have z : turn (v i) (v (nx n i)) ⟨o.x + t * d.x, o.y + t * d.y⟩ = 0 := by
      rw [h3, h4]; unfold turn; ring
    have w : 0 ≤ turn (v i) (v (nx n i)) ⟨o.x + t' * d.x, o.y + t' * d.y⟩ := by
      rw [k3, k4, turn_comb]
      have f1 := left_of_side h hi hj
      have f2 := left_of_side h hi (nx_lt h.1 j)
      have g1 := mul_nonneg (by linarith : 0 ≤ 1 - u') f1
      have g2 := mul_nonneg (by linarith : 0 ≤ u') f2
      linarith
    have p := ho i hi
    have e : t' * turn (v i) (v (nx n i)) ⟨o.x + t * d.x, o.y + t * d.y⟩ =
        (t' - t) * turn (v i) (v (nx n i)) o + t * turn (v i) (v (nx n i)) ⟨o.x + t' * d.x, o.y + t' * d.y⟩ := by unfold turn; ring
    rw [z, mul_zero] at e
    have g1 := mul_pos (by linarith : 0 < t' - t) p
    have g2 := mul_nonneg t0 w
    linarith
  exact le_antisymm (not_lt.mp (key hj hi h2 h1)) (not_lt.mp (key hi hj h1 h2))

/-- In the interior no edge lies along a ray. -/
theorem clear_of_interior {a b o d : P} (hd : d.x ^ 2 + d.y ^ 2 = 1) (h : 0 < turn a b o) : Clear 0 o d a b := by
  unfold Clear
  by_cases hc : cross (sub b o) d = cross (sub a o) d
  · right
    refine ⟨hc, ?_⟩
    rw [abs_pos]
    intro hz
    have hz' := hc.trans hz
    -- `a`, `b` and `o` would be on one line
    have : turn a b o = 0 := by
      have e1 : turn a b o * d.x = 0 := by
        have : turn a b o * d.x = (b.x - o.x) * cross (sub a o) d - (a.x - o.x) * cross (sub b o) d := by unfold turn cross sub; ring
        rw [this, hz, hz']; ring
      have e2 : turn a b o * d.y = 0 := by
        have : turn a b o * d.y = (b.y - o.y) * cross (sub a o) d - (a.y - o.y) * cross (sub b o) d := by unfold turn cross sub; ring
        rw [this, hz, hz']; ring
      have : turn a b o * (d.x ^ 2 + d.y ^ 2) = 0 := by linear_combination d.x * e1 + d.y * e2
      rwa [hd, mul_one] at this
    linarith
  · left
    rw [abs_pos]
    intro hz
    exact hc (by linarith)

theorem scan_same {eps : Rat} (he : 0 ≤ eps) {o d : P} (hd : d.x ^ 2 + d.y ^ 2 = 1) : ∀ (es : List (P × P)), (∀ e ∈ es, Clear eps o d e.1 e.2) →
    (∀ e ∈ es, ∀ e' ∈ es, ∀ t t', Meets eps o d e.1 e.2 t → Meets eps o d e'.1 e'.2 t' → t = t') →
    scan eps o d true es none = scan eps o d false es none
  | [], _, _ => rfl
  | e :: rest, hc, hu => by
    obtain ⟨l1, l2⟩ := look_spec he hd (hc e (by simp))
    have ih := scan_same he hd rest (fun e' h => hc e' (by simp [h])) (fun a ha b hb => hu a (by simp [ha]) b (by simp [hb]))
    cases hl : look eps o d e.1 e.2 with
    | zero => exact absurd hl l2
    | miss => simp only [scan, hl]; exact ih
    | «at» T =>
      have h1 : scan eps o d true (e :: rest) none = some T := by simp [scan, hl, better]
      have h2 : scan eps o d false (e :: rest) none = scan eps o d false rest (some T) := by simp [scan, hl, better]
      rw [h1, h2]
      obtain ⟨s1, s2, -⟩ := scan_spec he hd rest (some T) (fun e' h => hc e' (by simp [h]))
      obtain ⟨t, ht, hle⟩ := s2 T rfl
      rw [ht]
      rcases s1 t ht with h | ⟨e', he', hm⟩
      · exact h
      · rw [hu e (by simp) e' (by simp [he']) T t ((l1 T).mp hl) hm]

/-- **C158 (convex).** From a point in the interior of a convex polygon the search may stop at the first edge found, and begin anywhere: the
distance returned is the same, it is one at which the ray meets the polygon, and the only one. Here the allowance for rounding is zero. -/
theorem C158_convex {v : Nat → P} {n : Nat} (h : Convex v n) (o d : P) (hd : d.x ^ 2 + d.y ^ 2 = 1) (ho : Interior v n o) (start : Nat) :
    distance 0 o d (closed v n) true start = distance 0 o d (closed v n) false start ∧
    (∀ t, distance 0 o d (closed v n) true start = some t ↔ ∃ e ∈ edges (closed v n), Meets 0 o d e.1 e.2 t) := by
  have hclear : ∀ e ∈ edges (closed v n), Clear 0 o d e.1 e.2 := by
    intro e he
    obtain ⟨i, hi, rfl⟩ := (edges_closed v n e).mp he
    exact clear_of_interior hd (ho i hi)
  have huniq : ∀ e ∈ edges (closed v n), ∀ e' ∈ edges (closed v n), ∀ t t', Meets 0 o d e.1 e.2 t → Meets 0 o d e'.1 e'.2 t' → t = t' := by
    intro e he e' he' t t' h1 h2
    obtain ⟨i, hi, rfl⟩ := (edges_closed v n e).mp he
    obtain ⟨j, hj, rfl⟩ := (edges_closed v n e').mp he'
    exact one_distance h ho hi hj h1 h2
  have same : distance 0 o d (closed v n) true start = distance 0 o d (closed v n) false start := by
    refine scan_same le_rfl hd _ (fun e he => hclear e ((mem_rotate _ _ _).mp he)) ?_
    intro e he e' he' t t' h1 h2
    exact huniq e ((mem_rotate _ _ _).mp he) e' ((mem_rotate _ _ _).mp he') t t' h1 h2
  refine ⟨same, fun t => ?_⟩
  obtain ⟨p1, p2⟩ := C158_distance_partial 0 le_rfl o d hd (closed v n) start hclear
  rw [same]
  constructor
  · exact p1 t
  · rintro ⟨e, he, hm⟩
    obtain ⟨t', ht', -⟩ := p2 e he t hm
    obtain ⟨e', he', hm'⟩ := p1 t' ht'
    rw [ht', huniq e he e' he' t t' hm hm']

example : Convex square 4 ∧ Interior square 4 ⟨1, 1⟩ := by
  refine ⟨square_convex, fun i hi => ?_⟩
  have : i = 0 ∨ i = 1 ∨ i = 2 ∨ i = 3 := by omega
  rcases this with rfl | rfl | rfl | rfl <;> norm_num [turn, square, nx]

/-- **C158 fails** for an edge along the ray but behind its origin: its distance is counted as if it were in front. In this polygon the wall
in the direction of the ray is at the distance 4, and 2 is returned. -/
theorem C158_behind_violated : inside ⟨0, 0⟩ [⟨-3, 0⟩, ⟨-2, 0⟩, ⟨-2, -1⟩, ⟨4, -1⟩, ⟨4, 1⟩, ⟨-3, 1⟩, ⟨-3, 0⟩] = true ∧
    distance (1 / 1000000) ⟨0, 0⟩ ⟨1, 0⟩ [⟨-3, 0⟩, ⟨-2, 0⟩, ⟨-2, -1⟩, ⟨4, -1⟩, ⟨4, 1⟩, ⟨-3, 1⟩, ⟨-3, 0⟩] false 0 = some 2 ∧
    ¬ ∃ e ∈ edges [⟨-3, 0⟩, ⟨-2, 0⟩, ⟨-2, -1⟩, ⟨4, -1⟩, ⟨4, 1⟩, ⟨-3, 1⟩, ⟨-3, 0⟩], Meets 0 ⟨0, 0⟩ ⟨1, 0⟩ e.1 e.2 2 := by
  refine ⟨by decide +kernel, by decide +kernel, ?_⟩
  rintro ⟨e, he, -, u, h1, h2, h3, h4⟩
  simp only [edges, List.mem_cons, List.not_mem_nil, or_false] at he
  rcases he with rfl | rfl | rfl | rfl | rfl | rfl <;> first | (norm_num at h3; done) | (norm_num at h4; done) | (dsimp only at h3; linarith)

/-- **C158 fails** for a beam with its centre outside of the aperture: the distance to the near side is returned, which is positive, and the
methods with rays report that some beam fits, where the bisection finds none. -/
theorem C158_outside_violated : inside ⟨-1, 1⟩ (closed square 4) = false ∧
    distance (1 / 1000000) ⟨-1, 1⟩ ⟨1, 0⟩ (closed square 4) true 0 = some 3 ∧
    distance (1 / 1000000) ⟨-1, 1⟩ ⟨1, 0⟩ (closed square 4) false 0 = some 1 ∧
    distance (1 / 1000000) ⟨-1, 1⟩ ⟨-1, 0⟩ (closed square 4) true 0 = none := by
  decide +kernel

/-! ### The test for convexity -/

theorem signs_pos {eps : Rat} : ∀ (l : List Rat) (s : Int), s = 0 ∨ s = 1 → (∀ c ∈ l, 0 ≤ c) →
    ∃ s', signs eps l s = some s' ∧ (s' = 0 ∨ s' = 1) ∧ (s' = 0 ↔ s = 0 ∧ ∀ c ∈ l, |c| ≤ eps * eps)
  | [], s, hs, _ => ⟨s, rfl, hs, by simp⟩
  | c :: rest, s, hs, hc => by
    by_cases h1 : |c| ≤ eps * eps
    · obtain ⟨s', e, e1, e2⟩ := signs_pos rest s hs (fun x hx => hc x (by simp [hx]))
      refine ⟨s', ?_, e1, ?_⟩
      · unfold signs; rw [if_pos h1]; exact e
      · rw [e2]; simp [h1]
    · have hcp : 0 < c := by
        have := hc c (by simp)
        rcases lt_or_eq_of_le this with h | h
        · exact h
        · exfalso; apply h1; rw [← h]; simp; exact mul_self_nonneg eps
      obtain ⟨s', e, e1, e2⟩ := signs_pos (eps := eps) rest 1 (Or.inr rfl) (fun x hx => hc x (by simp [hx]))
      refine ⟨s', ?_, e1, ?_⟩
      · rcases hs with rfl | rfl
        · unfold signs; rw [if_neg h1]; dsimp only; rw [if_pos hcp, if_pos rfl]; exact e
        · unfold signs; rw [if_neg h1]; dsimp only; rw [if_pos hcp, if_neg (by decide), if_neg (by decide)]; exact e
      · constructor
        · intro hz; exact absurd (e2.mp hz).1 (by decide)
        · rintro ⟨-, hall⟩; exact absurd (hall c (by simp)) h1

/-- **C158 (test, partial).** A convex polygon is recognised, if at least one of its corners is not too flat. What is missing is the other
direction: see `C158_star_violated`. -/
theorem C158_recognised_partial {v : Nat → P} {n : Nat} (h : Convex v n) (eps : Rat) (i : Nat) (hi : i < n)
    (hb : eps * eps < turn (v i) (v ((i + 1) % n)) (v ((i + 2) % n))) : isConvex eps v n = true := by
  have hn := h.1
  unfold isConvex
  by_cases h4 : n + 1 < 4
  · rw [if_pos h4]
  · rw [if_neg h4]
    have hmod : ∀ i, i < n → (i + 1) % n = nx n i := by
      intro i hi
      unfold nx
      by_cases hc : i + 1 < n
      · rw [if_pos hc, Nat.mod_eq_of_lt hc]
      · rw [if_neg hc, show i + 1 = n by omega, Nat.mod_self]
    have hmod2 : ∀ i, i < n → (i + 2) % n < n := fun i _ => Nat.mod_lt _ (by omega)
    have hcr : ∀ a b c : P, cross (sub b a) (sub c b) = turn a b c := by intro a b c; unfold cross sub turn; ring
    obtain ⟨s', e, e1, e2⟩ := signs_pos (eps := eps) ((List.range n).map fun i =>
      cross (sub (v ((i + 1) % n)) (v i)) (sub (v ((i + 2) % n)) (v ((i + 1) % n)))) 0 (Or.inl rfl) (by
        intro c hc
        obtain ⟨k, hk, rfl⟩ := List.mem_map.mp hc
        rw [List.mem_range] at hk
        rw [hcr, hmod k hk]
        exact left_of_side h hk (hmod2 k hk))
    rw [e]
    dsimp only
    rw [decide_eq_true_eq]
    intro hz
    have := (e2.mp hz).2 _ (List.mem_map.mpr ⟨i, List.mem_range.mpr hi, rfl⟩)
    rw [hcr] at this
    have := le_trans (le_abs_self _) this
    linarith

example : (1 / 1000000 : Rat) * (1 / 1000000) < turn (square 0) (square 1) (square 2) := by norm_num [turn, square]

/-- The corners of a star, every second one of a regular pentagon. -/
def star : Nat → P
  | 0 => ⟨0, 10⟩ | 1 => ⟨-6, -8⟩ | 2 => ⟨10, 3⟩ | 3 => ⟨-10, 3⟩ | _ => ⟨6, -8⟩

/-- **C158 fails**: the test looks at three neighbouring corners at a time, and takes a star for a convex polygon; the search along the ray
then stops at the first edge found, which is not the nearest one. -/
theorem C158_star_violated : isConvex (1 / 1000000) star 5 = true ∧
    distance (1 / 1000000) ⟨0, 0⟩ ⟨1, 0⟩ (closed star 5) true 0 = some (62 / 11) ∧
    distance (1 / 1000000) ⟨0, 0⟩ ⟨1, 0⟩ (closed star 5) false 0 = some (10 / 3) := by
  decide +kernel

/-! ## C159 -/

/-- The polygon has a point on the horizontal axis at `x`. -/
def Touches (pts : List P) (x : Rat) : Prop := ∃ e ∈ edges pts, ∃ u, 0 ≤ u ∧ u ≤ 1 ∧ e.1.x + u * (e.2.x - e.1.x) = x ∧ e.1.y + u * (e.2.y - e.1.y) = 0

theorem onAxis_sound (p0 p1 : P) (x : Rat) (h : x ∈ onAxis p0 p1) : ∃ u, 0 ≤ u ∧ u ≤ 1 ∧ p0.x + u * (p1.x - p0.x) = x ∧ p0.y + u * (p1.y - p0.y) = 0 := by
  unfold onAxis at h
  simp only [List.mem_append] at h
  rcases h with (h | h) | h
  · by_cases hc : p0.y = 0
    · rw [if_pos hc] at h
      exact ⟨0, le_rfl, by norm_num, by simp at h; rw [h]; ring, by rw [hc]; ring⟩
    · rw [if_neg hc] at h; cases h
  · by_cases hc : p1.y = 0
    · rw [if_pos hc] at h
      exact ⟨1, by norm_num, le_rfl, by simp at h; rw [h]; ring, by rw [hc]; ring⟩
    · rw [if_neg hc] at h; cases h
  · by_cases hc : (p0.y < 0 ∧ p1.y > 0) ∨ (p0.y > 0 ∧ p1.y < 0)
    · rw [if_pos hc] at h
      rw [List.mem_singleton] at h
      rcases hc with ⟨c1, c2⟩ | ⟨c1, c2⟩
      · have hp : 0 < p1.y - p0.y := by linarith
        refine ⟨-p0.y / (p1.y - p0.y), div_nonneg (by linarith) hp.le, by rw [div_le_iff₀ hp]; linarith, ?_, ?_⟩
        · rw [h]; field_simp; ring
        · field_simp; ring
      · have hp : 0 < p0.y - p1.y := by linarith
        have hne : p1.y - p0.y ≠ 0 := by linarith
        refine ⟨p0.y / (p0.y - p1.y), div_nonneg c1.le hp.le, by rw [div_le_iff₀ hp]; linarith, ?_, ?_⟩
        · rw [h]
          have e : p0.y / (p0.y - p1.y) = - (p0.y / (p1.y - p0.y)) := by rw [← neg_sub p1.y p0.y, div_neg]
          rw [e]; ring
        · field_simp; ring
    · rw [if_neg hc] at h; cases h

/-- Every point of the edge on the axis lies between two of those looked at. -/
theorem onAxis_complete (p0 p1 : P) (x u : Rat) (h0 : 0 ≤ u) (h1 : u ≤ 1) (hx : p0.x + u * (p1.x - p0.x) = x) (hy : p0.y + u * (p1.y - p0.y) = 0) :
    (∃ z ∈ onAxis p0 p1, z ≤ x) ∧ ∃ z ∈ onAxis p0 p1, x ≤ z := by
  unfold onAxis
  by_cases c0 : p0.y = 0
  · by_cases c1 : p1.y = 0
    · rw [if_pos c0, if_pos c1]
      rcases le_total p0.x p1.x with hl | hl
      · refine ⟨⟨p0.x, by simp, ?_⟩, ⟨p1.x, by simp, ?_⟩⟩
        · have := mul_nonneg h0 (sub_nonneg.mpr hl); linarith
        · have := mul_nonneg (sub_nonneg.mpr h1) (sub_nonneg.mpr hl); linarith
      · refine ⟨⟨p1.x, by simp, ?_⟩, ⟨p0.x, by simp, ?_⟩⟩
        · have := mul_nonneg (sub_nonneg.mpr h1) (sub_nonneg.mpr hl); linarith
        · have := mul_nonneg h0 (sub_nonneg.mpr hl); linarith
    · rw [if_pos c0]
      have hu : u = 0 := by
        rw [c0] at hy
        have : u * p1.y = 0 := by linarith
        rcases mul_eq_zero.mp this with h | h
        · exact h
        · exact absurd h c1
      rw [hu] at hx
      exact ⟨⟨p0.x, by simp, by linarith⟩, ⟨p0.x, by simp, by linarith⟩⟩
  · by_cases c1 : p1.y = 0
    · rw [if_pos c1]
      have hu : u = 1 := by
        rw [c1] at hy
        have : (1 - u) * p0.y = 0 := by linarith
        rcases mul_eq_zero.mp this with h | h
        · linarith
        · exact absurd h c0
      rw [hu] at hx
      exact ⟨⟨p1.x, by simp, by linarith⟩, ⟨p1.x, by simp, by linarith⟩⟩
    · have hs : (p0.y < 0 ∧ p1.y > 0) ∨ (p0.y > 0 ∧ p1.y < 0) := by
        rcases lt_trichotomy p0.y 0 with a | a | a
        · rcases lt_trichotomy p1.y 0 with b | b | b
          · exfalso; have g1 := mul_nonneg h0 (neg_nonneg.mpr b.le); have g2 := mul_nonneg (sub_nonneg.mpr h1) (neg_nonneg.mpr a.le); exact c0 (by nlinarith)
          · exact absurd b c1
          · exact Or.inl ⟨a, b⟩
        · exact absurd a c0
        · rcases lt_trichotomy p1.y 0 with b | b | b
          · exact Or.inr ⟨a, b⟩
          · exact absurd b c1
          · exfalso; have g1 := mul_nonneg h0 b.le; have g2 := mul_nonneg (sub_nonneg.mpr h1) a.le; exact c0 (by nlinarith)
      rw [if_pos hs]
      have hne : p1.y - p0.y ≠ 0 := by
        rcases hs with ⟨a, b⟩ | ⟨a, b⟩
        · intro h; linarith
        · intro h; linarith
      have hz : p0.x - p0.y * (p1.x - p0.x) / (p1.y - p0.y) = x := by
        have hu : u = -p0.y / (p1.y - p0.y) := by rw [eq_div_iff hne]; linarith
        rw [← hx, hu]; field_simp; ring
      exact ⟨⟨_, by simp, hz.le⟩, ⟨_, by simp, hz.ge⟩⟩

theorem lower_fold : ∀ (l : List Rat) (m : Option Rat), (∀ x, l.foldl lower m = some x → (m = some x ∨ x ∈ l) ∧ (∀ z ∈ l, x ≤ z) ∧ ∀ b, m = some b → x ≤ b) ∧
    (l.foldl lower m = none ↔ l = [] ∧ m = none)
  | [], m => ⟨fun x h => ⟨Or.inl h, by simp, fun b hb => by
      have h' : m = some x := h
      rw [h'] at hb; cases hb; exact le_rfl⟩, by simp⟩
  | z :: rest, m => by
    have ih := lower_fold rest (lower m z)
    rw [List.foldl_cons]
    have hl : ∃ y, lower m z = some y ∧ (y = z ∨ m = some y) ∧ y ≤ z ∧ ∀ b, m = some b → y ≤ b := by
      cases m with
      | none => exact ⟨z, rfl, Or.inl rfl, le_rfl, by intro b h; cases h⟩
      | some b =>
        simp only [lower]
        by_cases hc : z < b
        · rw [if_pos hc]; exact ⟨z, rfl, Or.inl rfl, le_rfl, by intro b' h; cases h; exact hc.le⟩
        · rw [if_neg hc]; exact ⟨b, rfl, Or.inr rfl, not_lt.mp hc, by intro b' h; cases h; exact le_rfl⟩
    obtain ⟨y, hy, hy1, hy2, hy3⟩ := hl
    rw [hy] at ih ⊢
    refine ⟨fun x hx => ?_, ?_⟩
    · obtain ⟨i1, i2, i3⟩ := ih.1 x hx
      have hxy := i3 y rfl
      refine ⟨?_, ?_, fun b hb => le_trans hxy (hy3 b hb)⟩
      · rcases i1 with h | h
        · cases h
          rcases hy1 with h | h
          · right; simp [h]
          · exact Or.inl h
        · right; simp [h]
      · intro w hw
        rcases List.mem_cons.mp hw with rfl | hw
        · exact le_trans hxy hy2
        · exact i2 w hw
    · rw [ih.2]; simp

theorem upper_fold : ∀ (l : List Rat) (m : Option Rat), (∀ x, l.foldl upper m = some x → (m = some x ∨ x ∈ l) ∧ (∀ z ∈ l, z ≤ x) ∧ ∀ b, m = some b → b ≤ x) ∧
    (l.foldl upper m = none ↔ l = [] ∧ m = none)
  | [], m => ⟨fun x h => ⟨Or.inl h, by simp, fun b hb => by
      have h' : m = some x := h
      rw [h'] at hb; cases hb; exact le_rfl⟩, by simp⟩
  | z :: rest, m => by
    have ih := upper_fold rest (upper m z)
    rw [List.foldl_cons]
    have hl : ∃ y, upper m z = some y ∧ (y = z ∨ m = some y) ∧ z ≤ y ∧ ∀ b, m = some b → b ≤ y := by
      cases m with
      | none => exact ⟨z, rfl, Or.inl rfl, le_rfl, by intro b h; cases h⟩
      | some b =>
        simp only [upper]
        by_cases hc : z > b
        · rw [if_pos hc]; exact ⟨z, rfl, Or.inl rfl, le_rfl, by intro b' h; cases h; exact hc.le⟩
        · rw [if_neg hc]; exact ⟨b, rfl, Or.inr rfl, not_lt.mp hc, by intro b' h; cases h; exact le_rfl⟩
    obtain ⟨y, hy, hy1, hy2, hy3⟩ := hl
    rw [hy] at ih ⊢
    refine ⟨fun x hx => ?_, ?_⟩
    · obtain ⟨i1, i2, i3⟩ := ih.1 x hx
      have hxy := i3 y rfl
      refine ⟨?_, ?_, fun b hb => le_trans (hy3 b hb) hxy⟩
      · rcases i1 with h | h
        · cases h
          rcases hy1 with h | h
          · right; simp [h]
          · exact Or.inl h
        · right; simp [h]
      · intro w hw
        rcases List.mem_cons.mp hw with rfl | hw
        · exact le_trans hy2 hxy
        · exact i2 w hw
    · rw [ih.2]; simp

theorem touches_iff (pts : List P) (x : Rat) (hx : x ∈ (edges pts).flatMap fun e => onAxis e.1 e.2) : Touches pts x := by
  obtain ⟨e, he, hm⟩ := List.mem_flatMap.mp hx
  obtain ⟨u, h0, h1, h2, h3⟩ := onAxis_sound e.1 e.2 x hm
  exact ⟨e, he, u, h0, h1, h2, h3⟩

/-- **C159.** `min_x` and `max_x` of a cross-section are the least and the greatest coordinate at which its outline meets the horizontal
axis, and there is no value exactly when it does not meet the axis. (For the vertical axis the code is the same with the coordinates
exchanged.) -/
theorem C159_extents (pts : List P) :
    (∀ x, minX pts = some x ↔ Touches pts x ∧ ∀ z, Touches pts z → x ≤ z) ∧
    (∀ x, maxX pts = some x ↔ Touches pts x ∧ ∀ z, Touches pts z → z ≤ x) ∧
    (minX pts = none ↔ ¬ ∃ x, Touches pts x) := by
  have compl : ∀ x, Touches pts x → (∃ z ∈ (edges pts).flatMap fun e => onAxis e.1 e.2, z ≤ x) ∧ ∃ z ∈ (edges pts).flatMap fun e => onAxis e.1 e.2, x ≤ z := by
    rintro x ⟨e, he, u, h0, h1, h2, h3⟩
    obtain ⟨⟨z, hz, hz'⟩, ⟨w, hw, hw'⟩⟩ := onAxis_complete e.1 e.2 x u h0 h1 h2 h3
    exact ⟨⟨z, List.mem_flatMap.mpr ⟨e, he, hz⟩, hz'⟩, ⟨w, List.mem_flatMap.mpr ⟨e, he, hw⟩, hw'⟩⟩
  have minS : ∀ x, minX pts = some x → Touches pts x ∧ ∀ z, Touches pts z → x ≤ z := by
    intro x hx
    obtain ⟨i1, i2, -⟩ := (lower_fold _ none).1 x hx
    refine ⟨touches_iff pts x (by rcases i1 with h | h; cases h; exact h), fun z hz => ?_⟩
    obtain ⟨⟨w, hw, hw'⟩, -⟩ := compl z hz
    exact le_trans (i2 w hw) hw'
  have maxS : ∀ x, maxX pts = some x → Touches pts x ∧ ∀ z, Touches pts z → z ≤ x := by
    intro x hx
    obtain ⟨i1, i2, -⟩ := (upper_fold _ none).1 x hx
    refine ⟨touches_iff pts x (by rcases i1 with h | h; cases h; exact h), fun z hz => ?_⟩
    obtain ⟨-, ⟨w, hw, hw'⟩⟩ := compl z hz
    exact le_trans hw' (i2 w hw)
  have someMin : ∀ x, Touches pts x → ∃ m, minX pts = some m := by
    intro x hx
    cases hm : minX pts with
    | some m => exact ⟨m, rfl⟩
    | none =>
      have := ((lower_fold _ none).2.mp hm).1
      obtain ⟨⟨z, hz, -⟩, -⟩ := compl x hx
      rw [this] at hz; cases hz
  have someMax : ∀ x, Touches pts x → ∃ m, maxX pts = some m := by
    intro x hx
    cases hm : maxX pts with
    | some m => exact ⟨m, rfl⟩
    | none =>
      have := ((upper_fold _ none).2.mp hm).1
      obtain ⟨⟨z, hz, -⟩, -⟩ := compl x hx
      rw [this] at hz; cases hz
  refine ⟨fun x => ⟨minS x, fun ⟨h1, h2⟩ => ?_⟩, fun x => ⟨maxS x, fun ⟨h1, h2⟩ => ?_⟩, ?_⟩
  · obtain ⟨m, hm⟩ := someMin x h1
    obtain ⟨k1, k2⟩ := minS m hm
    rw [hm, le_antisymm (k2 x h1) (h2 m k1)]
  · obtain ⟨m, hm⟩ := someMax x h1
    obtain ⟨k1, k2⟩ := maxS m hm
    rw [hm, le_antisymm (h2 m k1) (k2 x h1)]
  · constructor
    · rintro h ⟨x, hx⟩
      obtain ⟨m, hm⟩ := someMin x hx
      rw [h] at hm; cases hm
    · intro h
      cases hm : minX pts with
      | none => rfl
      | some m => exact absurd ⟨m, (minS m hm).1⟩ h

example : minX [⟨-3, 0⟩, ⟨-2, 0⟩, ⟨-2, -1⟩, ⟨4, -1⟩, ⟨5, 1⟩, ⟨-3, 1⟩, ⟨-3, 0⟩] = some (-3) ∧
    maxX [⟨-3, 0⟩, ⟨-2, 0⟩, ⟨-2, -1⟩, ⟨4, -1⟩, ⟨5, 1⟩, ⟨-3, 1⟩, ⟨-3, 0⟩] = some (9 / 2) := by
  decide +kernel

end Verif.AperModel.Rays
