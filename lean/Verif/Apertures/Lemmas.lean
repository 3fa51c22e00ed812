import Mathlib.Topology.Algebra.Field
import Mathlib.Tactic.FieldSimp
import Mathlib.Tactic.Linarith
import Mathlib.Tactic.Push
import Mathlib.Tactic.LinearCombination
import Mathlib.Tactic.Ring
import Mathlib.Tactic.Positivity
import Verif.Apertures.Spec

/-! # Lemmas on the even-odd loop -/

namespace Verif.Apertures

open Classical Topology

noncomputable section

/-- The loop, with the contribution of each side given by `f`. -/
def xorLoop (f : Pnt → Pnt → Bool) : Pnt → List Pnt → Bool
  | _, [] => false
  | prev, v :: vs => xor (f v prev) (xorLoop f v vs)

/-- The whole cyclic sum. -/
def xorAll (f : Pnt → Pnt → Bool) (vs : List Pnt) : Bool :=
  match vs.getLast? with
  | none => false
  | some l => xorLoop f l vs

theorem polyLoop_xor (q : Pnt) (vs : List Pnt) : ∀ (prev : Pnt) (a : Bool),
    polyLoop q prev vs a = xor a (xorLoop (fun u v => decide (crossed q u v)) prev vs) := by
  induction vs with
  | nil => intro prev a; simp [polyLoop, xorLoop]
  | cons v vs ih =>
    intro prev a
    simp only [polyLoop, xorLoop, ih]
    by_cases h : crossed q v prev <;> simp [h]

theorem polyAlive_xor (vs : List Pnt) (q : Pnt) :
    polyAlive vs q = xorAll (fun u v => decide (crossed q u v)) vs := by
  unfold polyAlive xorAll
  cases vs.getLast? with
  | none => rfl
  | some l => simp [polyLoop_xor]

theorem xorLoop_tele (g : Pnt → Bool) (vs : List Pnt) : ∀ prev : Pnt,
    xorLoop (fun u v => xor (g u) (g v)) prev vs = xor (g prev) (g (vs.getLast?.getD prev)) := by
  induction vs with
  | nil => intro prev; simp [xorLoop]
  | cons v vs ih =>
    intro prev
    simp only [xorLoop, ih]
    have : ((v :: vs).getLast?.getD prev) = vs.getLast?.getD v := by
      cases vs with
      | nil => simp
      | cons a l => simp [List.getLast?_cons]
    rw [this]
    cases g v <;> cases g prev <;> simp

theorem xorAll_tele (g : Pnt → Bool) (vs : List Pnt) :
    xorAll (fun u v => xor (g u) (g v)) vs = false := by
  unfold xorAll
  cases h : vs.getLast? with
  | none => rfl
  | some l => simp [xorLoop_tele, h]

theorem xorLoop_xor (f g : Pnt → Pnt → Bool) (vs : List Pnt) : ∀ prev : Pnt,
    xorLoop (fun u v => xor (f u v) (g u v)) prev vs
      = xor (xorLoop f prev vs) (xorLoop g prev vs) := by
  induction vs with
  | nil => intro prev; simp [xorLoop]
  | cons v vs ih =>
    intro prev
    simp only [xorLoop, ih]
    cases f v prev <;> cases g v prev <;> cases xorLoop f v vs <;> cases xorLoop g v vs <;> rfl

theorem xorAll_xor (f g : Pnt → Pnt → Bool) (vs : List Pnt) :
    xorAll (fun u v => xor (f u v) (g u v)) vs = xor (xorAll f vs) (xorAll g vs) := by
  unfold xorAll
  cases vs.getLast? with
  | none => rfl
  | some l => simp [xorLoop_xor]

/-- The sum over the sides in the order of `sides`. -/
def sumSides (f : Pnt → Pnt → Bool) (es : List (Pnt × Pnt)) : Bool :=
  es.foldr (fun e acc => xor (f e.2 e.1) acc) false

theorem sumSides_append (f : Pnt → Pnt → Bool) (es fs : List (Pnt × Pnt)) :
    sumSides f (es ++ fs) = xor (sumSides f es) (sumSides f fs) := by
  induction es with
  | nil => simp [sumSides]
  | cons e es ih =>
    simp only [sumSides, List.cons_append, List.foldr_cons] at *
    rw [ih]; simp

theorem sumSides_cons (f : Pnt → Pnt → Bool) (e : Pnt × Pnt) (es : List (Pnt × Pnt)) :
    sumSides f (e :: es) = xor (f e.2 e.1) (sumSides f es) := rfl

theorem xorLoop_sides (f : Pnt → Pnt → Bool) (l : Pnt) (vs : List Pnt) : ∀ (prev : Pnt),
    xor (xorLoop f prev vs) (f l (vs.getLast?.getD prev))
      = sumSides f ((prev :: vs).zip (vs ++ [l])) := by
  induction vs with
  | nil => intro prev; simp [xorLoop, sumSides]
  | cons v vs ih =>
    intro prev
    have : ((v :: vs).getLast?.getD prev) = vs.getLast?.getD v := by
      cases vs with
      | nil => simp
      | cons a l => simp [List.getLast?_cons]
    simp only [xorLoop, this, List.cons_append, List.zip_cons_cons, sumSides_cons]
    rw [Bool.xor_assoc, ih]

theorem xorAll_sides (f : Pnt → Pnt → Bool) (vs : List Pnt) :
    xorAll f vs = sumSides f (sides vs) := by
  cases vs with
  | nil => rfl
  | cons v vs =>
    have h := xorLoop_sides f v vs v
    simp only [sides]
    rw [← h]
    unfold xorAll
    rw [List.getLast?_cons]
    simp only [xorLoop, Bool.xor_comm]

/-- The sides have vertices as ends. -/
theorem mem_sides {vs : List Pnt} {e : Pnt × Pnt} (h : e ∈ sides vs) : e.1 ∈ vs ∧ e.2 ∈ vs := by
  cases vs with
  | nil => simp [sides] at h
  | cons f vs =>
    have := List.of_mem_zip (a := e.1) (b := e.2) (l₁ := f :: vs) (l₂ := vs ++ [f]) h
    refine ⟨this.1, ?_⟩
    rcases List.mem_append.1 this.2 with h | h
    · exact List.mem_cons_of_mem _ h
    · simp at h; simp [h]

theorem sumSides_congr {f g : Pnt → Pnt → Bool} {es : List (Pnt × Pnt)}
    (h : ∀ e ∈ es, f e.2 e.1 = g e.2 e.1) : sumSides f es = sumSides g es := by
  induction es with
  | nil => rfl
  | cons e es ih =>
    simp only [sumSides_cons]
    rw [h e (by simp), ih (fun d hd => h d (by simp [hd]))]

theorem polyAlive_sides (vs : List Pnt) (q : Pnt) :
    polyAlive vs q = sumSides (fun u v => decide (crossed q u v)) (sides vs) := by
  rw [polyAlive_xor, xorAll_sides]

theorem sumSides_tele (g : Pnt → Bool) (vs : List Pnt) :
    sumSides (fun u v => xor (g u) (g v)) (sides vs) = false := by
  rw [← xorAll_sides, xorAll_tele]

/-! ## One side -/

/-- Where the side crosses the height `y`. -/
def xcut (u v : Pnt) (y : ℝ) : ℝ := (v.1 - u.1) * (y - u.2) / (v.2 - u.2) + u.1

theorem crossed_iff (q u v : Pnt) :
    crossed q u v ↔ ((u.2 > q.2) ≠ (v.2 > q.2)) ∧ q.1 < xcut u v q.2 := Iff.rfl

theorem xcut_left (u v : Pnt) : xcut u v u.2 = u.1 := by simp [xcut]

theorem xcut_right {u v : Pnt} (h : u.2 ≠ v.2) : xcut u v v.2 = v.1 := by
  have : v.2 - u.2 ≠ 0 := sub_ne_zero.2 h.symm
  simp only [xcut]; field_simp; ring

/-- The cut is a point of the side. -/
theorem xcut_mem {u v : Pnt} {y : ℝ} (h : u.2 ≠ v.2)
    (hy : (u.2 ≤ y ∧ y ≤ v.2) ∨ (v.2 ≤ y ∧ y ≤ u.2)) : (xcut u v y, y) ∈ segment ℝ u v := by
  have hd : v.2 - u.2 ≠ 0 := sub_ne_zero.2 h.symm
  have t0 : 0 ≤ (y - u.2) / (v.2 - u.2) := by
    rcases hy with ⟨h1, h2⟩ | ⟨h1, h2⟩
    · exact div_nonneg (by linarith) (by linarith)
    · exact div_nonneg_of_nonpos (by linarith) (by linarith)
  have t1 : (y - u.2) / (v.2 - u.2) ≤ 1 := by
    rcases hy with ⟨h1, h2⟩ | ⟨h1, h2⟩
    · exact div_le_one_of_le₀ (by linarith) (by linarith)
    · exact (div_le_one_of_neg (lt_of_le_of_ne (by linarith) hd)).2 (by linarith)
  refine ⟨1 - (y - u.2) / (v.2 - u.2), (y - u.2) / (v.2 - u.2), by linarith, t0, by ring, ?_⟩
  ext
  · simp only [Prod.fst_add, Prod.smul_fst, smul_eq_mul, xcut]; field_simp; ring
  · simp only [Prod.snd_add, Prod.smul_snd, smul_eq_mul]; field_simp; ring

theorem xcut_continuous {u v : Pnt} : Continuous (fun q : Pnt => xcut u v q.2) := by
  unfold xcut; fun_prop

/-- Points of a horizontal side. -/
theorem mem_horizontal {u v : Pnt} {x y : ℝ} (hu : u.2 = y) (hv : v.2 = y)
    (h : (u.1 ≤ x ∧ x ≤ v.1) ∨ (v.1 ≤ x ∧ x ≤ u.1)) : ((x, y) : Pnt) ∈ segment ℝ u v := by
  rw [segment_eq_image]
  by_cases e : u.1 = v.1
  · refine ⟨0, by simp, ?_⟩
    have : u.1 = x := by rcases h with h | h <;> linarith [h.1, h.2]
    ext <;> simp [this, hu]
  · have hd : v.1 - u.1 ≠ 0 := sub_ne_zero.2 (Ne.symm e)
    refine ⟨(x - u.1) / (v.1 - u.1), ⟨?_, ?_⟩, ?_⟩
    · rcases h with ⟨h1, h2⟩ | ⟨h1, h2⟩
      · exact div_nonneg (by linarith) (by linarith)
      · exact div_nonneg_of_nonpos (by linarith) (by linarith)
    · rcases h with ⟨h1, h2⟩ | ⟨h1, h2⟩
      · exact div_le_one_of_le₀ (by linarith) (by linarith)
      · exact (div_le_one_of_neg (lt_of_le_of_ne (by linarith) hd)).2 (by linarith)
    · ext
      · simp only [Prod.fst_add, Prod.smul_fst, smul_eq_mul]; field_simp; ring
      · simp only [Prod.snd_add, Prod.smul_snd, smul_eq_mul, hu, hv]; ring

/-- The vertex `w`, at the height of `q` and right of it, passes from below to above. -/
def flips (q q' w : Pnt) : Bool :=
  decide ((w.2 > q'.2) ≠ (w.2 > q.2) ∧ q.1 < w.1)

theorem ev_below {q : Pnt} {c : ℝ} (h : c < q.2) : ∀ᶠ r : Pnt in 𝓝 q, c < r.2 :=
  continuous_snd.continuousAt.eventually (lt_mem_nhds h)

theorem ev_above {q : Pnt} {c : ℝ} (h : q.2 < c) : ∀ᶠ r : Pnt in 𝓝 q, r.2 < c :=
  continuous_snd.continuousAt.eventually (gt_mem_nhds h)

theorem ev_cut {q u v : Pnt} (h : q.1 ≠ xcut u v q.2) :
    ∀ᶠ r : Pnt in 𝓝 q, (r.1 < xcut u v r.2 ↔ q.1 < xcut u v q.2) := by
  have hc : Continuous (fun r : Pnt => xcut u v r.2) := xcut_continuous
  rcases lt_or_gt_of_ne h with h | h
  · filter_upwards [(continuous_fst.continuousAt.prodMk hc.continuousAt).eventually
      (isOpen_lt continuous_fst continuous_snd |>.mem_nhds (x := (q.1, xcut u v q.2)) h)] with r hr
    exact ⟨fun _ => h, fun _ => hr⟩
  · filter_upwards [(continuous_fst.continuousAt.prodMk hc.continuousAt).eventually
      (isOpen_lt continuous_snd continuous_fst |>.mem_nhds (x := (q.1, xcut u v q.2)) h)] with r hr
    exact ⟨fun h' => absurd h' (not_lt.2 (le_of_lt hr)), fun h' => absurd h' (not_lt.2 h.le)⟩

/-- Near a point which is not on the side, its contribution changes only by the flips of its two
ends. -/
theorem edge_near {q u v : Pnt} (h : q ∉ segment ℝ u v) :
    ∀ᶠ r in 𝓝 q, xor (decide (crossed r u v)) (decide (crossed q u v))
      = xor (flips q r u) (flips q r v) := by
  have hne : ∀ w ∈ segment ℝ u v, q.2 = w.2 → q.1 ≠ w.1 := by
    intro w hw h2 h1
    exact h (by rwa [show q = w from Prod.ext h1 h2])
  have hu : q.2 = u.2 → q.1 ≠ u.1 := hne u (left_mem_segment _ _ _)
  have hv : q.2 = v.2 → q.1 ≠ v.1 := hne v (right_mem_segment _ _ _)
  rcases lt_trichotomy u.2 q.2 with u1 | u1 | u1 <;>
  rcases lt_trichotomy v.2 q.2 with v1 | v1 | v1
  · filter_upwards [ev_below u1, ev_below v1] with r r1 r2
    simp [crossed_iff, flips, not_lt.2 u1.le, not_lt.2 v1.le, not_lt.2 r1.le, not_lt.2 r2.le]
  · -- u below, v level
    have hc : xcut u v q.2 = v.1 := by rw [← v1]; exact xcut_right (by linarith)
    filter_upwards [ev_below u1, ev_cut (u := u) (v := v) (hc ▸ hv v1.symm)] with r r1 r2
    rw [hc] at r2
    by_cases h3 : v.2 > r.2 <;>
    simp [crossed_iff, flips, not_lt.2 u1.le, not_lt.2 r1.le, r2, v1, v1 ▸ h3]
  · have hc : q.1 ≠ xcut u v q.2 :=
      hne _ (xcut_mem (by linarith) (Or.inl ⟨u1.le, v1.le⟩)) rfl
    filter_upwards [ev_below u1, ev_above v1, ev_cut hc] with r r1 r2 r3
    simp [crossed_iff, flips, not_lt.2 u1.le, v1, not_lt.2 r1.le, r2, r3]
  · have hc : xcut u v q.2 = u.1 := by rw [← u1]; exact xcut_left _ _
    filter_upwards [ev_below v1, ev_cut (u := u) (v := v) (hc ▸ hu u1.symm)] with r r1 r2
    rw [hc] at r2
    by_cases h3 : u.2 > r.2 <;>
    simp [crossed_iff, flips, not_lt.2 v1.le, not_lt.2 r1.le, r2, u1, u1 ▸ h3]
  · have hh : q.1 < u.1 ↔ q.1 < v.1 := by
      constructor
      · intro h1; by_contra h2
        exact h (mem_horizontal (x := q.1) (y := q.2) u1 v1 (Or.inr ⟨not_lt.1 h2, h1.le⟩))
      · intro h1; by_contra h2
        exact h (mem_horizontal (x := q.1) (y := q.2) u1 v1 (Or.inl ⟨not_lt.1 h2, h1.le⟩))
    filter_upwards with r
    simp [crossed_iff, flips, u1, v1, hh]
  · have hc : xcut u v q.2 = u.1 := by rw [← u1]; exact xcut_left _ _
    filter_upwards [ev_above v1, ev_cut (u := u) (v := v) (hc ▸ hu u1.symm)] with r r1 r2
    rw [hc] at r2
    by_cases h3 : u.2 > r.2 <;>
    simp [crossed_iff, flips, v1, r1, r2, u1, u1 ▸ h3, hc]
  · have hc : q.1 ≠ xcut u v q.2 :=
      hne _ (xcut_mem (by linarith) (Or.inr ⟨v1.le, u1.le⟩)) rfl
    filter_upwards [ev_below v1, ev_above u1, ev_cut hc] with r r1 r2 r3
    simp [crossed_iff, flips, not_lt.2 v1.le, u1, not_lt.2 r1.le, r2, r3]
  · have hc : xcut u v q.2 = v.1 := by rw [← v1]; exact xcut_right (by linarith)
    filter_upwards [ev_above u1, ev_cut (u := u) (v := v) (hc ▸ hv v1.symm)] with r r1 r2
    rw [hc] at r2
    by_cases h3 : v.2 > r.2 <;>
    simp [crossed_iff, flips, u1, r1, r2, v1, v1 ▸ h3, hc]
  · filter_upwards [ev_above u1, ev_above v1] with r r1 r2
    simp [crossed_iff, flips, u1, v1, r1, r2]

/-- All the sides of a list at once. -/
theorem edges_near {q : Pnt} (es : List (Pnt × Pnt))
    (h : ∀ e ∈ es, q ∉ segment ℝ e.1 e.2) :
    ∀ᶠ r in 𝓝 q, xor (sumSides (fun u v => decide (crossed r u v)) es)
        (sumSides (fun u v => decide (crossed q u v)) es)
      = sumSides (fun u v => xor (flips q r u) (flips q r v)) es := by
  induction es with
  | nil => simp [sumSides]
  | cons e es ih =>
    have h1 : q ∉ segment ℝ e.2 e.1 := by rw [segment_symm]; exact h e (by simp)
    filter_upwards [ih (fun d hd => h d (by simp [hd])), edge_near h1] with r r1 r2
    simp only [sumSides_cons, ← r1, ← r2]
    generalize decide (crossed r e.2 e.1) = a
    generalize decide (crossed q e.2 e.1) = b
    generalize sumSides _ es = c
    generalize sumSides _ es = d
    cases a <;> cases b <;> cases c <;> cases d <;> rfl

/-- The verdict is locally constant off the boundary. -/
theorem alive_near {vs : List Pnt} {q : Pnt} (h : ¬ OnBoundary vs q) :
    ∀ᶠ r in 𝓝 q, polyAlive vs r = polyAlive vs q := by
  have h' : ∀ e ∈ sides vs, q ∉ segment ℝ e.1 e.2 := fun e he hq => h ⟨e, he, hq⟩
  filter_upwards [edges_near _ h'] with r hr
  rw [sumSides_tele] at hr
  rw [polyAlive_sides, polyAlive_sides]
  revert hr
  generalize sumSides _ (sides vs) = a
  generalize sumSides _ (sides vs) = b
  cases a <;> cases b <;> simp

theorem alive_connected {vs : List Pnt} {S : Set Pnt} (hS : IsPreconnected S)
    (h : ∀ q ∈ S, ¬ OnBoundary vs q) {q r : Pnt} (hq : q ∈ S) (hr : r ∈ S) :
    polyAlive vs q = polyAlive vs r := by
  refine hS.constant (f := polyAlive vs) ?_ hq hr
  intro p hp
  have : Filter.EventuallyEq (𝓝 p) (fun _ => polyAlive vs p) (polyAlive vs) :=
    (alive_near (h p hp)).mono fun r hr => hr.symm
  exact (continuousAt_const.congr this).continuousWithinAt

/-- The first coordinate of a point of a segment lies between those of the ends. -/
theorem segment_fst_lt {u v w : Pnt} {c : ℝ} (h : w ∈ segment ℝ u v) (hu : u.1 < c)
    (hv : v.1 < c) : w.1 < c := by
  obtain ⟨a, b, ha, hb, hab, rfl⟩ := h
  simp only [Prod.fst_add, Prod.smul_fst, smul_eq_mul]
  rcases eq_or_lt_of_le ha with h0 | h0
  · have : b = 1 := by linarith
    subst h0; simp [this, hv]
  · have := mul_le_mul_of_nonneg_left hv.le hb
    have := mul_lt_mul_of_pos_left hu h0
    have : a * c + b * c = c := by rw [← add_mul, hab, one_mul]
    linarith

theorem lt_segment_fst {u v w : Pnt} {c : ℝ} (h : w ∈ segment ℝ u v) (hu : c < u.1)
    (hv : c < v.1) : c < w.1 := by
  obtain ⟨a, b, ha, hb, hab, rfl⟩ := h
  simp only [Prod.fst_add, Prod.smul_fst, smul_eq_mul]
  rcases eq_or_lt_of_le ha with h0 | h0
  · have : b = 1 := by linarith
    subst h0; simp [this, hv]
  · have := mul_le_mul_of_nonneg_left hv.le hb
    have := mul_lt_mul_of_pos_left hu h0
    have : a * c + b * c = c := by rw [← add_mul, hab, one_mul]
    linarith

/-- If the side straddles the height, its cut is a point of the side. -/
theorem straddle_mem {u v : Pnt} {y : ℝ} (h : (u.2 > y) ≠ (v.2 > y)) :
    (xcut u v y, y) ∈ segment ℝ u v := by
  by_cases hu : u.2 > y <;> by_cases hv : v.2 > y
  · simp [hu, hv] at h
  · exact xcut_mem (by linarith) (Or.inr ⟨not_lt.1 hv, hu.le⟩)
  · exact xcut_mem (by linarith) (Or.inl ⟨not_lt.1 hu, hv.le⟩)
  · simp [hu, hv] at h

theorem sumSides_false {f : Pnt → Pnt → Bool} {es : List (Pnt × Pnt)}
    (h : ∀ e ∈ es, f e.2 e.1 = false) : sumSides f es = false := by
  induction es with
  | nil => rfl
  | cons e es ih =>
    simp only [sumSides_cons]
    rw [h e (by simp), ih (fun d hd => h d (by simp [hd]))]; rfl

theorem alive_far {vs : List Pnt} {q : Pnt} (h : (∀ v ∈ vs, v.1 < q.1) ∨ (∀ v ∈ vs, q.1 < v.1) ∨
    (∀ v ∈ vs, v.2 < q.2) ∨ (∀ v ∈ vs, q.2 < v.2)) : polyAlive vs q = false := by
  rw [polyAlive_sides]
  rcases h with h | h | h | h
  · refine sumSides_false fun e he => ?_
    have hm := mem_sides he
    simp only [crossed_iff, decide_eq_false_iff_not, not_and, not_lt]
    intro hs
    exact (segment_fst_lt (straddle_mem hs) (h _ hm.2) (h _ hm.1)).le
  · rw [← sumSides_tele (fun w => decide (w.2 > q.2)) vs]
    refine sumSides_congr fun e he => ?_
    have hm := mem_sides he
    by_cases hs : (e.2.2 > q.2) ≠ (e.1.2 > q.2)
    · have := lt_segment_fst (straddle_mem hs) (h _ hm.2) (h _ hm.1)
      rw [decide_eq_true ((crossed_iff _ _ _).2 ⟨hs, this⟩)]
      by_cases a : e.2.2 > q.2 <;> by_cases b : e.1.2 > q.2 <;> simp_all
    · rw [decide_eq_false (fun hc => hs hc.1)]
      simp only [ne_eq, not_not] at hs
      simp [hs]
  · refine sumSides_false fun e he => ?_
    have hm := mem_sides he
    simp [crossed_iff, not_lt.2 (h _ hm.1).le, not_lt.2 (h _ hm.2).le]
  · refine sumSides_false fun e he => ?_
    have hm := mem_sides he
    simp [crossed_iff, h _ hm.1, h _ hm.2]

/-- Verdict near a point of one side only. -/
theorem alive_cross_aux {vs : List Pnt} {l r : List (Pnt × Pnt)} {e : Pnt × Pnt} {m : Pnt}
    (hs : sides vs = l ++ e :: r) (ho : ∀ d ∈ l ++ r, m ∉ segment ℝ d.1 d.2) :
    ∀ᶠ q in 𝓝 m, xor (polyAlive vs q) (polyAlive vs m)
      = xor (xor (decide (crossed q e.2 e.1)) (decide (crossed m e.2 e.1)))
          (xor (flips m q e.2) (flips m q e.1)) := by
  filter_upwards [edges_near _ ho] with q hq
  have hall := sumSides_tele (flips m q) vs
  rw [hs] at hall
  simp only [polyAlive_sides, hs]
  simp only [sumSides_append, sumSides_cons] at *
  revert hq hall
  generalize sumSides _ l = a1
  generalize sumSides _ r = a2
  generalize sumSides _ l = a3
  generalize sumSides _ r = a4
  generalize sumSides _ l = a5
  generalize sumSides _ r = a6
  generalize decide (crossed q e.2 e.1) = b1
  generalize decide (crossed m e.2 e.1) = b2
  generalize flips m q e.2 = b3
  generalize flips m q e.1 = b4
  revert a1 a2 a3 a4 a5 a6 b1 b2 b3 b4
  decide

theorem alive_cross {vs : List Pnt} {l r : List (Pnt × Pnt)} {e : Pnt × Pnt} {m : Pnt}
    (hs : sides vs = l ++ e :: r) (hm : m ∈ openSegment ℝ e.1 e.2) (hne : e.1 ≠ e.2)
    (ho : ∀ d ∈ l ++ r, m ∉ segment ℝ d.1 d.2) :
    ∃ t : Pnt → Bool, (∀ q q', side e.1 e.2 q * side e.1 e.2 q' < 0 → t q = !t q') ∧
      ∀ᶠ q in 𝓝 m, xor (polyAlive vs q) (polyAlive vs m) = t q := by
  obtain ⟨⟨u, hu⟩, hv⟩ : (∃ u, u = e.1) ∧ ∃ v, v = e.2 := ⟨⟨_, rfl⟩, ⟨_, rfl⟩⟩
  obtain ⟨v, hv⟩ := hv
  have key := alive_cross_aux hs ho
  rw [← hu, ← hv] at key hm hne ⊢
  obtain ⟨a, b, ha, hb, hab, rfl⟩ := hm
  have hb' : b = 1 - a := by linarith
  subst hb'
  by_cases h2 : u.2 = v.2
  · -- horizontal side
    have h1 : u.1 ≠ v.1 := fun h => hne (Prod.ext h h2)
    refine ⟨fun q => decide (q.2 < u.2), ?_, ?_⟩
    · intro q q' hq
      simp only [side, h2, sub_self, zero_mul, sub_zero] at hq
      have : (q.2 - v.2) * (q'.2 - v.2) < 0 := by
        have : (v.1 - u.1) ^ 2 * ((q.2 - v.2) * (q'.2 - v.2)) < 0 := by linarith
        by_contra hc
        exact absurd this (not_lt.2 (mul_nonneg (sq_nonneg _) (not_lt.1 hc)))
      rw [h2]
      rcases mul_neg_iff.1 this with ⟨h3, h4⟩ | ⟨h3, h4⟩
      · simp [not_lt.2 (by linarith : v.2 ≤ q.2), (by linarith : q'.2 < v.2)]
      · simp [(by linarith : q.2 < v.2), (by linarith : v.2 ≤ q'.2)]
    · filter_upwards [key] with q hq
      rw [hq]
      have hm2 : (a • u + (1 - a) • v).2 = u.2 := by
        simp only [Prod.snd_add, Prod.smul_snd, smul_eq_mul, h2]; ring
      have hm1 : (a • u + (1 - a) • v).1 = a * u.1 + (1 - a) * v.1 := rfl
      simp only [crossed_iff, flips, hm2, hm1, ← h2, ne_eq, not_true_eq_false, false_and,
        decide_false, Bool.xor_self, Bool.false_xor, gt_iff_lt, lt_irrefl]
      rcases lt_or_gt_of_ne h1 with h3 | h3
      · have c1 : a * u.1 + (1 - a) * v.1 < v.1 := by nlinarith
        have c2 : ¬ a * u.1 + (1 - a) * v.1 < u.1 := not_lt.2 (by nlinarith)
        simp [c1, c2]
      · have c1 : ¬ a * u.1 + (1 - a) * v.1 < v.1 := not_lt.2 (by nlinarith)
        have c2 : a * u.1 + (1 - a) * v.1 < u.1 := by nlinarith
        simp [c1, c2]
  · have hd : u.2 - v.2 ≠ 0 := sub_ne_zero.2 h2
    refine ⟨fun q => decide (q.1 < xcut v u q.2), ?_, ?_⟩
    · intro q q' hq
      have hx : ∀ w : Pnt, xcut v u w.2 - w.1 = side u v w / (v.2 - u.2) := by
        intro w
        have hd' : v.2 - u.2 ≠ 0 := sub_ne_zero.2 (Ne.symm h2)
        simp only [xcut, side]
        rw [show u.2 - v.2 = -(v.2 - u.2) by ring]
        field_simp; ring
      have : (xcut v u q.2 - q.1) * (xcut v u q'.2 - q'.1) < 0 := by
        rw [hx, hx, div_mul_div_comm]
        exact div_neg_of_neg_of_pos hq (mul_self_pos.2 (sub_ne_zero.2 (Ne.symm h2)))
      rcases mul_neg_iff.1 this with ⟨h3, h4⟩ | ⟨h3, h4⟩
      · simp [(by linarith : q.1 < xcut v u q.2), (by linarith : xcut v u q'.2 ≤ q'.1)]
      · simp [(by linarith : xcut v u q.2 ≤ q.1), (by linarith : q'.1 < xcut v u q'.2)]
    · have hm2 : (a • u + (1 - a) • v).2 = a * u.2 + (1 - a) * v.2 := rfl
      have hm1 : (a • u + (1 - a) • v).1 = a * u.1 + (1 - a) * v.1 := rfl
      have hx : xcut v u (a * u.2 + (1 - a) * v.2) = a * u.1 + (1 - a) * v.1 := by
        simp only [xcut]; field_simp; ring
      rcases lt_or_gt_of_ne h2 with h3 | h3
      · have c1 : u.2 < (a • u + (1 - a) • v).2 := by rw [hm2]; nlinarith
        have c2 : (a • u + (1 - a) • v).2 < v.2 := by rw [hm2]; nlinarith
        filter_upwards [key, ev_below c1, ev_above c2] with q hq q1 q2
        rw [hq]
        rw [hm2] at c1 c2
        simp [crossed_iff, flips, not_lt.2 c1.le, c2, not_lt.2 q1.le, q2, hx]
      · have c1 : v.2 < (a • u + (1 - a) • v).2 := by rw [hm2]; nlinarith
        have c2 : (a • u + (1 - a) • v).2 < u.2 := by rw [hm2]; nlinarith
        filter_upwards [key, ev_below c1, ev_above c2] with q hq q1 q2
        rw [hq]
        rw [hm2] at c1 c2
        simp [crossed_iff, flips, not_lt.2 c1.le, c2, not_lt.2 q1.le, q2, hx]

/-! ## The inscribed circle -/

/-- The distance computed for a side is the least distance of its points from the origin. -/
theorem edgeDist_le {u v q : Pnt} (h : q ∈ segment ℝ u v) :
    edgeDistSq u v ≤ q.1 * q.1 + q.2 * q.2 := by
  obtain ⟨a, b, ha, hb, hab, rfl⟩ := h
  have ha' : a = 1 - b := by linarith
  subst ha'
  simp only [Prod.fst_add, Prod.smul_fst, Prod.snd_add, Prod.smul_snd, smul_eq_mul, edgeDistSq]
  obtain ⟨dx, hdx⟩ : ∃ dx, dx = v.1 - u.1 := ⟨_, rfl⟩
  obtain ⟨dy, hdy⟩ : ∃ dy, dy = v.2 - u.2 := ⟨_, rfl⟩
  rw [← hdx, ← hdy]
  have e1 : (1 - b) * u.1 + b * v.1 = u.1 + b * dx := by rw [hdx]; ring
  have e2 : (1 - b) * u.2 + b * v.2 = u.2 + b * dy := by rw [hdy]; ring
  rw [e1, e2]
  by_cases hs : dx * dx + dy * dy > 0
  · rw [if_pos hs]
    obtain ⟨t, ht⟩ : ∃ t, t = -(u.1 * dx + u.2 * dy) / (dx * dx + dy * dy) := ⟨_, rfl⟩
    rw [← ht]
    have ht' : t * (dx * dx + dy * dy) = -(u.1 * dx + u.2 * dy) := by rw [ht]; exact div_mul_cancel₀ _ hs.ne'
    have main : ∀ c : ℝ, 0 ≤ (b - c) * (b + c - 2 * t) →
        (u.1 + c * dx) * (u.1 + c * dx) + (u.2 + c * dy) * (u.2 + c * dy)
          ≤ (u.1 + b * dx) * (u.1 + b * dx) + (u.2 + b * dy) * (u.2 + b * dy) := by
      intro c hc
      have := mul_nonneg hc hs.le
      have e : (b - c) * (b + c - 2 * t) * (dx * dx + dy * dy)
          = (u.1 + b * dx) * (u.1 + b * dx) + (u.2 + b * dy) * (u.2 + b * dy)
            - ((u.1 + c * dx) * (u.1 + c * dx) + (u.2 + c * dy) * (u.2 + c * dy)) := by
        linear_combination (-2 * (b - c)) * ht'
      linarith
    by_cases h0 : t < 0
    · rw [if_pos h0]; exact main 0 (by nlinarith)
    · rw [if_neg h0]
      by_cases h1 : t > 1
      · rw [if_pos h1]; exact main 1 (by nlinarith)
      · rw [if_neg h1]; exact main t (by nlinarith [sq_nonneg (b - t)])
  · rw [if_neg hs]
    have hx : dx = 0 := by nlinarith [mul_self_nonneg dx, mul_self_nonneg dy]
    have hy : dy = 0 := by nlinarith [mul_self_nonneg dx, mul_self_nonneg dy]
    simp [hx, hy]

/-- It is attained. -/
theorem edgeDist_attained (u v : Pnt) :
    ∃ q ∈ segment ℝ u v, edgeDistSq u v = q.1 * q.1 + q.2 * q.2 := by
  by_cases hs : (v.1 - u.1) * (v.1 - u.1) + (v.2 - u.2) * (v.2 - u.2) > 0
  · have go : ∀ t : ℝ, 0 ≤ t → t ≤ 1 → ∃ q ∈ segment ℝ u v,
        (u.1 + t * (v.1 - u.1)) * (u.1 + t * (v.1 - u.1))
          + (u.2 + t * (v.2 - u.2)) * (u.2 + t * (v.2 - u.2)) = q.1 * q.1 + q.2 * q.2 := by
      intro t h0 h1
      refine ⟨(1 - t) • u + t • v, ⟨1 - t, t, by linarith, h0, by ring, rfl⟩, ?_⟩
      simp only [Prod.fst_add, Prod.smul_fst, Prod.snd_add, Prod.smul_snd, smul_eq_mul]; ring
    simp only [edgeDistSq, if_pos hs]
    refine go _ ?_ ?_
    · split_ifs <;> linarith
    · split_ifs <;> linarith
  · exact ⟨u, left_mem_segment _ _ _, by simp only [edgeDistSq, if_neg hs]⟩

/-- The loop takes the least of the distances. -/
theorem innerLoop_spec (f : Pnt) (vs : List Pnt) : ∀ r : Option ℝ, (vs ≠ [] ∨ r ≠ none) →
    ∃ m, innerLoop f vs r = some m ∧
      (∀ x, r = some x → m ≤ x) ∧
      (∀ e ∈ vs.zip (vs.tail ++ [f]), m ≤ edgeDistSq e.1 e.2) ∧
      (r = some m ∨ ∃ e ∈ vs.zip (vs.tail ++ [f]), m = edgeDistSq e.1 e.2) := by
  induction vs with
  | nil =>
    intro r hr
    cases r with
    | none => simp at hr
    | some x => exact ⟨x, rfl, by simp, by simp, Or.inl rfl⟩
  | cons v vs ih =>
    intro r _
    have hz : (v :: vs).zip ((v :: vs).tail ++ [f])
        = (v, vs.headD f) :: vs.zip (vs.tail ++ [f]) := by
      cases vs <;> simp
    rw [hz]
    simp only [innerLoop]
    cases r with
    | none =>
      obtain ⟨m, h1, h2, h3, h4⟩ := ih (some (edgeDistSq v (vs.headD f))) (Or.inr (by simp))
      refine ⟨m, h1, by simp, ?_, ?_⟩
      · intro e he
        rcases List.mem_cons.1 he with rfl | he
        · exact h2 _ rfl
        · exact h3 _ he
      · rcases h4 with h4 | ⟨e, he, h4⟩
        · exact Or.inr ⟨_, List.mem_cons_self .., by simpa using h4.symm⟩
        · exact Or.inr ⟨e, List.mem_cons_of_mem _ he, h4⟩
    | some x =>
      by_cases hx : edgeDistSq v (vs.headD f) < x
      · simp only [if_pos hx]
        obtain ⟨m, h1, h2, h3, h4⟩ := ih (some (edgeDistSq v (vs.headD f))) (Or.inr (by simp))
        have hd := h2 _ rfl
        refine ⟨m, h1, ?_, ?_, ?_⟩
        · rintro _ ⟨⟩; linarith
        · intro e he
          rcases List.mem_cons.1 he with rfl | he
          · exact hd
          · exact h3 _ he
        · rcases h4 with h4 | ⟨e, he, h4⟩
          · exact Or.inr ⟨_, List.mem_cons_self .., by simpa using h4.symm⟩
          · exact Or.inr ⟨e, List.mem_cons_of_mem _ he, h4⟩
      · simp only [if_neg hx]
        obtain ⟨m, h1, h2, h3, h4⟩ := ih (some x) (Or.inr (by simp))
        have hd := h2 _ rfl
        refine ⟨m, h1, ?_, ?_, ?_⟩
        · rintro _ ⟨⟩; exact hd
        · intro e he
          rcases List.mem_cons.1 he with rfl | he
          · exact hd.trans (not_lt.1 hx)
          · exact h3 _ he
        · rcases h4 with h4 | ⟨e, he, h4⟩
          · exact Or.inl h4
          · exact Or.inr ⟨e, List.mem_cons_of_mem _ he, h4⟩

/-- On the CPU the squared radius is the least squared distance of boundary points. -/
theorem inner_le {vs : List Pnt} {q : Pnt} (h : OnBoundary vs q) :
    innerRadiusSq true vs ≤ q.1 * q.1 + q.2 * q.2 := by
  obtain ⟨e, he, hq⟩ := h
  cases vs with
  | nil => simp [sides] at he
  | cons f vs =>
    obtain ⟨m, h1, -, h3, -⟩ := innerLoop_spec f (f :: vs) none (Or.inl (by simp))
    simp only [innerRadiusSq, if_true, h1, Option.getD_some]
    exact (h3 e he).trans (edgeDist_le hq)

theorem inner_attained {vs : List Pnt} (h : vs ≠ []) :
    ∃ q, OnBoundary vs q ∧ innerRadiusSq true vs = q.1 * q.1 + q.2 * q.2 := by
  cases vs with
  | nil => simp at h
  | cons f vs =>
    obtain ⟨m, h1, -, -, h4⟩ := innerLoop_spec f (f :: vs) none (Or.inl (by simp))
    rcases h4 with h4 | ⟨e, he, h4⟩
    · simp at h4
    · obtain ⟨q, hq, hd⟩ := edgeDist_attained e.1 e.2
      refine ⟨q, ⟨e, he, hq⟩, ?_⟩
      simp only [innerRadiusSq, if_true, h1, Option.getD_some, h4, hd]

end

end Verif.Apertures
