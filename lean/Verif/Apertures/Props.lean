import Mathlib.Analysis.Convex.Basic
import Mathlib.Tactic.NormNum
import Verif.Apertures.Lemmas

/-! # C46, C47: apertures kill exactly the particles outside their shape -/

namespace Verif.Apertures

open Classical Topology

noncomputable section

theorem verdict_of {lost : Int} {inside test : Prop} [Decidable test] {p : Pt}
    (h : inside ↔ test) :
    Verdict lost inside p (if test then p else p.kill lost) := by
  by_cases t : test
  · rw [if_pos t]; exact ⟨fun _ => rfl, fun hn => absurd (h.2 t) hn⟩
  · rw [if_neg t]; exact ⟨fun hi => absurd (h.1 hi) t, fun _ => rfl⟩

/-- Rectangle: the particle is lost exactly if it is outside, the boundary counts as inside; with
the flag which switches apertures off nothing happens. -/
theorem C46_rect (e : Rect) (p : Pt) :
    Verdict lostOnAperture (InRect e.minX e.maxX e.minY e.maxY p.x p.y) p (trackRect e false p) ∧
    trackRect e true p = p := by
  refine ⟨?_, rfl⟩
  simp only [trackRect, Bool.false_eq_true, if_false]
  refine verdict_of ?_
  simp only [InRect]; tauto

/-- Longitudinal window. -/
theorem C46_longitudinal (z0 z1 d0 d1 : ℝ) (p : Pt) :
    Verdict lostOnLongCut (InRect z0 z1 d0 d1 p.zeta p.pzeta) p (trackLong z0 z1 d0 d1 p) := by
  simp only [trackLong]
  refine verdict_of ?_
  simp only [InRect]; tauto

/-! ## Ellipses, after any history of changes -/

/-- The half axes which the user asked for: what each call says in words. -/
def axesAfter : ℝ × ℝ → EllOp → ℝ × ℝ
  | (_, b), .setA a => (a, b)
  | (a, _), .setB b => (a, b)
  | _, .setHalfAxes a b => (a, b)
  | _, .setHalfAxesSqu s t => (√s, √t)
  | ab, .fieldASqu _ => ab
  | ab, .fieldBSqu _ => ab

/-- Calls of the interface for the half axes, with squares which are not negative. -/
def Proper : EllOp → Prop
  | .setHalfAxesSqu s t => 0 ≤ s ∧ 0 ≤ t
  | .fieldASqu _ => False
  | .fieldBSqu _ => False
  | _ => True

/-- The half axes given to the constructor. -/
def axisArg (a aSqu : Option ℝ) : ℝ :=
  match a, aSqu with
  | some v, _ => v
  | none, some s => √s
  | none, none => 10 ^ 10

/-- The stored fields are those of the ellipse with these half axes. -/
def Holds (e : Ell) (ab : ℝ × ℝ) : Prop :=
  e.aSqu = ab.1 ^ 2 ∧ e.bSqu = ab.2 ^ 2 ∧ e.abSqu = ab.1 ^ 2 * ab.2 ^ 2

theorem holds_apply {e : Ell} {ab : ℝ × ℝ} (h : Holds e ab) {op : EllOp} (ok : Proper op) :
    Holds (op.apply e) (axesAfter ab op) := by
  obtain ⟨h1, h2, h3⟩ := h
  obtain ⟨a, b⟩ := ab
  cases op with
  | setA a => exact ⟨(pow_two a).symm, h2, by simp only [EllOp.apply, axesAfter, h2]; ring⟩
  | setB b => exact ⟨h1, (pow_two b).symm, by simp only [EllOp.apply, axesAfter, h1]; ring⟩
  | setHalfAxes a b => exact ⟨(pow_two a).symm, (pow_two b).symm, by
      simp only [EllOp.apply, axesAfter]; ring⟩
  | setHalfAxesSqu s t =>
    obtain ⟨hs, ht⟩ := ok
    simp only [Holds, EllOp.apply, axesAfter, Real.sq_sqrt hs, Real.sq_sqrt ht, and_self]
  | fieldASqu v => exact ok.elim
  | fieldBSqu v => exact ok.elim

theorem holds_history {e : Ell} {ab : ℝ × ℝ} (h : Holds e ab) (ops : List EllOp)
    (ok : ∀ op ∈ ops, Proper op) :
    Holds (ops.foldl EllOp.apply e) (ops.foldl axesAfter ab) := by
  induction ops generalizing e ab with
  | nil => exact h
  | cons op ops ih =>
    exact ih (holds_apply h (ok op (by simp))) (fun o ho => ok o (by simp [ho]))

theorem argSqu_eq (a aSqu : Option ℝ) (h : 0 ≤ argSqu a aSqu) :
    argSqu a aSqu = axisArg a aSqu ^ 2 := by
  cases a with
  | some v => simp only [argSqu, axisArg]; ring
  | none =>
    cases aSqu with
    | some s => simp only [argSqu, axisArg] at *; rw [Real.sq_sqrt h]
    | none => simp only [argSqu, axisArg, unlimited]; ring

theorem ellipse_test {e : Ell} {ab : ℝ × ℝ} (h : Holds e ab) (ha : ab.1 ≠ 0) (hb : ab.2 ≠ 0)
    (x y : ℝ) : InEllipse ab.1 ab.2 x y ↔ x * x * e.bSqu + y * y * e.aSqu ≤ e.abSqu := by
  obtain ⟨h1, h2, h3⟩ := h
  have hp : 0 < ab.1 ^ 2 * ab.2 ^ 2 := by positivity
  rw [h1, h2, h3, InEllipse, ← mul_le_mul_iff_left₀ hp]
  have : ((x / ab.1) ^ 2 + (y / ab.2) ^ 2) * (ab.1 ^ 2 * ab.2 ^ 2)
      = x * x * ab.2 ^ 2 + y * y * ab.1 ^ 2 := by field_simp
  rw [this, one_mul]

/-- Ellipse: whatever the constructor was given and whatever half axes were set since, a particle
is lost exactly if it is outside the ellipse with the half axes asked for. -/
theorem C46_ellipse {a b aSqu bSqu : Option ℝ} {e : Ell} (new : newEllipse a b aSqu bSqu = some e)
    (ops : List EllOp) (ok : ∀ op ∈ ops, Proper op) (p : Pt) :
    let ab := ops.foldl axesAfter (axisArg a aSqu, axisArg b bSqu)
    let e' := ops.foldl EllOp.apply e
    ab.1 ≠ 0 → ab.2 ≠ 0 →
    Verdict lostOnAperture (InEllipse ab.1 ab.2 p.x p.y) p (trackEllipse e' false p) ∧
    trackEllipse e' true p = p := by
  intro ab e' ha hb
  have h0 : Holds e (axisArg a aSqu, axisArg b bSqu) := by
    unfold newEllipse at new
    split_ifs at new with hc
    cases new
    exact ⟨argSqu_eq _ _ hc.1.le, argSqu_eq _ _ hc.2.le, by
      rw [← argSqu_eq _ _ hc.1.le, ← argSqu_eq _ _ hc.2.le]⟩
  have h := holds_history h0 ops ok
  refine ⟨?_, rfl⟩
  simp only [trackEllipse, Bool.false_eq_true, if_false]
  exact verdict_of (ellipse_test h ha hb p.x p.y)

/-- The constructor accepts exactly ellipses with half axes which are not zero. -/
theorem C46_ellipse_new (a b aSqu bSqu : Option ℝ) (ha : ∀ s, aSqu = some s → 0 ≤ s)
    (hb : ∀ s, bSqu = some s → 0 ≤ s) :
    (∃ e, newEllipse a b aSqu bSqu = some e) ↔ axisArg a aSqu ≠ 0 ∧ axisArg b bSqu ≠ 0 := by
  have pos : ∀ a aSqu : Option ℝ, (∀ s, aSqu = some s → 0 ≤ s) → 0 ≤ argSqu a aSqu := by
    intro a s h
    cases a with
    | some v => exact mul_self_nonneg v
    | none =>
      cases s with
      | some s => exact h s rfl
      | none => exact mul_self_nonneg _
  have key : ∀ a aSqu : Option ℝ, (∀ s, aSqu = some s → 0 ≤ s) →
      (argSqu a aSqu > 0 ↔ axisArg a aSqu ≠ 0) := by
    intro a s h
    rw [argSqu_eq _ _ (pos a s h)]
    exact pow_pos_iff_ne _
  unfold newEllipse
  rw [← key a aSqu ha, ← key b bSqu hb]
  split_ifs with hc
  · simp only [Option.some.injEq, exists_eq', true_iff]; exact hc
  · simp only [exists_false, false_iff]; exact hc
where
  pow_pos_iff_ne (x : ℝ) : x ^ 2 > 0 ↔ x ≠ 0 := sq_pos_iff

/-- Rectangle and ellipse: lost exactly if outside of one of them. -/
theorem C46_rectellipse {maxX maxY : ℝ} {a b aSqu bSqu : Option ℝ} {e : RectEll}
    (new : newRectEllipse maxX maxY a b aSqu bSqu = some e)
    (ops : List EllOp) (ok : ∀ op ∈ ops, Proper op) (p : Pt) :
    let ab := ops.foldl axesAfter (axisArg a aSqu, axisArg b bSqu)
    let e' := { e with ell := ops.foldl EllOp.apply e.ell }
    ab.1 ≠ 0 → ab.2 ≠ 0 →
    Verdict lostOnAperture
      (InRect (-maxX) maxX (-maxY) maxY p.x p.y ∧ InEllipse ab.1 ab.2 p.x p.y) p
      (trackRectEllipse e' false p) ∧
    trackRectEllipse e' true p = p := by
  intro ab e' ha hb
  have h0 : Holds e.ell (axisArg a aSqu, axisArg b bSqu) ∧ e.maxX = maxX ∧ e.maxY = maxY := by
    unfold newRectEllipse at new
    split_ifs at new with hc
    cases new
    push Not at hc
    exact ⟨⟨argSqu_eq _ _ hc.2.2.1, argSqu_eq _ _ hc.2.2.2, by
      rw [← argSqu_eq _ _ hc.2.2.1, ← argSqu_eq _ _ hc.2.2.2]⟩, rfl, rfl⟩
  have h := holds_history h0.1 ops ok
  refine ⟨?_, rfl⟩
  simp only [trackRectEllipse, Bool.false_eq_true, if_false]
  refine verdict_of ?_
  rw [ellipse_test h ha hb]
  simp only [e', InRect, h0.2.1, h0.2.2]
  tauto

/-- **The stored squares are attributes of their own.** After `el.a_squ = 4` on the circle of
radius one, a particle at `x = 1.5` is inside the ellipse which the object reports (`a = 2`,
`b = 1`), but it is lost, because the cached product was not updated. -/
theorem C46_field_violated : ∃ (e : Ell) (p : Pt), newEllipse (some 1) (some 1) none none = some e ∧
    InEllipse (√(EllOp.apply e (.fieldASqu 4)).aSqu) (√(EllOp.apply e (.fieldASqu 4)).bSqu) p.x p.y ∧
    (trackEllipse (EllOp.apply e (.fieldASqu 4)) false p).state = lostOnAperture ∧
    p.state = 1 := by
  refine ⟨⟨1, 1, 1⟩, ⟨3 / 2, 0, 0, 0, 1, fun _ => 0⟩, ?_, ?_, ?_, rfl⟩
  · norm_num [newEllipse, argSqu]
  · have h4 : √(4 : ℝ) = 2 := by
      rw [show (4 : ℝ) = 2 ^ 2 by norm_num]; exact Real.sqrt_sq (by norm_num)
    simp only [EllOp.apply, InEllipse, h4]
    norm_num
  · norm_num [trackEllipse, EllOp.apply, Pt.kill]

/-- **Degenerate ellipse.** `LimitRectEllipse` accepts a half axis zero, and then keeps particles
at any height on the axis although the other half axis is one. -/
theorem C46_degenerate_violated : ∃ (e : RectEll) (p : Pt),
    newRectEllipse 10 10 (some 0) (some 1) none none = some e ∧ p.y = 5 ∧
    trackRectEllipse e false p = p := by
  refine ⟨⟨10, 10, ⟨0, 1, 0⟩⟩, ⟨0, 5, 0, 0, 1, fun _ => 0⟩, ?_, rfl, ?_⟩
  · norm_num [newRectEllipse, argSqu]
  · norm_num [trackRectEllipse]

/-! ## Racetrack -/

theorem race_axis {lo hi a x : ℝ} (hlh : lo + a ≤ hi - a) (h1 : lo ≤ x)
    (h2 : x ≤ hi) : ∃ c u, (lo + a ≤ c ∧ c ≤ hi - a) ∧ x = c + a * u ∧ u ^ 2 ≤ 1 ∧
      ((x < lo + a ∧ c = lo + a ∧ 0 < a) ∨ (x > hi - a ∧ c = hi - a ∧ 0 < a) ∨
        (lo + a ≤ x ∧ x ≤ hi - a ∧ u = 0)) := by
  rcases lt_or_ge x (lo + a) with h | h
  · have hp : 0 < a := by linarith
    refine ⟨lo + a, (x - (lo + a)) / a, ⟨le_rfl, hlh⟩, by field_simp; ring, ?_,
      Or.inl ⟨h, rfl, hp⟩⟩
    rw [sq_le_one_iff_abs_le_one, abs_le]
    constructor
    · rw [le_div_iff₀ hp]; linarith
    · rw [div_le_iff₀ hp]; linarith
  · rcases lt_or_ge (hi - a) x with h' | h'
    · have hp : 0 < a := by linarith
      refine ⟨hi - a, (x - (hi - a)) / a, ⟨hlh, le_rfl⟩, by field_simp; ring, ?_,
        Or.inr (Or.inl ⟨h', rfl, hp⟩)⟩
      rw [sq_le_one_iff_abs_le_one, abs_le]
      constructor
      · rw [le_div_iff₀ hp]; linarith
      · rw [div_le_iff₀ hp]; linarith
    · exact ⟨x, 0, ⟨h, h'⟩, by ring, by norm_num, Or.inr (Or.inr ⟨h, h', rfl⟩)⟩

theorem corner_iff {e : Race} {dx dy u v : ℝ} (ha : 0 < e.a) (hb : 0 < e.b) (hx : dx = e.a * u)
    (hy : dy = e.b * v) : corner e dx dy ↔ u ^ 2 + v ^ 2 ≤ 1 := by
  have hp : 0 < e.a ^ 2 * e.b ^ 2 := by positivity
  rw [corner, hx, hy, show e.a * u * (e.a * u) * e.b * e.b + e.b * v * (e.b * v) * e.a * e.a
    = (u ^ 2 + v ^ 2) * (e.a ^ 2 * e.b ^ 2) by ring,
    show e.a * e.a * e.b * e.b = 1 * (e.a ^ 2 * e.b ^ 2) by ring]
  exact mul_le_mul_iff_left₀ hp

theorem race_iff {e : Race} (ha : 0 ≤ e.a) (hb : 0 ≤ e.b) (hx : e.minX + e.a ≤ e.maxX - e.a)
    (hy : e.minY + e.b ≤ e.maxY - e.b) (x y : ℝ) :
    InRounded e.minX e.maxX e.minY e.maxY e.a e.b x y ↔ raceAlive e x y := by
  constructor
  · rintro ⟨cx, cy, u, v, ⟨⟨x1, x2⟩, y1, y2⟩, huv, rfl, rfl⟩
    have hu : |u| ≤ 1 := by
      rw [← sq_le_one_iff_abs_le_one]; nlinarith [sq_nonneg v]
    have hv : |v| ≤ 1 := by
      rw [← sq_le_one_iff_abs_le_one]; nlinarith [sq_nonneg u]
    rw [abs_le] at hu hv
    have au1 : e.a * u ≤ e.a := by nlinarith
    have au2 : -e.a ≤ e.a * u := by nlinarith
    have bv1 : e.b * v ≤ e.b := by nlinarith
    have bv2 : -e.b ≤ e.b * v := by nlinarith
    unfold raceAlive
    rw [if_pos ⟨by linarith, by linarith, by linarith, by linarith⟩]
    have key : ∀ dx dy : ℝ, dx ^ 2 ≤ (e.a * u) ^ 2 → dy ^ 2 ≤ (e.b * v) ^ 2 → corner e dx dy := by
      intro dx dy h1 h2
      unfold corner
      have h3 := mul_le_mul_of_nonneg_right h1 (sq_nonneg e.b)
      have h4 := mul_le_mul_of_nonneg_right h2 (sq_nonneg e.a)
      have h5 := mul_le_mul_of_nonneg_right huv (mul_nonneg (sq_nonneg e.a) (sq_nonneg e.b))
      nlinarith
    have up : ∀ d w : ℝ, 0 ≤ d → d ≤ w → d ^ 2 ≤ w ^ 2 := fun d w h1 h2 => by nlinarith
    have dn : ∀ d w : ℝ, d ≤ 0 → w ≤ d → d ^ 2 ≤ w ^ 2 := fun d w h1 h2 => by nlinarith
    simp only
    split_ifs with c1 c2 c3 c4
    · exact key _ _ (up _ _ (by linarith [c1.1]) (by linarith)) (up _ _ (by linarith [c1.2]) (by linarith))
    · exact key _ _ (dn _ _ (by linarith [c2.1]) (by linarith)) (up _ _ (by linarith [c2.2]) (by linarith))
    · exact key _ _ (dn _ _ (by linarith [c3.1]) (by linarith)) (dn _ _ (by linarith [c3.2]) (by linarith))
    · exact key _ _ (up _ _ (by linarith [c4.1]) (by linarith)) (dn _ _ (by linarith [c4.2]) (by linarith))
  · intro h
    unfold raceAlive at h
    split at h
    · rename_i hr
      obtain ⟨cx, u, hcx, ex, hu, xc⟩ := race_axis hx hr.1 hr.2.1
      obtain ⟨cy, v, hcy, ey, hv, yc⟩ := race_axis hy hr.2.2.1 hr.2.2.2
      refine ⟨cx, cy, u, v, ⟨hcx, hcy⟩, ?_, ex, ey⟩
      rcases xc with ⟨x1, x2, x3⟩ | ⟨x1, x2, x3⟩ | ⟨x1, x2, rfl⟩
      · rcases yc with ⟨y1, y2, y3⟩ | ⟨y1, y2, y3⟩ | ⟨y1, y2, rfl⟩
        · simp only at h
          rw [if_neg (by intro hc; linarith [hc.1]), if_neg (by intro hc; linarith [hc.2]),
            if_pos ⟨x1, y1⟩] at h
          exact (corner_iff x3 y3 (by rw [ex, x2]; ring) (by rw [ey, y2]; ring)).1 h
        · simp only at h
          rw [if_neg (by intro hc; linarith [hc.1]), if_pos ⟨x1, y1⟩] at h
          exact (corner_iff x3 y3 (by rw [ex, x2]; ring) (by rw [ey, y2]; ring)).1 h
        · nlinarith
      · rcases yc with ⟨y1, y2, y3⟩ | ⟨y1, y2, y3⟩ | ⟨y1, y2, rfl⟩
        · simp only at h
          rw [if_neg (by intro hc; linarith [hc.2]), if_neg (by intro hc; linarith [hc.1]),
            if_neg (by intro hc; linarith [hc.1]), if_pos ⟨x1, y1⟩] at h
          exact (corner_iff x3 y3 (by rw [ex, x2]; ring) (by rw [ey, y2]; ring)).1 h
        · simp only at h
          rw [if_pos ⟨x1, y1⟩] at h
          exact (corner_iff x3 y3 (by rw [ex, x2]; ring) (by rw [ey, y2]; ring)).1 h
        · nlinarith
      · nlinarith
    · exact h.elim

/-- Racetrack: lost exactly if outside the rectangle with rounded corners, for everything which the
constructor accepts, including corners which are not rounded. -/
theorem C46_racetrack {minX maxX minY maxY a b : ℝ} {e : Race}
    (new : newRacetrack minX maxX minY maxY a b = some e) (p : Pt) :
    Verdict lostOnAperture (InRounded minX maxX minY maxY a b p.x p.y) p
      (trackRacetrack e false p) ∧ trackRacetrack e true p = p := by
  unfold newRacetrack at new
  split_ifs at new with h1 h2
  cases new
  push Not at h2
  refine ⟨?_, rfl⟩
  simp only [trackRacetrack, Bool.false_eq_true, if_false]
  exact verdict_of (race_iff (e := ⟨minX, maxX, minY, maxY, a, b⟩) h1.1 h1.2.1
    (by simp only; linarith [h2.1]) (by simp only; linarith [h2.2]) p.x p.y)

/-- With `a = 0` or `b = 0` the rounded rectangle is the rectangle. -/
theorem C46_racetrack_square {minX maxX minY maxY b : ℝ} (hb : 0 ≤ b) (hy : minY + b ≤ maxY - b)
    (x y : ℝ) : InRounded minX maxX minY maxY 0 b x y ↔ InRect minX maxX minY maxY x y := by
  constructor
  · rintro ⟨cx, cy, u, v, ⟨⟨x1, x2⟩, y1, y2⟩, huv, rfl, rfl⟩
    have hv : |v| ≤ 1 := by
      rw [← sq_le_one_iff_abs_le_one]; nlinarith [sq_nonneg u]
    rw [abs_le] at hv
    exact ⟨⟨by linarith, by linarith⟩, by nlinarith, by nlinarith⟩
  · rintro ⟨⟨x1, x2⟩, y1, y2⟩
    obtain ⟨cy, v, hcy, ey, hv, -⟩ := race_axis hy y1 y2
    exact ⟨x, cy, 0, v, ⟨⟨by linarith, by linarith⟩, hcy⟩, by simpa using hv, by ring, ey⟩

/-! ## Polygon -/

/-- The even-odd loop computes the interior of the polygon, whatever the polygon (not convex,
clockwise or not, crossing itself) on all points which are not on its boundary. -/
theorem C47_loop (vs : List Pnt) : IsInterior vs (fun q => polyAlive vs q = true) where
  far q h := by simp [alive_far h]
  connected S hS hb q hq r hr := by rw [alive_connected hS hb hq hr]
  cross l r e m hs hm hne ho := by
    obtain ⟨t, ht, hev⟩ := alive_cross hs hm hne ho
    refine ⟨_, hev, fun q hq q' hq' hside => ?_⟩
    have h1 := ht q q' hside
    simp only [Set.mem_ofPred_eq] at hq hq'
    rw [h1, ← hq'] at hq
    revert hq
    cases polyAlive vs q <;> cases polyAlive vs q' <;> cases polyAlive vs m <;> simp

/-- The disc of the shortcut, without its rim, as a connected set. -/
theorem disc_preconnected (r : ℝ) : IsPreconnected {q : Pnt | q.1 * q.1 + q.2 * q.2 < r} := by
  refine Convex.isPreconnected (s := {q : Pnt | q.1 * q.1 + q.2 * q.2 < r}) ?_
  intro p hp q hq a b ha hb hab
  simp only [Set.mem_ofPred_eq, Prod.fst_add, Prod.smul_fst, Prod.snd_add, Prod.smul_snd,
    smul_eq_mul] at *
  have hb' : b = 1 - a := by linarith
  subst hb'
  have h1 := mul_nonneg (mul_nonneg ha hb) (add_nonneg (sq_nonneg (p.1 - q.1)) (sq_nonneg (p.2 - q.2)))
  have h2 : a * (p.1 * p.1 + p.2 * p.2) + (1 - a) * (q.1 * q.1 + q.2 * q.2) < r := by
    rcases eq_or_lt_of_le ha with h0 | h0
    · subst h0; linarith
    · have := mul_lt_mul_of_pos_left hp h0
      have := mul_le_mul_of_nonneg_left hq.le hb
      have : a * r + (1 - a) * r = r := by ring
      linarith
  nlinarith

/-- All points in the disc, and those on its rim which are not on the boundary, have the verdict of
the origin. -/
theorem alive_disc {vs : List Pnt} {q : Pnt} (hb : ¬ OnBoundary vs q)
    (hq : ¬ q.1 * q.1 + q.2 * q.2 > innerRadiusSq true vs) :
    polyAlive vs q = polyAlive vs (0, 0) := by
  refine alive_connected (S := segment ℝ (0, 0) q) (convex_segment _ _).isPreconnected ?_
    (right_mem_segment _ _ _) (left_mem_segment _ _ _)
  intro r hr hbr
  have hle := inner_le hbr
  obtain ⟨a, b, ha, hb', hab, rfl⟩ := hr
  simp only [Prod.fst_add, Prod.smul_fst, Prod.snd_add, Prod.smul_snd, smul_eq_mul, mul_zero,
    zero_add] at hle
  by_cases h1 : b = 1
  · have : a = 0 := by linarith
    subst h1; subst this
    simp at hbr; exact hb hbr
  · have hb1 : b < 1 := lt_of_le_of_ne (by linarith) h1
    have hpos : 0 ≤ q.1 * q.1 + q.2 * q.2 := add_nonneg (mul_self_nonneg _) (mul_self_nonneg _)
    have h0 : q.1 * q.1 + q.2 * q.2 = 0 := by
      by_contra hne
      have hp : 0 < q.1 * q.1 + q.2 * q.2 := lt_of_le_of_ne hpos (Ne.symm hne)
      nlinarith [mul_nonneg hb' (sub_nonneg.2 hb1.le), mul_lt_mul_of_pos_right hb1 hp]
    have hx : q.1 = 0 := by nlinarith [mul_self_nonneg q.1, mul_self_nonneg q.2]
    have hy : q.2 = 0 := by nlinarith [mul_self_nonneg q.1, mul_self_nonneg q.2]
    have hz : q = (0, 0) := Prod.ext hx hy
    subst hz
    apply hb; convert hbr using 1; ext <;> simp

/-- **Polygon, when the origin is inside.** On every context a particle which is not exactly on the
boundary is lost exactly if it is outside of the polygon; nothing else changes. What is missing:
polygons without the origin in the inside, for which the claim is false
(`C47_shortcut_violated`). -/
theorem C47_polygon_partial (cpu : Bool) {vs : List Pnt}
    (origin : polyAlive vs (0, 0) = true) {p : Pt} (hb : ¬ OnBoundary vs (p.x, p.y)) :
    ∃ inside : Pnt → Prop, IsInterior vs inside ∧
      Verdict lostOnAperture (inside (p.x, p.y)) p (trackPolygon cpu vs false p) ∧
      trackPolygon cpu vs true p = p := by
  refine ⟨_, C47_loop vs, ?_, rfl⟩
  simp only [trackPolygon, Bool.false_eq_true, if_false]
  by_cases h : p.x * p.x + p.y * p.y > innerRadiusSq cpu vs
  · rw [if_pos h]; exact verdict_of Iff.rfl
  · rw [if_neg h]
    have : polyAlive vs (p.x, p.y) = true := by
      cases cpu with
      | true => rw [alive_disc hb h]; exact origin
      | false =>
        simp only [innerRadiusSq, Bool.false_eq_true, if_false, not_lt] at h
        have hx : p.x = 0 := by nlinarith [mul_self_nonneg p.x, mul_self_nonneg p.y]
        have hy : p.y = 0 := by nlinarith [mul_self_nonneg p.x, mul_self_nonneg p.y]
        rw [hx, hy]; exact origin
    exact ⟨fun _ => rfl, fun hn => absurd this hn⟩

/-- Away from the disc around the origin the verdict is right for every polygon. -/
theorem C47_outside_disc (cpu : Bool) (vs : List Pnt) (p : Pt)
    (h : ∀ q, OnBoundary vs q → q.1 ^ 2 + q.2 ^ 2 < p.x ^ 2 + p.y ^ 2 ∨ cpu = false)
    (hne : vs ≠ []) (h0 : p.x ≠ 0 ∨ p.y ≠ 0) :
    Verdict lostOnAperture (polyAlive vs (p.x, p.y) = true) p (trackPolygon cpu vs false p) := by
  simp only [trackPolygon, Bool.false_eq_true, if_false]
  rw [if_pos]
  · exact verdict_of Iff.rfl
  · cases cpu with
    | true =>
      obtain ⟨q, hq, hr⟩ := inner_attained hne
      rcases h q hq with h | h
      · rw [hr]; nlinarith
      · simp at h
    | false =>
      simp only [innerRadiusSq, Bool.false_eq_true, if_false]
      rcases h0 with h0 | h0
      · exact add_pos_of_pos_of_nonneg (mul_self_pos.2 h0) (mul_self_nonneg _)
      · exact add_pos_of_nonneg_of_pos (mul_self_nonneg _) (mul_self_pos.2 h0)

/-- The square between one and three in both planes. -/
def offSquare : List Pnt := [(1, 1), (3, 1), (3, 3), (1, 3)]

/-- **The shortcut is wrong for polygons which do not contain the origin.** The particle at
`(1/2, 0)` is left of all vertices of the square `[1, 3] × [1, 3]`, so it is outside of every
interior of it. On a GPU it is lost, on the CPU it is kept. -/
theorem C47_shortcut_violated : ∃ p : Pt, p.state = 1 ∧
    (∀ inside, IsInterior offSquare inside → ¬ inside (p.x, p.y)) ∧
    (trackPolygon false offSquare false p).state = lostOnAperture ∧
    trackPolygon true offSquare false p = p := by
  refine ⟨⟨1 / 2, 0, 0, 0, 1, fun _ => 0⟩, rfl, ?_, ?_, ?_⟩
  · intro inside h
    refine h.far _ (Or.inr (Or.inl ?_))
    simp only [offSquare, List.mem_cons, List.not_mem_nil, or_false, forall_eq_or_imp, forall_eq]
    norm_num
  · simp only [trackPolygon, Bool.false_eq_true, if_false]
    have : polyAlive offSquare (1 / 2, 0) = false := by
      refine alive_far (Or.inr (Or.inl ?_))
      simp only [offSquare, List.mem_cons, List.not_mem_nil, or_false, forall_eq_or_imp, forall_eq]
      norm_num
    rw [this]
    norm_num [innerRadiusSq, Pt.kill]
  · simp only [trackPolygon, Bool.false_eq_true, if_false]
    rw [if_neg]
    norm_num [innerRadiusSq, offSquare, innerLoop, edgeDistSq]

/-- **All particles in the disc are kept on the CPU**, wherever the polygon is. -/
theorem C47_disc_kept (vs : List Pnt) (p : Pt)
    (h : ∀ q, OnBoundary vs q → p.x ^ 2 + p.y ^ 2 < q.1 ^ 2 + q.2 ^ 2) (hne : vs ≠ []) :
    trackPolygon true vs false p = p := by
  simp only [trackPolygon, Bool.false_eq_true, if_false]
  rw [if_neg]
  obtain ⟨q, hq, hr⟩ := inner_attained hne
  have := h q hq
  rw [hr]; nlinarith

/-- The area is the sum over the sides of the oriented areas of the triangles with any given
point (shoelace formula), so it does not depend on where the origin is. -/
theorem C47_area (vs : List Pnt) (o : Pnt) :
    signedArea vs = ((sides vs).map (fun e => side o e.1 e.2 / 2)).sum := by
  cases vs with
  | nil => simp [signedArea, closed, sides]
  | cons f vs =>
    have hz : (closed (f :: vs)).zip (closed (f :: vs)).tail = sides (f :: vs) := by
      simp only [closed, List.head?_cons, Option.toList_some, List.cons_append, List.tail_cons,
        sides]
      rw [← List.cons_append]
      exact zip_extra (f :: vs) (vs ++ [f]) f (by simp)
    rw [signedArea, hz]
    have tele : ∀ (g : Pnt → ℝ), ((sides (f :: vs)).map (fun e => g e.2 - g e.1)).sum = 0 :=
      fun g => tele_aux g f vs
    have e1 : (sides (f :: vs)).map (fun e => side o e.1 e.2 / 2)
        = (sides (f :: vs)).map (fun e => -(0.5) * ((e.2.2 + e.1.2) * (e.2.1 - e.1.1))
          + (((fun w : Pnt => (w.1 * w.2 - o.1 * w.2 + o.2 * w.1) / 2) e.2)
            - ((fun w : Pnt => (w.1 * w.2 - o.1 * w.2 + o.2 * w.1) / 2) e.1))) := by
      refine List.map_congr_left fun e _ => ?_
      simp only [side]; ring
    rw [e1, sum_map_add, tele (fun w => (w.1 * w.2 - o.1 * w.2 + o.2 * w.1) / 2), add_zero,
      sum_map_mul]
where
  zip_extra (l m : List Pnt) (a : Pnt) (h : l.length = m.length) : (l ++ [a]).zip m = l.zip m := by
    induction l generalizing m with
    | nil => cases m with
      | nil => rfl
      | cons _ _ => simp at h
    | cons x l ih => cases m with
      | nil => simp at h
      | cons y m => simp [ih m (by simpa using h)]
  tele_aux (g : Pnt → ℝ) (f : Pnt) (vs : List Pnt) :
      ((sides (f :: vs)).map (fun e => g e.2 - g e.1)).sum = 0 := by
    have : ∀ (l : List Pnt) (a z : Pnt),
        (((a :: l).zip (l ++ [z])).map (fun e => g e.2 - g e.1)).sum = g z - g a := by
      intro l
      induction l with
      | nil => intro a z; simp
      | cons b l ih => intro a z; simp [ih]
    rw [sides, this]; ring
  sum_map_add (l : List (Pnt × Pnt)) (f g : Pnt × Pnt → ℝ) :
      (l.map (fun e => f e + g e)).sum = (l.map f).sum + (l.map g).sum := by
    induction l with
    | nil => simp
    | cons a l ih => simp [ih]; ring
  sum_map_mul (l : List (Pnt × Pnt)) (c : ℝ) (f : Pnt × Pnt → ℝ) :
      c * (l.map f).sum = (l.map (fun e => c * f e)).sum := by
    induction l with
    | nil => simp
    | cons a l ih => simp [mul_add, ih]

/-- **The centroid is always reported as the origin.** -/
theorem C47_centroid_violated (vs : List Pnt) : centroid vs = (0, 0) := by
  have zip_self : ∀ (m : List (ℝ × ℝ)), ∀ e ∈ m.zip m, e.1 = e.2 := by
    intro m
    induction m with
    | nil => simp
    | cons a m ih =>
      intro e he
      rcases List.mem_cons.1 he with rfl | he
      · rfl
      · exact ih e he
  have z : ∀ l : List ℝ, ((l.zip l.tail).zip (l.zip l.tail)).map
      (fun e : (ℝ × ℝ) × ℝ × ℝ => (e.1.1 + e.1.2) * (e.1.1 * e.2.2 - e.1.2 * e.2.1))
      = ((l.zip l.tail).zip (l.zip l.tail)).map (fun _ => 0) := by
    intro l
    refine List.map_congr_left fun e he => ?_
    rw [zip_self _ e he]; ring
  have z' : ∀ l : List ℝ, ((l.zip l.tail).zip (l.zip l.tail)).map
      (fun e : (ℝ × ℝ) × ℝ × ℝ => (e.2.1 + e.2.2) * (e.2.1 * e.1.2 - e.2.2 * e.1.1))
      = ((l.zip l.tail).zip (l.zip l.tail)).map (fun _ => 0) := by
    intro l
    refine List.map_congr_left fun e he => ?_
    rw [zip_self _ e he]; ring
  simp only [centroid, z, z']
  simp

/-! ## Instances of the hypotheses -/

/-- A history for `C46_ellipse`: a circle of radius 2, then `a = 3`, then both squares. -/
example : ∃ e, newEllipse (some 2) none none (some 4) = some e ∧
    (∀ op ∈ [EllOp.setA 3, .setHalfAxesSqu 9 16], Proper op) ∧
    ([EllOp.setA 3, .setHalfAxesSqu 9 16].foldl axesAfter
      (axisArg (some 2) none, axisArg none (some 4))).1 ≠ 0 := by
  refine ⟨⟨4, 4, 16⟩, ?_, ?_, ?_⟩
  · norm_num [newEllipse, argSqu]
  · simp [Proper]
  · simp [axesAfter]

/-- A racetrack, with a point in a rounded corner which is lost although it is in the rectangle. -/
example : ∃ e, newRacetrack (-2) 2 (-1) 1 1 (1 / 2) = some e ∧
    InRect (-2) 2 (-1) 1 (19 / 10) (9 / 10) ∧ ¬ raceAlive e (19 / 10) (9 / 10) := by
  refine ⟨⟨-2, 2, -1, 1, 1, 1 / 2⟩, ?_, ?_, ?_⟩
  · norm_num [newRacetrack]
  · norm_num [InRect]
  · norm_num [raceAlive, corner]

/-- An arrow shape which is not convex, around the origin. -/
def arrow : List Pnt := [(-2, -2), (2, 0), (-2, 2), (-1, 0)]

example : polyAlive arrow (0, 0) = true ∧ polyAlive arrow (-3 / 2, 1 / 4) = false ∧
    ¬ OnBoundary arrow (-3 / 2, 1 / 4) := by
  refine ⟨?_, ?_, ?_⟩
  · norm_num [polyAlive, arrow, polyLoop, crossed]
  · norm_num [polyAlive, arrow, polyLoop, crossed]
  · rintro ⟨e, he, a, b, ha, hb, hab, h⟩
    have h1 := congrArg Prod.fst h
    have h2 := congrArg Prod.snd h
    simp only [Prod.fst_add, Prod.smul_fst, Prod.snd_add, Prod.smul_snd, smul_eq_mul] at h1 h2
    simp only [sides, arrow, List.cons_append, List.nil_append, List.zip_cons_cons,
      List.zip_nil_right, List.mem_cons, List.not_mem_nil, or_false] at he
    rcases he with rfl | rfl | rfl | rfl <;> simp only at h1 h2 <;> linarith

/-- The upper side of the arrow, crossed at one point and met by no other side there. -/
example : sides arrow = [((-2, -2), (2, 0))] ++ ((2, 0), (-2, 2)) ::
    [((-2, 2), (-1, 0)), ((-1, 0), (-2, -2))] ∧
    ((0, 1) : Pnt) ∈ openSegment ℝ ((2, 0) : Pnt) (-2, 2) := by
  refine ⟨by simp [sides, arrow], 1 / 2, 1 / 2, by norm_num, by norm_num, by norm_num, ?_⟩
  ext <;> norm_num

end

end Verif.Apertures
