import Verif.AperModel.Limits
import Verif.AperModel.ShapesProps
import Mathlib.Analysis.SpecialFunctions.Trigonometric.Arctan

/-!
C169: an aperture model made from the limit elements of a line has at each of them the region which survives tracking.
C170: the pipe of an associated aperture is that of the element.
C171: an aperture of MAD-X is the same shape in the aperture model and in the line.
-/
namespace Verif.AperModel.Limits
open Verif.Apertures Verif.AperModel.Shapes Verif.AperModel.Poses

/-! ## C169 -/

/-- The aperture model lets a beam at `(x, y)` in the plane of the element pass. -/
def InModel (l : Limit) (m : Frames.Mis) (x y : ℝ) : Prop :=
  ∃ q : P, Inside (profileOf l).1 q.1 q.2 ∧ place (position l m) q = ⟨x, y, 0⟩

/-- What the constructors of the elements guarantee (C46). -/
def Made : Limit → Prop
  | .rect _ => True
  | .ellipse e => (0 < e.aSqu ∧ 0 < e.bSqu) ∧ e.abSqu = e.aSqu * e.bSqu
  | .rectEllipse e => (0 < e.ell.aSqu ∧ 0 < e.ell.bSqu) ∧ e.ell.abSqu = e.ell.aSqu * e.ell.bSqu
  | .racetrack e => (0 ≤ e.a ∧ 0 ≤ e.b) ∧ 2 * e.a ≤ e.maxX - e.minX ∧ 2 * e.b ≤ e.maxY - e.minY

theorem ell_iff {A B x y : ℝ} (ha : 0 < A) (hb : 0 < B) : x * x * B + y * y * A ≤ A * B ↔ InEllipse (Real.sqrt A) (Real.sqrt B) x y := by
  unfold InEllipse
  rw [div_pow, div_pow, Real.sq_sqrt ha.le, Real.sq_sqrt hb.le]
  have e : x ^ 2 / A + y ^ 2 / B = (x * x * B + y * y * A) / (A * B) := by field_simp
  rw [e, div_le_one (mul_pos ha hb)]

/-- The element without misalignment. -/
def Alive (l : Limit) (x y z : ℝ) : Prop := (l.track ⟨x, y, z, 0, 1, fun _ => 0⟩).state = 1

theorem kill_ne (p : Pt) : (p.kill lostOnAperture).state ≠ 1 := by
  show lostOnAperture ≠ 1
  decide

theorem rounded_shift (e : Race) (x y : ℝ) :
    InRounded e.minX e.maxX e.minY e.maxY e.a e.b x y ↔
    InRounded (-((e.maxX - e.minX) / 2)) ((e.maxX - e.minX) / 2) (-((e.maxY - e.minY) / 2)) ((e.maxY - e.minY) / 2) e.a e.b
      (x - (e.minX + e.maxX) / 2) (y - (e.minY + e.maxY) / 2) := by
  constructor
  · rintro ⟨cx, cy, u, v, ⟨⟨x1, x2⟩, y1, y2⟩, huv, rfl, rfl⟩
    exact ⟨cx - (e.minX + e.maxX) / 2, cy - (e.minY + e.maxY) / 2, u, v, ⟨⟨by linarith, by linarith⟩, by linarith, by linarith⟩, huv, by ring, by ring⟩
  · rintro ⟨cx, cy, u, v, ⟨⟨x1, x2⟩, y1, y2⟩, huv, ex, ey⟩
    exact ⟨cx + (e.minX + e.maxX) / 2, cy + (e.minY + e.maxY) / 2, u, v, ⟨⟨by linarith, by linarith⟩, by linarith, by linarith⟩, huv, by linarith, by linarith⟩

theorem alive_iff (l : Limit) (hl : Made l) (x y z : ℝ) : Alive l x y z ↔ Inside (profileOf l).1 (x - (profileOf l).2.1) (y - (profileOf l).2.2) := by
  unfold Alive
  cases l with
  | rect e =>
    simp only [Limit.track, trackRect, Bool.false_eq_true, if_false, profileOf, Inside, abs_le]
    by_cases h : x ≥ e.minX ∧ x ≤ e.maxX ∧ y ≥ e.minY ∧ y ≤ e.maxY
    · rw [if_pos h]
      obtain ⟨a, b, c, d⟩ := h
      exact iff_of_true rfl ⟨⟨by linarith, by linarith⟩, by linarith, by linarith⟩
    · rw [if_neg h]
      refine iff_of_false (kill_ne _) fun ⟨⟨a, b⟩, c, d⟩ => h ⟨by linarith, by linarith, by linarith, by linarith⟩
  | ellipse e =>
    obtain ⟨⟨ha, hb⟩, hab⟩ := hl
    simp only [Limit.track, trackEllipse, Bool.false_eq_true, if_false, profileOf, Inside, sub_zero]
    rw [hab, ← ell_iff ha hb]
    split
    · rename_i h; exact iff_of_true rfl h
    · rename_i h; exact iff_of_false (kill_ne _) h
  | rectEllipse e =>
    obtain ⟨⟨ha, hb⟩, hab⟩ := hl
    simp only [Limit.track, trackRectEllipse, Bool.false_eq_true, if_false, profileOf, Inside, sub_zero, abs_le]
    rw [hab, ← ell_iff ha hb]
    split
    · rename_i h
      obtain ⟨a, b, c, d, f⟩ := h
      exact iff_of_true rfl ⟨⟨⟨b, a⟩, d, c⟩, f⟩
    · rename_i h
      exact iff_of_false (kill_ne _) fun ⟨⟨⟨b, a⟩, d, c⟩, f⟩ => h ⟨a, b, c, d, f⟩
  | racetrack e =>
    obtain ⟨⟨ha, hb⟩, hx, hy⟩ := hl
    simp only [Limit.track, trackRacetrack, Bool.false_eq_true, if_false, profileOf, Inside]
    rw [← rounded_shift, race_iff ha hb (by linarith) (by linarith)]
    split
    · rename_i h; exact iff_of_true rfl h
    · rename_i h; exact iff_of_false (kill_ne _) h

theorem sRotate_xy (p : Frames.Part) (psi : ℝ) : (Frames.sRotate p psi).x = Real.cos psi * p.x + Real.sin psi * p.y ∧
    (Frames.sRotate p psi).y = -Real.sin psi * p.x + Real.cos psi * p.y := by
  unfold Frames.sRotate
  by_cases h : psi = 0
  · subst h; simp
  · rw [if_pos h]
    unfold Frames.sRot
    simp only
    split <;> exact ⟨rfl, rfl⟩

theorem entry_xy (m : Frames.Mis) (h1 : m.theta = 0) (h2 : m.phi = 0) (h3 : m.ds = 0) (p : Frames.Part) :
    (Frames.entryStraight m false p).x = Real.cos m.tilt * (Real.cos m.psi * (p.x - m.dx) + Real.sin m.psi * (p.y - m.dy)) +
      Real.sin m.tilt * (-Real.sin m.psi * (p.x - m.dx) + Real.cos m.psi * (p.y - m.dy)) ∧
    (Frames.entryStraight m false p).y = -Real.sin m.tilt * (Real.cos m.psi * (p.x - m.dx) + Real.sin m.psi * (p.y - m.dy)) +
      Real.cos m.tilt * (-Real.sin m.psi * (p.x - m.dx) + Real.cos m.psi * (p.y - m.dy)) := by
  unfold Frames.entryStraight
  simp only [Bool.not_false, if_true, h1, h2, h3, Real.sin_zero, Real.cos_zero, mul_zero, mul_one, sub_zero, sub_self]
  simp only [sRotate_xy, Frames.sShift, Frames.yRotate, Frames.xRotate, Frames.xyShift, ne_eq, not_true_eq_false, if_false, and_self]

theorem place_flat (x y psi : ℝ) (q : P) : place ⟨x, y, 0, 0, 0, psi⟩ q =
    ⟨Real.cos psi * q.1 - Real.sin psi * q.2 + x, Real.sin psi * q.1 + Real.cos psi * q.2 + y, 0⟩ := by
  simp [place, apply, toMatrix]
  ring

/-- **C169.** For a limit element which is shifted and rotated around s (the rotation which keeps the frame), symmetric or not rotated, the
aperture model has the region which survives tracking. Missing: rotations with the frame and rotated asymmetric apertures, for which it is
false (below), rotations around x and y and shifts along s. -/
theorem C169_limits_partial (l : Limit) (hl : Made l) (m : Frames.Mis) (h1 : m.theta = 0) (h2 : m.phi = 0) (h3 : m.ds = 0) (ht : m.tilt = 0)
    (hc : m.psi = 0 ∨ (profileOf l).2 = (0, 0)) (p : Frames.Part) : survives l m p ↔ InModel l m p.x p.y := by
  obtain ⟨ex, ey⟩ := entry_xy m h1 h2 h3 p
  rw [ht, Real.cos_zero, Real.sin_zero] at ex ey
  simp only [one_mul, zero_mul, add_zero, neg_zero, zero_add] at ex ey
  show Alive l _ _ _ ↔ _
  rw [alive_iff l hl, ex, ey]
  unfold InModel
  have hp : ∀ q, place (position l m) q = ⟨Real.cos m.psi * q.1 - Real.sin m.psi * q.2 + ((profileOf l).2.1 + m.dx),
      Real.sin m.psi * q.1 + Real.cos m.psi * q.2 + ((profileOf l).2.2 + m.dy), 0⟩ := by
    intro q
    rw [← place_flat, position, h1, h2, h3]
  simp only [hp, P3.mk.injEq, and_true]
  generalize (profileOf l).1 = sh
  have cs := Real.cos_sq_add_sin_sq m.psi
  generalize (profileOf l).2 = c at hc ⊢
  constructor
  · intro h
    refine ⟨(_, _), h, ?_, ?_⟩
    · simp only
      rcases hc with hc | hc
      · rw [hc, Real.cos_zero, Real.sin_zero]; ring
      · rw [hc]; linear_combination (p.x - m.dx) * cs
    · simp only
      rcases hc with hc | hc
      · rw [hc, Real.cos_zero, Real.sin_zero]; ring
      · rw [hc]; linear_combination (p.y - m.dy) * cs
  · rintro ⟨q, h, e1, e2⟩
    rw [← e1, ← e2]
    have f1 : Real.cos m.psi * (Real.cos m.psi * q.1 - Real.sin m.psi * q.2 + (c.1 + m.dx) - m.dx) +
        Real.sin m.psi * (Real.sin m.psi * q.1 + Real.cos m.psi * q.2 + (c.2 + m.dy) - m.dy) - c.1 = q.1 := by
      rcases hc with hc | hc
      · rw [hc, Real.cos_zero, Real.sin_zero]; ring
      · rw [hc]; linear_combination q.1 * cs
    have f2 : -Real.sin m.psi * (Real.cos m.psi * q.1 - Real.sin m.psi * q.2 + (c.1 + m.dx) - m.dx) +
        Real.cos m.psi * (Real.sin m.psi * q.1 + Real.cos m.psi * q.2 + (c.2 + m.dy) - m.dy) - c.2 = q.2 := by
      rcases hc with hc | hc
      · rw [hc, Real.cos_zero, Real.sin_zero]; ring
      · rw [hc]; linear_combination q.2 * cs
    rw [f1, f2]
    exact h

/-- A particle at a point. -/
noncomputable def at_ (p : Frames.Part) (x y : ℝ) : Frames.Part := { p with x := x, y := y }

/-- **C169 fails** for an aperture which is tilted with `rot_s_rad`, as the loaders of MAD-X do for `aper_tilt`: a particle gets through the
element while the aperture model has the wall in its way, because the model only looks at the other rotation. -/
theorem C169_tilt_violated : ∃ l m, Made l ∧ (m.theta = 0 ∧ m.phi = 0 ∧ m.ds = 0 ∧ m.psi = 0) ∧ (profileOf l).2 = (0, 0) ∧ ∀ p : Frames.Part,
    survives l m (at_ p 1.5 0) ∧ ¬ InModel l m 1.5 0 := by
  refine ⟨.ellipse ⟨1, 4, 4⟩, ⟨0, 0, 0, 0, 0, 0, 0, 0, Real.pi / 2⟩, ⟨⟨by norm_num, by norm_num⟩, by norm_num⟩, ⟨rfl, rfl, rfl, rfl⟩, rfl, fun p => ⟨?_, ?_⟩⟩
  · obtain ⟨ex, ey⟩ := entry_xy ⟨0, 0, 0, 0, 0, 0, 0, 0, Real.pi / 2⟩ rfl rfl rfl (at_ p 1.5 0)
    simp [at_] at ex ey
    show Alive _ _ _ _
    rw [alive_iff (.ellipse ⟨1, 4, 4⟩) ⟨⟨by norm_num, by norm_num⟩, by norm_num⟩]
    simp only [at_]
    rw [ex, ey]
    simp only [profileOf, Inside]
    rw [← ell_iff (by norm_num) (by norm_num)]
    norm_num
  · rintro ⟨q, h, e⟩
    have := (place_flat (0 + 0) (0 + 0) 0 q).symm.trans e
    simp at this
    obtain ⟨e1, e2⟩ := this
    simp only [profileOf, Inside] at h
    rw [← ell_iff (by norm_num) (by norm_num), e1, e2] at h
    norm_num at h

/-- **C169 fails** for an aperture which is not symmetric and rotated: its centre is not rotated in the aperture model. -/
theorem C169_centre_violated : ∃ l m, Made l ∧ (m.theta = 0 ∧ m.phi = 0 ∧ m.ds = 0 ∧ m.tilt = 0) ∧ ∀ p : Frames.Part,
    (survives l m (at_ p 0 1.5) ∧ ¬ InModel l m 0 1.5) ∧ ¬ survives l m (at_ p 1.5 0) ∧ InModel l m 1.5 0 := by
  have key : ∀ (p : Frames.Part) x y, survives (.rect ⟨0, 2, -1, 1⟩) ⟨0, 0, 0, 0, 0, Real.pi / 2, 0, 0, 0⟩ (at_ p x y) ↔
      (0 ≤ y ∧ y ≤ 2) ∧ -1 ≤ x ∧ x ≤ 1 := by
    intro p x y
    obtain ⟨ex, ey⟩ := entry_xy ⟨0, 0, 0, 0, 0, Real.pi / 2, 0, 0, 0⟩ rfl rfl rfl (at_ p x y)
    simp [at_] at ex ey
    show Alive _ _ _ _ ↔ _
    rw [alive_iff (.rect ⟨0, 2, -1, 1⟩) trivial]
    simp only [at_]
    rw [ex, ey]
    simp only [profileOf, Inside, abs_le]
    constructor
    · rintro ⟨⟨a, b⟩, c, d⟩; exact ⟨⟨by linarith, by linarith⟩, by linarith, by linarith⟩
    · rintro ⟨⟨a, b⟩, c, d⟩; exact ⟨⟨by linarith, by linarith⟩, by linarith, by linarith⟩
  refine ⟨.rect ⟨0, 2, -1, 1⟩, ⟨0, 0, 0, 0, 0, Real.pi / 2, 0, 0, 0⟩, trivial, ⟨rfl, rfl, rfl, rfl⟩, fun p => ⟨⟨?_, ?_⟩, ?_, ?_⟩⟩
  · rw [key]; norm_num
  · rintro ⟨q, h, e⟩
    have := (place_flat ((0 + 2) / 2 + 0) ((-1 + 1) / 2 + 0) (Real.pi / 2) q).symm.trans e
    simp at this
    obtain ⟨e1, e2⟩ := this
    simp only [profileOf, Inside, abs_le] at h
    linarith [h.1.2]
  · rw [key]; norm_num
  · refine ⟨(0, -0.5), ?_, (place_flat ((0 + 2) / 2 + 0) ((-1 + 1) / 2 + 0) (Real.pi / 2) _).trans ?_⟩
    · simp only [profileOf, Inside, abs_le]; norm_num
    · simp; norm_num

example : Made (.racetrack ⟨-1, 3, -2, 2, 1, 1⟩) := by norm_num [Made]
example : (profileOf (.rectEllipse ⟨1, 2, ⟨4, 9, 36⟩⟩)).2 = (0, 0) := rfl

/-! ## C170 -/

/-- The first element with the aperture. -/
def firstWith (es : List Elem) (name : String) : Option Elem := es.find? fun e => e.aper == name

theorem associate_spec (es : List Elem) :
    (∀ name, (es.foldl associate ([], [])).1.find? (fun q => q.1 == name) = (firstWith es name).map fun e => (name, newPipe e)) ∧
    (es.foldl associate ([], [])).2 = es.map fun e => newPipe ((firstWith es e.aper).getD e) := by
  induction es using List.reverseRecOn with
  | nil => exact ⟨fun _ => rfl, rfl⟩
  | append_singleton es e ih =>
    obtain ⟨h1, h2⟩ := ih
    rw [List.foldl_append]
    simp only [List.foldl_cons, List.foldl_nil]
    generalize es.foldl associate ([], []) = st at *
    have old : ∀ x ∈ es, firstWith (es ++ [e]) x.aper = firstWith es x.aper := by
      intro x hx
      unfold firstWith
      rw [List.find?_append]
      cases hf : es.find? fun q => q.aper == x.aper with
      | some v => rfl
      | none => rw [List.find?_eq_none] at hf; exact absurd (hf x hx) (by simp)
    have rest : (es.map fun x => newPipe ((firstWith (es ++ [e]) x.aper).getD x)) = st.2 := by
      rw [h2]
      exact List.map_congr_left fun x hx => by rw [old x hx]
    unfold associate
    cases hf : firstWith es e.aper with
    | some f =>
      have g := h1 e.aper
      rw [hf, Option.map_some] at g
      have g' : st.1.find? (fun q => q.1 == e.aper) = some (e.aper, newPipe f) := g
      rw [g']
      refine ⟨fun name => ?_, ?_⟩
      · rw [h1 name]
        unfold firstWith at hf ⊢
        rw [List.find?_append]
        by_cases hn : e.aper = name
        · subst hn; rw [hf]; rfl
        · cases es.find? fun q => q.aper == name with
          | some v => rfl
          | none => simp [hn]
      · rw [List.map_append, rest]
        have : firstWith (es ++ [e]) e.aper = some f := by
          unfold firstWith at hf ⊢
          rw [List.find?_append, hf]; rfl
        simp [this]
    | none =>
      have g := h1 e.aper
      rw [hf, Option.map_none] at g
      have g' : st.1.find? (fun q => q.1 == e.aper) = none := g
      rw [g']
      refine ⟨fun name => ?_, ?_⟩
      · rw [List.find?_append, h1 name]
        unfold firstWith at hf ⊢
        rw [List.find?_append]
        by_cases hn : e.aper = name
        · subst hn; rw [hf]; simp
        · cases es.find? fun q => q.aper == name with
          | some v => rfl
          | none => simp [hn]
      · rw [List.map_append, rest]
        have : firstWith (es ++ [e]) e.aper = some e := by
          unfold firstWith at hf ⊢
          rw [List.find?_append, hf]; simp
        simp [this]

/-- **C170.** The pipe at an element is that of the first element which has the same associated aperture. -/
theorem C170_first (es : List Elem) : associated es = es.map fun e => newPipe ((firstWith es e.aper).getD e) := (associate_spec es).2

/-- **C170.** If elements which share an aperture have the same length and curvature, every element has a pipe of its own length and
curvature. Without the hypothesis it is false (below). -/
theorem C170_same_partial (es : List Elem) (h : ∀ e ∈ es, ∀ f ∈ es, e.aper = f.aper → e.thick = f.thick ∧ e.length = f.length ∧ e.h = f.h) :
    associated es = es.map newPipe := by
  rw [C170_first]
  refine List.map_congr_left fun e he => ?_
  cases hf : firstWith es e.aper with
  | none => rfl
  | some f =>
    have h1 := List.mem_of_find?_eq_some hf
    have h2 := List.find?_some hf
    simp only [beq_iff_eq] at h2
    obtain ⟨a, b, c⟩ := h f h1 e he h2
    simp only [Option.getD_some, newPipe, a, b, c]

/-- **C170 fails** otherwise: the second of two magnets with the same aperture, three times as long, has the short pipe of the first. -/
theorem C170_shared_violated : ∃ es : List Elem, (∃ e ∈ es, e.thick = true ∧ e.length = 3) ∧ associated es ≠ es.map newPipe ∧
    ∀ p ∈ associated es, p.at_ = [0, 1] :=
  ⟨[⟨"a", true, 1, 0⟩, ⟨"a", true, 3, 0⟩], ⟨_, List.mem_cons_of_mem _ (List.mem_singleton.mpr rfl), rfl, rfl⟩, by decide +kernel, by decide +kernel⟩

example : associated [⟨"a", true, 1, 0⟩, ⟨"b", true, 3, 1⟩, ⟨"a", true, 1, 0⟩] = [⟨0, [0, 1]⟩, ⟨1, [0, 3]⟩, ⟨0, [0, 1]⟩] := by decide +kernel

/-! ## C171 -/

/-- The element which the loader of MAD-X files makes, mad_parser/loader.py:659-684. -/
inductive Loaded : MadShape → List ℝ → Limit → Prop
  | circle (r : ℝ) (e : Ell) : newEllipse (some r) (some r) none none = some e → Loaded .circle [r] (.ellipse e)
  | ellipse (a b : ℝ) (e : Ell) : newEllipse (some a) (some b) none none = some e → Loaded .ellipse [a, b] (.ellipse e)
  | rectangle (w h : ℝ) : Loaded .rectangle [w, h] (.rect ⟨-w, w, -h, h⟩)
  | rectellipse (w h a b : ℝ) (e : RectEll) : newRectEllipse w h (some a) (some b) none none = some e → 
      Loaded .rectellipse [w, h, a, b] (.rectEllipse e)
  | racetrack (w h a b : ℝ) (e : Race) : newRacetrack (-w) w (-h) h a b = some e → Loaded .racetrack [w, h, a, b] (.racetrack e)

/-- **C171.** A circle, rectangle, ellipse, rectangle with ellipse or racetrack of MAD-X is the same region in the aperture model and as an
element of the line. Missing: octagons, for which it holds for some angles only (below). -/
theorem C171_madx_partial (s : MadShape) (ps : List ℝ) (l : Limit) (hl : Loaded s ps l) (hp : ∀ v ∈ ps, 0 < v) :
    ∃ sh, fromMadx s ps = .shape sh ∧ ∀ x y z, Alive l x y z ↔ Inside sh x y := by
  cases hl with
  | circle r e h =>
    have hr : 0 < r := hp r (by simp)
    refine ⟨.circle r, by simp [fromMadx, MadShape.arity, MadShape.convert], fun x y z => ?_⟩
    have c : r * r > 0 ∧ r * r > 0 := ⟨by positivity, by positivity⟩
    have h := (if_pos c).symm.trans h
    cases h
    show Alive (.ellipse ⟨r * r, r * r, r * r * (r * r)⟩) x y z ↔ _
    rw [alive_iff (.ellipse ⟨r * r, r * r, r * r * (r * r)⟩) ⟨⟨mul_pos hr hr, mul_pos hr hr⟩, rfl⟩]
    simp only [profileOf, Inside, sub_zero]
    rw [← ell_iff (mul_pos hr hr) (mul_pos hr hr)]
    constructor
    · intro g
      have : (x ^ 2 + y ^ 2) * (r * r) ≤ r ^ 2 * (r * r) := by nlinarith
      exact le_of_mul_le_mul_right this (mul_pos hr hr)
    · intro g
      nlinarith [mul_le_mul_of_nonneg_right g (mul_pos hr hr).le]
  | ellipse a b e h =>
    have ha : 0 < a := hp a (by simp)
    have hb : 0 < b := hp b (by simp)
    refine ⟨.ellipse a b, by simp [fromMadx, MadShape.arity, MadShape.convert], fun x y z => ?_⟩
    have c : a * a > 0 ∧ b * b > 0 := ⟨by positivity, by positivity⟩
    have h := (if_pos c).symm.trans h
    cases h
    show Alive (.ellipse ⟨a * a, b * b, a * a * (b * b)⟩) x y z ↔ _
    rw [alive_iff (.ellipse ⟨a * a, b * b, a * a * (b * b)⟩) ⟨⟨mul_pos ha ha, mul_pos hb hb⟩, rfl⟩]
    simp only [profileOf, Inside, sub_zero, Real.sqrt_mul_self ha.le, Real.sqrt_mul_self hb.le]
  | rectangle w h =>
    refine ⟨.rectangle w h, by simp [fromMadx, MadShape.arity, MadShape.convert], fun x y z => ?_⟩
    rw [alive_iff (.rect ⟨-w, w, -h, h⟩) trivial]
    simp only [profileOf, Inside]
    rw [show (w - -w) / 2 = w by ring, show (h - -h) / 2 = h by ring, show (-w + w) / 2 = 0 by ring, show (-h + h) / 2 = 0 by ring, sub_zero,
      sub_zero]
  | rectellipse w h a b e g =>
    have ha : 0 < a := hp a (by simp)
    have hb : 0 < b := hp b (by simp)
    have hw : 0 < w := hp w (by simp)
    have hh : 0 < h := hp h (by simp)
    refine ⟨.rectEllipse w h a b, by simp [fromMadx, MadShape.arity, MadShape.convert], fun x y z => ?_⟩
    have c : ¬ (w < 0 ∨ h < 0 ∨ a * a < 0 ∨ b * b < 0) := by push Not; exact ⟨hw.le, hh.le, by positivity, by positivity⟩
    have g := (if_neg c).symm.trans g
    cases g
    show Alive (.rectEllipse ⟨w, h, ⟨a * a, b * b, a * a * (b * b)⟩⟩) x y z ↔ _
    rw [alive_iff (.rectEllipse ⟨w, h, ⟨a * a, b * b, a * a * (b * b)⟩⟩) ⟨⟨mul_pos ha ha, mul_pos hb hb⟩, rfl⟩]
    simp only [profileOf, Inside, sub_zero, Real.sqrt_mul_self ha.le, Real.sqrt_mul_self hb.le]
  | racetrack w h a b e g =>
    refine ⟨.racetrack w h a b, by simp [fromMadx, MadShape.arity, MadShape.convert], fun x y z => ?_⟩
    unfold newRacetrack at g
    split_ifs at g with h1 h2
    cases g
    push Not at h2
    rw [alive_iff (.racetrack ⟨-w, w, -h, h, a, b⟩) ⟨⟨h1.1, h1.2.1⟩, by simp only; linarith [h2.1], by simp only; linarith [h2.2]⟩]
    simp only [profileOf, Inside]
    rw [show (w - -w) / 2 = w by ring, show (h - -h) / 2 = h by ring, show (-w + w) / 2 = 0 by ring, show (-h + h) / 2 = 0 by ring, sub_zero,
      sub_zero]

/-- The corners of an octagon in the aperture model, in the order of the loader. -/
noncomputable def corners (w h d : ℝ) : List P :=
  let dx := d * Real.sqrt 2 - h
  let dy := d * Real.sqrt 2 - w
  [(w, dy), (dx, h), (-dx, h), (-w, dy), (-w, -dy), (-dx, -h), (dx, -h), (w, -dy)]

/-- These are the corners of the outline. -/
theorem corners_path (w h d : ℝ) (h1 : w ≤ d * Real.sqrt 2) (h2 : h ≤ d * Real.sqrt 2) : (octagon w h d).map last = corners w h d := by
  unfold octagon corners
  simp only
  rw [if_neg (by push Not; constructor <;> linarith)]
  simp [last]

/-- **C171.** An octagon of MAD-X has the same corners in the aperture model and in the line exactly if the second angle belongs to a
corner cut at 45 degrees. -/
theorem C171_octagon (w h phi1 phi2 : ℝ) : ∃ d, fromMadx .octagon [w, h, phi1, phi2] = .shape (.octagon w h d) ∧
    (corners w h d = loaded w h phi1 phi2 ↔ w * Real.tan phi1 + w - h = h / Real.tan phi2) := by
  refine ⟨_, by simp [fromMadx, MadShape.arity, MadShape.convert]; rfl, ?_⟩
  have e2 : Real.sqrt 2 * Real.sqrt 2 = 2 := Real.mul_self_sqrt (by norm_num)
  have e : Real.sqrt 2 * (0.5 * w * (Real.tan phi1 + 1)) * Real.sqrt 2 = w * Real.tan phi1 + w := by
    linear_combination (0.5 * w * (Real.tan phi1 + 1)) * e2
  unfold corners loaded
  simp only
  rw [e]
  constructor
  · intro h
    simp at h
    linarith [h.2.1]
  · intro hx
    rw [hx]
    simp

/-- **C171 fails** for an octagon with another second angle: the corner is elsewhere. -/
theorem C171_octagon_violated : ∃ w h phi1 phi2 d, (0 < w ∧ 0 < h) ∧ (0 < phi1 ∧ phi1 < phi2 ∧ phi2 < Real.pi / 2) ∧
    fromMadx .octagon [w, h, phi1, phi2] = .shape (.octagon w h d) ∧ corners w h d ≠ loaded w h phi1 phi2 := by
  obtain ⟨d, h1, h2⟩ := C171_octagon 1 1 (Real.arctan (1 / 2)) (Real.arctan 3)
  refine ⟨1, 1, Real.arctan (1 / 2), Real.arctan 3, d, ⟨one_pos, one_pos⟩, ⟨Real.arctan_pos.mpr (by norm_num), Real.arctan_strictMono (by norm_num), Real.arctan_lt_pi_div_two 3⟩, h1, ?_⟩
  rw [Ne, h2, Real.tan_arctan, Real.tan_arctan]
  norm_num

/-- **C171 fails** for parameters beyond those of the shape: the error for them never comes, whatever they are, since they are cut off
before. -/
theorem C171_extra_violated : (∀ s ps, fromMadx s ps ≠ .extra) ∧ ∃ s ps, (∃ v ∈ ps.drop (MadShape.arity s), v ≠ 0) ∧ ∃ sh, fromMadx s ps = .shape sh := by
  constructor
  · intro s ps
    unfold fromMadx
    simp only
    rw [if_neg (by simp [List.drop_take])]
    unfold MadShape.convert
    split <;> simp
  · refine ⟨.circle, [1, 2], ⟨2, by simp [MadShape.arity], by norm_num⟩, .circle 1, ?_⟩
    simp [fromMadx, MadShape.arity, MadShape.convert]

/-- **C171 fails** for an aperture of which all parameters are zero, which is to be ignored: it is made into a shape. -/
theorem C171_zero_violated : (∀ s ps, fromMadx s ps ≠ .nothing) ∧ fromMadx .circle [0] = .shape (.circle 0) := by
  constructor
  · intro s ps
    unfold fromMadx
    simp only
    rw [if_neg (by simp [List.drop_take])]
    unfold MadShape.convert
    split <;> simp
  · simp [fromMadx, MadShape.arity, MadShape.convert]

example : Loaded .circle [2] (.ellipse ⟨4, 4, 16⟩) := .circle 2 _ (by simp only [newEllipse, argSqu]; norm_num)

end Verif.AperModel.Limits
