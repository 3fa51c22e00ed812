import Verif.Survey.Props
import Mathlib.Algebra.Order.BigOperators.Group.List

/-!
# C68: slicing does not move the rest of the machine
-/

namespace Verif.Survey

open Verif.Frames
open Verif.Magnets (RBendState rbendH rbendLength)

noncomputable section

theorem arc_comp (r a b : ℝ) :
    ((⟨Real.cos a, 0, -Real.sin a, 0, 1, 0, Real.sin a, 0, Real.cos a, r * (Real.cos a - 1), 0, r * Real.sin a⟩ : Frame).comp
      ⟨Real.cos b, 0, -Real.sin b, 0, 1, 0, Real.sin b, 0, Real.cos b, r * (Real.cos b - 1), 0, r * Real.sin b⟩)
    = ⟨Real.cos (a + b), 0, -Real.sin (a + b), 0, 1, 0, Real.sin (a + b), 0, Real.cos (a + b), r * (Real.cos (a + b) - 1), 0,
        r * Real.sin (a + b)⟩ := by
  ext <;> simp [Frame.comp, Real.cos_add, Real.sin_add] <;> ring

/-- Pieces of one path, with length and angle in proportion. -/
theorem move_comp (l a t v w : ℝ) :
    (moveFrame (v * l) (v * a) t).comp (moveFrame (w * l) (w * a) t) = moveFrame ((v + w) * l) ((v + w) * a) t := by
  have unit : ∀ x : ℝ, a ≠ 0 → moveFrame (x * l) (x * a) t = (Frame.roll t).comp
      ((⟨Real.cos (x * a), 0, -Real.sin (x * a), 0, 1, 0, Real.sin (x * a), 0, Real.cos (x * a),
        l / a * (Real.cos (x * a) - 1), 0, l / a * Real.sin (x * a)⟩ : Frame).comp (Frame.roll (-t))) := by
    intro x ha
    unfold moveFrame
    by_cases hx : x = 0
    · subst hx
      have : (⟨1, 0, 0, 0, 1, 0, 0, 0, 1, 0, 0, 0⟩ : Frame) = Frame.id := rfl
      simp [shift_zero, this, Frame.id_comp, roll_cancel]
    · rw [if_neg (mul_ne_zero hx ha), arcFrame, mul_div_mul_left _ _ hx]
  by_cases ha : a = 0
  · subst ha
    simp only [mul_zero, move_straight, shift_comp_shift]
    congr 1 <;> ring
  · have r : (Frame.roll (-t)).comp (Frame.roll t) = Frame.id := by
      have := roll_cancel (-t); rwa [neg_neg] at this
    rw [unit v ha, unit w ha, unit (v + w) ha]
    simp only [Frame.comp_assoc]
    rw [comp_cancel r, ← Frame.comp_assoc _ _ (Frame.roll (-t)), arc_comp, add_mul]

/-- Slices of one piece. -/
theorem move_sum (l a t : ℝ) (ws : List ℝ) :
    (ws.map fun w => moveFrame (w * l) (w * a) t).foldl Frame.comp Frame.id = moveFrame (ws.sum * l) (ws.sum * a) t := by
  induction ws with
  | nil => simp [drift_zero_frame]
  | cons w ws ih =>
    simp only [List.map_cons, List.foldl_cons, Frame.id_comp, List.sum_cons]
    rw [foldl_comp, ih, move_comp]

/-- Pieces of the straight body of a rectangular bend: they advance along the axis, thin ones do nothing. -/
def Piece.advances : Piece → ℝ → ℝ
  | .thick, w => w
  | .drift, w => w
  | _, _ => 0

/-- The pieces of a sliced element: `pieces` between the entry and the exit slice. -/
def sliced (mk : Piece → ℝ → El) (pieces : List (Piece × ℝ)) : List El :=
  mk .entry 0 :: (pieces.map fun p => mk p.1 p.2) ++ [mk .exit 0]

/-- A slicing of the body: no edges inside, the weights of the pieces with length add up to one. -/
def Complete (pieces : List (Piece × ℝ)) : Prop :=
  (∀ p ∈ pieces, p.1 ≠ .entry ∧ p.1 ≠ .exit) ∧ (pieces.map fun p => p.1.advances p.2).sum = 1

/-- A slicing into thick slices. -/
def AllThick (pieces : List (Piece × ℝ)) : Prop := ∀ p ∈ pieces, p.1 = .thick

/-- A rectangular bend whose stored fields are those which the setters calculate (C63), with an angle. -/
structure RB.Regular (b : RB) : Prop where
  h : b.state.h = rbendH b.state.angle b.state.lengthStraight b.state.angleDiff
  length : b.state.length = rbendLength b.state.angle b.state.lengthStraight b.state.angleDiff
  angle : |b.state.angle| > 1e-10
  straight : 1e-10 ≤ |b.state.lengthStraight|
  curved : Real.sin b.angleIn + Real.sin b.angleOut ≠ 0

theorem regular_facts {b : RB} (r : b.Regular) : b.state.h ≠ 0 ∧ b.state.h * b.state.length = b.state.angle ∧
    b.state.h * b.state.lengthStraight = Real.sin b.angleIn + Real.sin b.angleOut ∧ b.state.angle ≠ 0 ∧
    b.angleIn + b.angleOut = b.state.angle := by
  have ha : ¬ |b.state.angle| < 1e-10 := not_lt.2 r.angle.le
  have hl : ¬ |b.state.lengthStraight| < 1e-10 := not_lt.2 r.straight
  have ls0 : b.state.lengthStraight ≠ 0 := by
    intro h
    have := r.straight
    rw [h, abs_zero] at this
    norm_num at this
  have a0 : b.state.angle ≠ 0 := by
    intro h
    have := r.angle
    rw [h, abs_zero] at this
    norm_num at this
  have e1 : rbendH b.state.angle b.state.lengthStraight b.state.angleDiff
      = (Real.sin b.angleIn + Real.sin b.angleOut) / b.state.lengthStraight := by
    unfold rbendH
    simp only [if_neg ha, if_neg hl]
    rfl
  have h0 : b.state.h ≠ 0 := by
    rw [r.h, e1]
    exact div_ne_zero r.curved ls0
  refine ⟨h0, ?_, ?_, a0, ?_⟩
  · rw [r.length]
    unfold rbendLength
    rw [if_neg ha, if_neg hl, ← r.h]
    field_simp
  · rw [r.h, e1]
    field_simp
  · unfold RB.angleIn RB.angleOut
    ring

theorem rbend_rel {b : RB} (r : b.Regular) : (El.rbend b).rel = moveFrame b.state.length b.state.angle b.rotS := by
  show moveFrame _ _ _ = _
  have e : (El.rbend b).angle = b.state.angle := by
    rw [← (regular_facts r).2.1]
    simp [El.angle, El.resolve, El.angleBody, El.ownOf, El.parentOf, RB.attrs]
  rw [e]
  simp [El.driftLength, El.isThick, El.resolve, El.length, El.ownOf, El.parentOf, RB.attrs, El.tilt]

/-- The offset of the axis of the body at the exit and at the entry differ by the difference of the cosines. -/
theorem x0_diff {b : RB} (r : b.Regular) :
    b.x0Out - b.x0In = (Real.cos b.angleOut - Real.cos b.angleIn) / b.state.h := by
  obtain ⟨h0, _, hs, _, _⟩ := regular_facts r
  unfold RB.x0Out RB.x0In RBendState.x0Out RBendState.x0In
  simp only [if_pos r.angle]
  have e1 : Real.sin (0.5 * b.state.angle - b.state.angleDiff / 2) - b.state.h * b.state.lengthStraight / 2
      = -(Real.sin (0.5 * b.state.angle + b.state.angleDiff / 2) - b.state.h * b.state.lengthStraight / 2) := by
    rw [hs]
    unfold RB.angleIn RB.angleOut
    ring
  rw [e1, neg_sq]
  unfold RB.angleIn RB.angleOut
  field_simp
  ring

/-- Entry, body and exit of a straight rectangular bend. -/
theorem straight_whole {b : RB} (r : b.Regular) (hs : b.straight = true) :
    (entryRel b).comp ((Frame.shift 0 0 b.state.lengthStraight).comp (exitRel b))
      = moveFrame b.state.length b.state.angle b.rotS := by
  obtain ⟨h0, hl, hls, a0, hsum⟩ := regular_facts r
  rw [entryRel_straight hs, exitRel_straight hs]
  simp only [if_pos r.angle]
  have swap : (Frame.roll (-b.rotS)).comp ((Frame.shift 0 0 b.state.lengthStraight).comp (Frame.roll b.rotS))
      = Frame.shift 0 0 b.state.lengthStraight := by
    have cs := Real.sin_sq_add_cos_sq b.rotS
    ext <;> simp [Frame.comp, Frame.roll, Frame.shift] <;> linarith
  unfold moveFrame
  rw [if_neg a0]
  simp only [Frame.comp_assoc]
  congr 1
  rw [← Frame.comp_assoc (Frame.roll (-b.rotS)), ← Frame.comp_assoc ((Frame.roll (-b.rotS)).comp _),
    Frame.comp_assoc (Frame.roll (-b.rotS)), swap]
  simp only [← Frame.comp_assoc]
  congr 1
  have hd := x0_diff r
  have hrho : b.state.length / b.state.angle = 1 / b.state.h := by
    rw [div_eq_div_iff a0 h0]
    linarith
  have hLs : b.state.lengthStraight = (Real.sin b.angleIn + Real.sin b.angleOut) / b.state.h := by
    rw [eq_div_iff h0]; linarith
  have hx : b.x0Out = b.x0In + (Real.cos b.angleOut - Real.cos b.angleIn) / b.state.h := by linarith
  have cs := Real.sin_sq_add_cos_sq b.angleIn
  rw [arcFrame, hrho, ← hsum, hLs, hx]
  ext <;> simp [Frame.comp, Frame.yaw, Frame.shift, Real.cos_add, Real.sin_add] <;> field_simp <;>
    first | ring1 | linear_combination (-1 : ℝ) * cs

theorem pieces_straight {b : RB} (hs : b.straight = true) (pieces : List (Piece × ℝ))
    (h : ∀ p ∈ pieces, p.1 ≠ .entry ∧ p.1 ≠ .exit) :
    (((pieces.map fun p => El.rslice p.1 b p.2).map El.rel).foldl Frame.comp Frame.id)
      = Frame.shift 0 0 ((pieces.map fun p => p.1.advances p.2).sum * b.state.lengthStraight) := by
  induction pieces with
  | nil => simp [shift_zero]
  | cons p ps ih =>
    have ih' := ih (fun q hq => h q (by simp [hq]))
    have hp := h p (by simp)
    have e : (El.rslice p.1 b p.2).rel = Frame.shift 0 0 (p.1.advances p.2 * b.state.lengthStraight) := by
      obtain ⟨k, w⟩ := p
      cases k with
      | thick => simp [El.rel, hs, move_straight, Piece.advances, mul_comm]
      | drift => simp [El.rel, hs, move_straight, Piece.advances, mul_comm]
      | thin =>
        show moveFrame _ _ _ = _
        simp [El.driftLength, El.isThick, El.resolve, Piece.isThick, El.angle, hs, drift_zero_frame, Piece.advances, shift_zero]
      | entry => exact absurd rfl hp.1
      | exit => exact absurd rfl hp.2
    simp only [List.map_cons, List.foldl_cons, Frame.id_comp, List.sum_cons]
    rw [foldl_comp, ih', e, shift_comp_shift]
    congr 1 <;> ring

theorem fold_snoc (L : List Frame) (a b : Frame) :
    (a :: L ++ [b]).foldl Frame.comp Frame.id = a.comp ((L.foldl Frame.comp Frame.id).comp b) := by
  simp only [List.cons_append, List.foldl_cons, Frame.id_comp, List.foldl_append, List.foldl_nil]
  rw [foldl_comp, Frame.comp_assoc]

/-- The frame across a list of elements. -/
def across (els : List El) : Frame := (els.map El.rel).foldl Frame.comp Frame.id

theorem across_straight {b : RB} (r : b.Regular) (hs : b.straight = true) {pieces : List (Piece × ℝ)} (hc : Complete pieces) :
    across (sliced (fun k w => .rslice k b w) pieces) = across [.rbend b] := by
  unfold across sliced
  rw [List.map_append, List.map_cons, List.map_cons, List.map_nil]
  rw [fold_snoc, pieces_straight hs _ hc.1, hc.2, one_mul]
  simp only [List.map_cons, List.map_nil, List.foldl_cons, List.foldl_nil, Frame.id_comp]
  rw [rbend_rel r]
  exact straight_whole r hs

theorem across_curved {b : RB} (r : b.Regular) (hs : b.straight = false) {pieces : List (Piece × ℝ)} (hc : Complete pieces)
    (ht : AllThick pieces) : across (sliced (fun k w => .rslice k b w) pieces) = across [.rbend b] := by
  unfold across sliced
  rw [List.map_append, List.map_cons, List.map_cons, List.map_nil, fold_snoc]
  have e1 : (El.rslice .entry b 0).rel = Frame.id := by simp [El.rel, entryRel, hs]
  have e2 : (El.rslice .exit b 0).rel = Frame.id := by simp [El.rel, exitRel, hs]
  rw [e1, e2, Frame.id_comp, Frame.comp_id]
  have e3 : (pieces.map fun p => El.rslice p.1 b p.2).map El.rel
      = (pieces.map fun p => p.1.advances p.2).map fun w => moveFrame (w * b.state.length) (w * b.state.angle) b.rotS := by
    rw [List.map_map, List.map_map]
    apply List.map_congr_left
    intro p hp
    have := ht p hp
    simp [this, El.rel, hs, Piece.advances, mul_comm]
  rw [e3, move_sum, hc.2, one_mul, one_mul]
  simp only [List.map_cons, List.map_nil, List.foldl_cons, List.foldl_nil, Frame.id_comp]
  rw [rbend_rel r]

theorem across_own (a : Own) {pieces : List (Piece × ℝ)} (hc : Complete pieces)
    (ht : AllThick pieces ∨ a.turn = 0) : across (sliced (fun k w => .slice k a w) pieces) = across [.own a true] := by
  unfold across sliced
  rw [List.map_append, List.map_cons, List.map_cons, List.map_nil, fold_snoc]
  have e1 : (El.slice .entry a 0).rel = Frame.id := by
    show moveFrame _ _ _ = _
    simp [El.angle, El.resolve, El.angleBody, El.ownOf, El.inheritFlag, Piece.inherits, El.driftLength, El.isThick,
        Piece.isThick, drift_zero_frame]
  have e2 : (El.slice .exit a 0).rel = Frame.id := by
    show moveFrame _ _ _ = _
    simp [El.angle, El.resolve, El.angleBody, El.ownOf, El.inheritFlag, Piece.inherits, El.driftLength, El.isThick,
        Piece.isThick, drift_zero_frame]
  rw [e1, e2, Frame.id_comp, Frame.comp_id]
  have turn : ∀ w : ℝ, a.hxl * w + a.h * a.length * w = w * a.turn := by
    intro w; unfold Own.turn; ring
  have e3 : (pieces.map fun p => El.slice p.1 a p.2).map El.rel
      = (pieces.map fun p => p.1.advances p.2).map fun w => moveFrame (w * a.length) (w * a.turn) a.rotS := by
    rw [List.map_map, List.map_map]
    apply List.map_congr_left
    rintro ⟨k, w⟩ hp
    have hk := hc.1 _ hp
    simp only [Function.comp_apply]
    show moveFrame _ _ _ = _
    cases k with
    | thick =>
      simp only [El.driftLength, El.isThick, El.resolve, Piece.isThick, El.length, El.ownOf, El.parentOf, El.weightOf,
        El.angle, El.angleBody, El.inheritFlag, Piece.inherits, El.tilt, El.tiltFlag, Piece.tilts, Piece.advances, if_true,
        turn, zero_add, mul_zero, mul_one, mul_comm w a.length]
    | thin =>
      have h0 : a.turn = 0 := ht.resolve_left (fun h => by simpa using h _ hp)
      simp only [El.driftLength, El.isThick, El.resolve, Piece.isThick, El.ownOf, El.parentOf, El.weightOf,
        El.angle, El.angleBody, El.inheritFlag, Piece.inherits, El.tilt, El.tiltFlag, Piece.tilts, Piece.advances, if_true,
        turn, h0, mul_zero, zero_mul, mul_one, add_zero, Bool.false_eq_true, if_false, drift_zero_frame]
    | drift =>
      have h0 : a.turn = 0 := ht.resolve_left (fun h => by simpa using h _ hp)
      simp [El.driftLength, El.isThick, El.resolve, Piece.isThick, El.length, El.ownOf, El.parentOf, El.weightOf,
        El.angle, El.angleBody, El.inheritFlag, Piece.inherits, El.tilt, El.tiltFlag, Piece.tilts, Piece.advances,
        h0, move_straight, mul_comm]
    | entry => exact absurd rfl hk.1
    | exit => exact absurd rfl hk.2
  rw [e3, move_sum, hc.2, one_mul, one_mul]
  simp only [List.map_cons, List.map_nil, List.foldl_cons, List.foldl_nil, Frame.id_comp]
  show _ = moveFrame _ _ _
  rw [angle_own]
  simp [El.driftLength, El.isThick, El.resolve, El.length, El.ownOf, El.parentOf, El.tilt]

/-- Replacing elements by elements with the same frame across leaves all rows before and behind them as they are. -/
theorem replace_rows {A old new B : List El} (h : across new = across old) (P : Pose) (k : ℕ) (hk : k ≤ A.length) :
    ∃ r0 r1, getSurvey (A ++ old ++ B) P k = some r0 ∧ getSurvey (A ++ new ++ B) P k = some r1 ∧
      (∀ i, i ≤ A.length → r1[i]? = r0[i]?) ∧
      ∀ i, i ≤ B.length → r1[A.length + new.length + i]? = r0[A.length + old.length + i]? := by
  have row : ∀ (els : List El) (i : ℕ), i ≤ els.length →
      ((List.scanl Frame.comp (firstFrame els P.frame k) (els.map El.rel)).map ofFrame)[i]?
        = some (ofFrame ((firstFrame els P.frame k).comp (across (els.take i)))) := by
    intro els i hi
    have hlt : i < (List.scanl Frame.comp (firstFrame els P.frame k) (els.map El.rel)).length := by simp; omega
    rw [List.getElem?_map, List.getElem?_eq_getElem hlt, Option.map_some, scan_first, ← List.map_take]
    rfl
  have hff : firstFrame (A ++ new ++ B) P.frame k = firstFrame (A ++ old ++ B) P.frame k := by
    unfold firstFrame
    rw [List.append_assoc, List.append_assoc, List.take_append_of_le_length hk, List.take_append_of_le_length hk]
  have app : ∀ X Y : List El, across (X ++ Y) = (across X).comp (across Y) := by
    intro X Y
    unfold across
    rw [List.map_append, List.foldl_append, foldl_comp]
  refine ⟨_, _, survey_rows _ _ _, survey_rows _ _ _, ?_, ?_⟩
  · intro i hi
    rw [row _ i (by simp; omega), row _ i (by simp; omega), hff]
    rw [List.append_assoc, List.append_assoc, List.take_append_of_le_length hi, List.take_append_of_le_length hi]
  · intro i hi
    rw [row _ _ (by simp; omega), row _ _ (by simp; omega), hff]
    have tk : ∀ X : List El, (A ++ X ++ B).take (A.length + X.length + i) = A ++ X ++ B.take i := by
      intro X
      have : A.length + X.length + i = (A ++ X).length + i := by simp
      rw [this, List.take_length_add_append]
    rw [tk, tk, app, app, app, app, h]

/-- Slicing an element in thick slices does not move anything else: all rows of the survey before it and all rows behind it
stay as they are.  For elements which do not bend, and for rectangular bends with straight body, this holds for thin slices
with drifts in between as well. -/
theorem C68_slices_partial (A B : List El) (P : Pose) (k : ℕ) (hk : k ≤ A.length) (pieces : List (Piece × ℝ))
    (hc : Complete pieces) (whole : El) (mk : Piece → ℝ → El)
    (hw : (∃ a, whole = .own a true ∧ mk = (fun p w => .slice p a w) ∧ (AllThick pieces ∨ a.turn = 0)) ∨
      ∃ b : RB, whole = .rbend b ∧ mk = (fun p w => .rslice p b w) ∧ b.Regular ∧ (AllThick pieces ∨ b.straight = true)) :
    ∃ r0 r1, getSurvey (A ++ [whole] ++ B) P k = some r0 ∧ getSurvey (A ++ sliced mk pieces ++ B) P k = some r1 ∧
      (∀ i, i ≤ A.length → r1[i]? = r0[i]?) ∧
      ∀ i, i ≤ B.length → r1[A.length + (sliced mk pieces).length + i]? = r0[A.length + 1 + i]? := by
  have h : across (sliced mk pieces) = across [whole] := by
    rcases hw with ⟨a, rfl, rfl, h⟩ | ⟨b, rfl, rfl, r, h⟩
    · exact across_own a hc h
    · by_cases hs : b.straight = true
      · exact across_straight r hs hc
      · exact across_curved r (by simpa using hs) hc (h.resolve_right hs)
  exact replace_rows h P k hk

/-- A rectangular bend with a different angle on both sides, shifted. -/
example : RB.Regular ⟨RBendState.init.run [.lengthStraight 2, .angle 1, .angleDiff 0.2], 0.3, 0.01, true, true⟩ := by
  have p := Real.two_le_pi
  have s1 : 0 < Real.sin (0.5 * 1 - 0.2 / 2) := Real.sin_pos_of_pos_of_lt_pi (by norm_num) (by linarith)
  have s2 : 0 < Real.sin (0.5 * 1 + 0.2 / 2) := Real.sin_pos_of_pos_of_lt_pi (by norm_num) (by linarith)
  constructor
  · rfl
  · rfl
  · show |(1 : ℝ)| > 1e-10
    norm_num
  · show 1e-10 ≤ |(2 : ℝ)|
    norm_num
  · show Real.sin (0.5 * 1 - 0.2 / 2) + Real.sin (0.5 * 1 + 0.2 / 2) ≠ 0
    linarith

/-- Slices of a body: three thick ones, or two thin ones between three drifts. -/
example : Complete [(.thick, 0.3), (.thick, 0.5), (.thick, 0.2)] ∧
    Complete [(.drift, 0.2), (.thin, 0.5), (.drift, 0.6), (.thin, 0.5), (.drift, 0.2)] := by
  constructor <;> refine ⟨by simp, ?_⟩ <;> norm_num [Piece.advances]

/-- Without angle, but with different angles on both sides, the survey of a rectangular bend with straight body depends on
whether it is sliced: uncut it is straight, in slices it is inclined. -/
theorem C68_angle_diff_violated : ∃ b : RB, b.straight = true ∧ Complete [(.thick, 1)] ∧
    b.state = RBendState.init.run [.lengthStraight 1, .angle 0, .angleDiff 1] ∧
    (∃ r0 r1 x0 x1, getSurvey [.rbend b] ⟨0, fromAngles 0 0 0⟩ 0 = some r0 ∧
      getSurvey (sliced (fun k w => .rslice k b w) [(.thick, 1)]) ⟨0, fromAngles 0 0 0⟩ 0 = some r1 ∧
      r0[1]? = some x0 ∧ r1[3]? = some x1 ∧ x0.v 0 = 0 ∧ x1.v 0 = Real.sin (1 / 2)) := by
  have e1 : |(0 : ℝ)| < 1e-10 := by norm_num
  have e3 : ¬ (1e-10 : ℝ) < 0 := by norm_num
  have z : (Pose.mk 0 (fromAngles 0 0 0)).frame = Frame.id := by
    ext <;> simp [Pose.frame, fromAngles, lit, Frame.id]
  refine ⟨⟨RBendState.init.run [.lengthStraight 1, .angle 0, .angleDiff 1], 0, 0, true, true⟩, rfl,
    ⟨by simp, by simp [Piece.advances]⟩, rfl, _, _, _, _, survey_rows _ _ 0, survey_rows _ _ 0, rfl, rfl, ?_, ?_⟩
  · show (Frame.comp (firstFrame _ _ 0) (moveFrame _ _ _)).d1 = 0
    simp only [firstFrame, List.take_zero, List.map_nil, List.reverse_nil, List.foldl_nil, z, Frame.id_comp]
    have ha : (El.rbend ⟨RBendState.init.run [.lengthStraight 1, .angle 0, .angleDiff 1], 0, 0, true, true⟩).angle = 0 := by
      simp [El.angle, El.resolve, El.angleBody, El.ownOf, El.parentOf, RB.attrs, RBendState.run, RBendState.step,
        RBendState.update, rbendH]
    rw [ha, move_straight]
    rfl
  · show (Frame.comp (Frame.comp (Frame.comp (firstFrame _ _ 0) (entryRel _)) (moveFrame _ _ _)) (exitRel _)).d1 = _
    simp only [firstFrame, List.take_zero, List.map_nil, List.reverse_nil, List.foldl_nil, z, Frame.id_comp]
    rw [entryRel_straight rfl, exitRel_straight rfl]
    simp [RBendState.run, RBendState.step, RBendState.update, RB.angleIn, RB.angleOut, roll_zero,
      RBendState.init, move_straight, Frame.comp, Frame.yaw, Frame.shift, Frame.id, if_neg e3]

end

end Verif.Survey
