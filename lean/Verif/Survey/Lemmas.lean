import Verif.Survey.Spec
import Mathlib.Analysis.Calculus.Deriv.Mul
import Mathlib.Analysis.SpecialFunctions.Trigonometric.Deriv

namespace Verif.Survey

open Verif.Frames

noncomputable section

theorem frame_inj {p q : Pose} (h : p.frame = q.frame) : p = q := by
  simp only [Pose.frame, Frame.mk.injEq] at h
  obtain ⟨h1, h2, h3, h4, h5, h6, h7, h8, h9, h10, h11, h12⟩ := h
  ext i
  · fin_cases i <;> assumption
  · rename_i j; fin_cases i <;> fin_cases j <;> assumption

/-- A frame as a row. -/
def ofFrame (F : Frame) : Pose := ⟨![F.d1, F.d2, F.d3], lit F.r11 F.r12 F.r13 F.r21 F.r22 F.r23 F.r31 F.r32 F.r33⟩

theorem frame_ofFrame (F : Frame) : (ofFrame F).frame = F := by
  ext <;> simp [ofFrame, Pose.frame, lit]

/-- The frame at the end of an element of length `l` and angle `a`. -/
def arcFrame (l a : ℝ) : Frame :=
  ⟨Real.cos a, 0, -Real.sin a, 0, 1, 0, Real.sin a, 0, Real.cos a, l / a * (Real.cos a - 1), 0, l / a * Real.sin a⟩

open Classical in
/-- The same, with tilt. -/
def moveFrame (l a t : ℝ) : Frame :=
  if a = 0 then Frame.shift 0 0 l else (Frame.roll t).comp ((arcFrame l a).comp (Frame.roll (-t)))

theorem frame_bend (p : Pose) (a b c : ℝ) (S : M3) : (advanceBend p ![a, b, c] S).frame
    = p.frame.comp ⟨S 0 0, S 0 1, S 0 2, S 1 0, S 1 1, S 1 2, S 2 0, S 2 1, S 2 2, a, b, c⟩ := by
  ext <;> simp [advanceBend, Pose.frame, Frame.comp, dotV, dotM, Fin.sum_univ_three]

theorem frame_drift (p : Pose) (a b c : ℝ) : (advanceDrift p ![a, b, c]).frame = p.frame.comp (Frame.shift a b c) := by
  ext <;> simp [advanceDrift, Pose.frame, Frame.comp, Frame.shift, dotV, Fin.sum_univ_three]

theorem frame_rotation (p : Pose) (a b c d e f g h i : ℝ) : (advanceRotation p (lit a b c d e f g h i)).frame
    = p.frame.comp ⟨a, b, c, d, e, f, g, h, i, 0, 0, 0⟩ := by
  ext <;> simp [advanceRotation, Pose.frame, Frame.comp, dotM, lit, Fin.sum_univ_three]

/-- A call moves every pose by the frame `G`. -/
def Acts (f : Pose → Option Pose) (G : Frame) : Prop := ∀ p, f p = some (ofFrame (p.frame.comp G))

theorem acts_of {f : Pose → Option Pose} {G : Frame} (h : ∀ p, ∃ q, f p = some q ∧ q.frame = p.frame.comp G) : Acts f G := by
  intro p
  obtain ⟨q, h1, h2⟩ := h p
  rw [h1, ← h2]
  exact congrArg some (frame_inj (frame_ofFrame _).symm)

theorem acts_shift (sx sy : ℝ) : Acts (shiftCall sx sy) (Frame.shift sx sy 0) := by
  apply acts_of
  intro p
  unfold shiftCall advanceElement
  by_cases h : sx ≠ 0 ∨ sy ≠ 0
  · rw [if_pos h, if_pos ⟨rfl, rfl, rfl⟩]
    exact ⟨_, rfl, frame_drift _ _ _ _⟩
  · rw [if_neg h]
    push Not at h
    simp only [ne_eq, not_true_eq_false, if_false, if_true]
    refine ⟨_, rfl, ?_⟩
    rw [frame_drift, h.1, h.2]

theorem acts_move (l a t : ℝ) : Acts (moveCall l a t) (moveFrame l a t) := by
  apply acts_of
  intro p
  unfold moveCall advanceElement moveFrame
  simp only [ne_eq, not_true_eq_false, or_self, if_false]
  by_cases ha : a = 0
  · simp only [if_pos ha]
    exact ⟨_, rfl, frame_drift _ _ _ _⟩
  · simp only [if_neg ha]
    by_cases ht : t = 0
    · simp only [if_pos ht]
      refine ⟨_, rfl, ?_⟩
      rw [frame_bend, ht, neg_zero, roll_zero, Frame.id_comp, Frame.comp_id]
      rfl
    · simp only [if_neg ht]
      refine ⟨_, rfl, ?_⟩
      ext <;> simp [advanceBend, Pose.frame, Frame.comp, dotV, dotM, Fin.sum_univ_three, lit, Frame.roll, arcFrame]

theorem acts_rotX (f r : ℝ) : Acts (rotCall f r 0 0) (Frame.pitch (-(f * r))) := by
  apply acts_of
  intro p
  unfold rotCall advanceElement
  by_cases h : f * r ≠ 0
  · simp only [ne_eq, not_true_eq_false, or_self, if_false, if_pos h, and_self, if_true]
    refine ⟨_, rfl, ?_⟩
    rw [frame_rotation]; rfl
  · push Not at h
    simp only [h, ne_eq, not_true_eq_false, or_self, if_false, mul_zero, neg_zero, pitch_zero, Frame.comp_id, if_true]
    exact ⟨_, rfl, by rw [frame_drift]; exact Frame.comp_id _⟩

theorem acts_rotY (f r : ℝ) : Acts (rotCall f 0 r 0) (Frame.yaw (f * r)) := by
  apply acts_of
  intro p
  unfold rotCall advanceElement
  by_cases h : -f * r ≠ 0
  · simp only [ne_eq, not_true_eq_false, or_self, if_false, mul_zero, if_pos h, and_self, if_true]
    refine ⟨_, rfl, ?_⟩
    rw [frame_rotation, neg_mul, Real.cos_neg, Real.sin_neg, neg_neg]
    rfl
  · push Not at h
    have h' : f * r = 0 := by linarith
    simp only [h, h', ne_eq, not_true_eq_false, or_self, if_false, mul_zero, yaw_zero, Frame.comp_id, if_true]
    exact ⟨_, rfl, by rw [frame_drift]; exact Frame.comp_id _⟩

theorem acts_rotS (f r : ℝ) : Acts (rotCall f 0 0 r) (Frame.roll (f * r)) := by
  apply acts_of
  intro p
  unfold rotCall advanceElement
  by_cases h : f * r ≠ 0
  · simp only [ne_eq, not_true_eq_false, or_self, if_false, mul_zero, if_pos h, and_self, if_true]
    refine ⟨_, rfl, ?_⟩
    rw [frame_rotation]
    rfl
  · push Not at h
    simp only [h, ne_eq, not_true_eq_false, or_self, if_false, mul_zero, roll_zero, Frame.comp_id, if_true]
    exact ⟨_, rfl, by rw [frame_drift]; exact Frame.comp_id _⟩

/-- Several calls. -/
theorem acts_chain {l : List (Pose → Option Pose)} {Gs : List Frame} (h : List.Forall₂ Acts l Gs) :
    Acts (chain l) (Gs.foldl Frame.comp Frame.id) := by
  have key : ∀ (F : Frame) (p : Pose),
      l.foldl (fun o f => o.bind f) (some (ofFrame (p.frame.comp F))) = some (ofFrame (p.frame.comp (Gs.foldl Frame.comp F))) := by
    induction h with
    | nil => intro F p; rfl
    | cons h1 _ ih =>
      intro F p
      simp only [List.foldl_cons, Option.bind_some]
      rw [h1, frame_ofFrame, Frame.comp_assoc]
      exact ih _ _
  intro p
  have := key Frame.id p
  rw [Frame.comp_id] at this
  rw [← this]
  unfold chain
  congr 2
  exact frame_inj (frame_ofFrame _).symm

theorem ortho_arcFrame (l a : ℝ) : (arcFrame l a).Ortho := by
  have := Real.sin_sq_add_cos_sq a
  constructor <;> simp [arcFrame] <;> nlinarith

theorem ortho_moveFrame (l a t : ℝ) : (moveFrame l a t).Ortho := by
  unfold moveFrame
  split_ifs
  · exact ortho_shift _ _ _
  · exact (ortho_roll _).comp ((ortho_arcFrame _ _).comp (ortho_roll _))

theorem arc_back (l a : ℝ) : (arcFrame l a).comp (arcFrame (-l) (-a)) = Frame.id := by
  have e := Real.sin_sq_add_cos_sq a
  ext <;> simp [arcFrame, Frame.comp, Frame.id, neg_div_neg_eq] <;> first | linear_combination e | ring_nf
  linear_combination (l * a⁻¹) * e

theorem move_back (l a t : ℝ) : (moveFrame l a t).comp (moveFrame (-l) (-a) t) = Frame.id := by
  unfold moveFrame
  by_cases ha : a = 0
  · simp only [ha, if_true, neg_zero]
    rw [shift_comp_shift]
    simp [shift_zero]
  · rw [if_neg ha, if_neg (neg_ne_zero.2 ha)]
    simp only [Frame.comp_assoc]
    have r : (Frame.roll (-t)).comp (Frame.roll t) = Frame.id := by
      have := roll_cancel (-t); rwa [neg_neg] at this
    rw [comp_cancel r, comp_cancel (arc_back l a), roll_cancel]

theorem inv_of_comp {F G : Frame} (hF : F.Ortho) (h : F.comp G = Frame.id) : F.inv = G := inv_eq hF h

theorem move_inv (l a t : ℝ) : (moveFrame l a t).inv = moveFrame (-l) (-a) t :=
  inv_eq (ortho_moveFrame _ _ _) (move_back _ _ _)

theorem comp_inv_rev {F G : Frame} (hF : F.Ortho) (hG : G.Ortho) : (F.comp G).inv = G.inv.comp F.inv := by
  apply inv_eq (hF.comp hG)
  rw [Frame.comp_assoc, comp_cancel (Frame.comp_inv hG), Frame.comp_inv hF]

theorem shift_inv (a b c : ℝ) : (Frame.shift a b c).inv = Frame.shift (-a) (-b) (-c) := by
  apply inv_eq (ortho_shift _ _ _)
  rw [shift_comp_shift]
  simp [shift_zero]

theorem roll_inv (t : ℝ) : (Frame.roll t).inv = Frame.roll (-t) := inv_eq (ortho_roll _) (roll_cancel _)
theorem yaw_inv (t : ℝ) : (Frame.yaw t).inv = Frame.yaw (-t) := inv_eq (ortho_yaw _) (yaw_cancel _)
theorem pitch_inv (t : ℝ) : (Frame.pitch t).inv = Frame.pitch (-t) := inv_eq (ortho_pitch _) (pitch_cancel _)
theorem id_inv : Frame.id.inv = Frame.id := inv_eq ortho_id (Frame.id_comp _)

theorem foldl_comp (Gs : List Frame) (F : Frame) : Gs.foldl Frame.comp F = F.comp (Gs.foldl Frame.comp Frame.id) := by
  induction Gs generalizing F with
  | nil => exact (Frame.comp_id F).symm
  | cons G Gs ih =>
    simp only [List.foldl_cons, Frame.id_comp]
    rw [ih (F.comp G), ih G, Frame.comp_assoc]

/-- A pair of calls, one for forward and one for backward. -/
def Both (f : Bool → Pose → Option Pose) (G : Frame) : Prop := G.Ortho ∧ Acts (f false) G ∧ Acts (f true) G.inv

theorem axis_acts (f rs rx ry : ℝ) (a : Axis) :
    Acts (axisCall f rs rx ry a) (axisFrame (f * rs) (f * rx) (f * ry) a) := by
  cases a
  · exact acts_rotX f rx
  · exact acts_rotY f ry
  · exact acts_rotS f rs

/-- Frame by which the entry of a straight `RBend` moves the reference frame. -/
def entryRel (b : RB) : Frame :=
  if b.straight then
    (moveFrame 0 b.angleIn b.rotS).comp (if |b.state.angle| > 1e-10 then
      Frame.shift (-b.x0In * Real.cos b.rotS) (-b.x0In * Real.sin b.rotS) 0 else Frame.id)
  else Frame.id

/-- The same for the exit. -/
def exitRel (b : RB) : Frame :=
  if b.straight then
    (if |b.state.angle| > 1e-10 then
      Frame.shift (b.x0Out * Real.cos b.rotS) (b.x0Out * Real.sin b.rotS) 0 else Frame.id).comp
      (moveFrame 0 b.angleOut b.rotS)
  else Frame.id

/-- Frame by which the survey moves at an element. -/
def El.rel : El → Frame
  | .translation sx sy => Frame.shift sx sy 0
  | .rotation rs rx ry a b c => axesFrame rs rx ry [a, b, c]
  | .xRotation t => Frame.pitch (-t)
  | .yRotation t => Frame.yaw t
  | .sRotation t => Frame.roll t
  | .rslice .thick b w =>
    moveFrame (if b.straight then b.state.lengthStraight * w else b.state.length * w)
      (if b.straight then 0 else b.state.angle * w) b.rotS
  | .rslice .drift b w => moveFrame (if b.straight then b.state.lengthStraight * w else b.state.length * w) 0 0
  | .rslice .entry b _ => entryRel b
  | .rslice .exit b _ => exitRel b
  | e => moveFrame e.driftLength e.angle e.tilt

theorem ortho_entryRel (b : RB) : (entryRel b).Ortho := by
  unfold entryRel
  split_ifs
  · exact (ortho_moveFrame _ _ _).comp (ortho_shift _ _ _)
  · exact (ortho_moveFrame _ _ _).comp ortho_id
  · exact ortho_id

theorem ortho_exitRel (b : RB) : (exitRel b).Ortho := by
  unfold exitRel
  split_ifs
  · exact (ortho_shift _ _ _).comp (ortho_moveFrame _ _ _)
  · exact ortho_id.comp (ortho_moveFrame _ _ _)
  · exact ortho_id

theorem ortho_rel (e : El) : e.rel.Ortho := by
  cases e with
  | rslice k b w => cases k <;> first | exact ortho_moveFrame _ _ _ | exact ortho_entryRel _ | exact ortho_exitRel _
  | translation => exact ortho_shift _ _ _
  | rotation => exact ortho_axes _ _ _ _
  | xRotation => exact ortho_pitch _
  | yRotation => exact ortho_yaw _
  | sRotation => exact ortho_roll _
  | _ => exact ortho_moveFrame _ _ _

theorem axes_inv (rs rx ry : ℝ) (a b c : Axis) :
    (axesFrame rs rx ry [a, b, c]).inv = axesFrame (-rs) (-rx) (-ry) [c, b, a] := by
  apply inv_eq (ortho_axes _ _ _ _)
  simp only [axesFrame, Frame.comp_id, Frame.comp_assoc]
  rw [comp_cancel (axis_cancel rs rx ry c), comp_cancel (axis_cancel rs rx ry b), axis_cancel]

theorem acts_prop {e : El} {back : Bool} {f : Pose → Option Pose} {G : Frame} (h : e.propagate back = some f) (hf : Acts f G) :
    Acts (e.advance back) G := by
  intro p
  unfold El.advance
  rw [h]
  exact hf p

theorem rel_forward (e : El) : Acts (e.advance false) e.rel := by
  cases e with
  | translation sx sy => 
    refine acts_prop rfl ?_
    simpa [El.rel] using acts_shift sx sy
  | rotation rs rx ry a b c =>
    have := acts_chain (l := [a, b, c].map (axisCall 1 rs rx ry)) (Gs := [a, b, c].map (axisFrame (1 * rs) (1 * rx) (1 * ry)))
      (by simp only [List.map_cons, List.map_nil]
          exact .cons (axis_acts _ _ _ _ _) (.cons (axis_acts _ _ _ _ _) (.cons (axis_acts _ _ _ _ _) .nil)))
    refine acts_prop rfl ?_
    simpa [El.rel, axesFrame, Frame.comp_id, Frame.id_comp, Frame.comp_assoc] using this
  | xRotation t => 
    refine acts_prop rfl ?_
    simpa [El.rel] using acts_rotX 1 t
  | yRotation t => 
    refine acts_prop rfl ?_
    simpa [El.rel] using acts_rotY 1 t
  | sRotation t => 
    refine acts_prop rfl ?_
    simpa [El.rel] using acts_rotS 1 t
  | rslice k b w =>
    cases k with
    | thick => exact acts_move _ _ _
    | drift => exact acts_move _ _ _
    | thin => exact acts_move _ _ _
    | entry =>
      show Acts (chain (entryCalls b false)) (entryRel b)
      unfold entryCalls entryRel
      simp only [Bool.false_eq_true, if_false]
      by_cases h1 : b.straight = true
      · simp only [if_pos h1]
        by_cases h2 : |b.state.angle| > 1e-10
        · simp only [if_pos h2]
          have := acts_chain (.cons (acts_move 0 b.angleIn b.rotS)
            (.cons (acts_shift (-b.x0In * Real.cos b.rotS) (-b.x0In * Real.sin b.rotS)) .nil))
          simpa [Frame.id_comp] using this
        · simp only [if_neg h2]
          have := acts_chain (.cons (acts_move 0 b.angleIn b.rotS) .nil)
          simpa [Frame.id_comp, Frame.comp_id] using this
      · simp only [if_neg h1]
        exact acts_chain .nil
    | exit =>
      show Acts (chain (exitCalls b false)) (exitRel b)
      unfold exitCalls exitRel
      simp only [Bool.false_eq_true, if_false]
      by_cases h1 : b.straight = true
      · simp only [if_pos h1]
        by_cases h2 : |b.state.angle| > 1e-10
        · simp only [if_pos h2]
          have := acts_chain (.cons (acts_shift (b.x0Out * Real.cos b.rotS) (b.x0Out * Real.sin b.rotS))
            (.cons (acts_move 0 b.angleOut b.rotS) .nil))
          simpa [Frame.id_comp] using this
        · simp only [if_neg h2]
          have := acts_chain (.cons (acts_move 0 b.angleOut b.rotS) .nil)
          simpa [Frame.id_comp, Frame.comp_id] using this
      · simp only [if_neg h1]
        exact acts_chain .nil
  | _ => exact acts_move _ _ _

theorem rel_backward (e : El) : Acts (e.advance true) e.rel.inv := by
  cases e with
  | translation sx sy =>
    rw [El.rel, shift_inv]
    refine acts_prop rfl ?_
    simpa using acts_shift (-1 * sx) (-1 * sy)
  | rotation rs rx ry a b c =>
    rw [El.rel, axes_inv]
    have := acts_chain (l := [c, b, a].map (axisCall (-1) rs rx ry))
      (Gs := [c, b, a].map (axisFrame (-1 * rs) (-1 * rx) (-1 * ry)))
      (by simp only [List.map_cons, List.map_nil]
          exact .cons (axis_acts _ _ _ _ _) (.cons (axis_acts _ _ _ _ _) (.cons (axis_acts _ _ _ _ _) .nil)))
    refine acts_prop rfl ?_
    simpa [axesFrame, Frame.comp_id, Frame.id_comp, Frame.comp_assoc] using this
  | xRotation t =>
    rw [El.rel, pitch_inv]
    refine acts_prop rfl ?_
    simpa using acts_rotX (-1) t
  | yRotation t =>
    rw [El.rel, yaw_inv]
    refine acts_prop rfl ?_
    simpa using acts_rotY (-1) t
  | sRotation t =>
    rw [El.rel, roll_inv]
    refine acts_prop rfl ?_
    simpa using acts_rotS (-1) t
  | rslice k b w =>
    cases k with
    | thick =>
      rw [El.rel, move_inv]
      refine acts_prop rfl ?_
      simp only [if_true, mul_neg_one]
      exact acts_move _ _ _
    | drift =>
      rw [El.rel, move_inv, neg_zero]
      refine acts_prop rfl ?_
      simp only [if_true, mul_neg_one]
      exact acts_move _ 0 0
    | thin =>
      rw [El.rel, move_inv]
      · exact acts_move _ _ _
      all_goals (intros; simp_all)
    | entry =>
      show Acts (chain (entryCalls b true)) (entryRel b).inv
      unfold entryCalls entryRel
      simp only [if_true]
      by_cases h1 : b.straight = true
      · simp only [if_pos h1]
        by_cases h2 : |b.state.angle| > 1e-10
        · simp only [if_pos h2]
          rw [comp_inv_rev (ortho_moveFrame _ _ _) (ortho_shift _ _ _), move_inv, shift_inv]
          have := acts_chain (.cons (acts_shift (b.x0In * Real.cos b.rotS) (b.x0In * Real.sin b.rotS))
            (.cons (acts_move 0 (-b.angleIn) b.rotS) .nil))
          simpa [Frame.id_comp] using this
        · simp only [if_neg h2]
          rw [Frame.comp_id, move_inv]
          have := acts_chain (.cons (acts_move 0 (-b.angleIn) b.rotS) .nil)
          simpa [Frame.id_comp, Frame.comp_id] using this
      · simp only [if_neg h1]
        rw [id_inv]; exact acts_chain .nil
    | exit =>
      show Acts (chain (exitCalls b true)) (exitRel b).inv
      unfold exitCalls exitRel
      simp only [if_true]
      by_cases h1 : b.straight = true
      · simp only [if_pos h1]
        by_cases h2 : |b.state.angle| > 1e-10
        · simp only [if_pos h2]
          rw [comp_inv_rev (ortho_shift _ _ _) (ortho_moveFrame _ _ _), move_inv, shift_inv]
          have := acts_chain (.cons (acts_move 0 (-b.angleOut) b.rotS)
            (.cons (acts_shift (-b.x0Out * Real.cos b.rotS) (-b.x0Out * Real.sin b.rotS)) .nil))
          simpa [Frame.id_comp] using this
        · simp only [if_neg h2]
          rw [Frame.id_comp, move_inv]
          have := acts_chain (.cons (acts_move 0 (-b.angleOut) b.rotS) .nil)
          simpa [Frame.id_comp, Frame.comp_id] using this
      · simp only [if_neg h1]
        rw [id_inv]; exact acts_chain .nil
  | own a t => exact (move_inv _ _ _).symm ▸ acts_move _ _ _
  | slice k a w => exact (move_inv _ _ _).symm ▸ acts_move _ _ _
  | rbend b => exact (move_inv _ _ _).symm ▸ acts_move _ _ _
  | replica e => exact (move_inv _ _ _).symm ▸ acts_move _ _ _

/-- The rows of a walk. -/
theorem walk_rows {back : Bool} {g : El → Frame} (hg : ∀ e : El, Acts (e.advance back) (g e)) (els : List El) (p : Pose) :
    walk back els p = some ((List.scanl Frame.comp p.frame (els.map g)).map ofFrame) := by
  induction els generalizing p with
  | nil =>
    simp only [walk, List.map_nil, List.scanl_nil, List.map_cons]
    rw [frame_inj (frame_ofFrame p.frame)]
  | cons e es ih =>
    simp only [walk, List.map_cons, List.scanl_cons]
    rw [hg e p, Option.bind_some, ih, Option.bind_some, frame_ofFrame, frame_inj (frame_ofFrame p.frame)]

theorem scan_back {L : List Frame} (hL : ∀ G ∈ L, G.Ortho) (F : Frame) :
    (List.scanl Frame.comp F (L.reverse.map Frame.inv)).reverse
      = List.scanl Frame.comp ((L.reverse.map Frame.inv).foldl Frame.comp F) L := by
  induction L with
  | nil => rfl
  | cons g L ih =>
    have hg := hL g (by simp)
    have ih' := ih (fun G hG => hL G (by simp [hG]))
    simp only [List.reverse_cons, List.map_append, List.map_cons, List.map_nil, List.scanl_append, List.scanl_cons,
      List.scanl_nil, List.tail_cons, List.reverse_append, List.reverse_nil, List.nil_append, List.singleton_append,
      List.foldl_append, List.foldl_cons, List.foldl_nil]
    rw [ih', Frame.comp_assoc, Frame.inv_comp hg, Frame.comp_id]

theorem fold_back {L : List Frame} (hL : ∀ G ∈ L, G.Ortho) (F : Frame) :
    L.foldl Frame.comp ((L.reverse.map Frame.inv).foldl Frame.comp F) = F := by
  induction L with
  | nil => rfl
  | cons g L ih =>
    have hg := hL g (by simp)
    have ih' := ih (fun G hG => hL G (by simp [hG]))
    simp only [List.reverse_cons, List.map_append, List.map_cons, List.map_nil, List.foldl_append, List.foldl_cons,
      List.foldl_nil]
    rw [Frame.comp_assoc, Frame.inv_comp hg, Frame.comp_id]
    exact ih'

theorem scan_split (F : Frame) (A B : List Frame) :
    (List.scanl Frame.comp F A).dropLast ++ List.scanl Frame.comp (A.foldl Frame.comp F) B
      = List.scanl Frame.comp F (A ++ B) := by
  induction A generalizing F with
  | nil => simp
  | cons a A ih =>
    simp only [List.scanl_cons, List.foldl_cons, List.cons_append]
    rw [← ih (F.comp a)]
    cases h : List.scanl Frame.comp (F.comp a) A with
    | nil => exact absurd h (by cases A <;> simp)
    | cons x l => rfl

/-- Frame of the first row. -/
def firstFrame (els : List El) (F : Frame) (k : ℕ) : Frame :=
  (((els.take k).map El.rel).reverse.map Frame.inv).foldl Frame.comp F

theorem survey_rows (els : List El) (p : Pose) (k : ℕ) :
    getSurvey els p k = some ((List.scanl Frame.comp (firstFrame els p.frame k) (els.map El.rel)).map ofFrame) := by
  have ho : ∀ G ∈ (els.take k).map El.rel, G.Ortho := by
    intro G hG
    obtain ⟨e, _, rfl⟩ := List.mem_map.1 hG
    exact ortho_rel e
  unfold getSurvey
  by_cases h : k = 0
  · subst h
    simp only [ne_eq, not_true_eq_false, if_false]
    rw [walk_rows rel_forward]
    rfl
  · rw [if_pos h, walk_rows rel_forward, Option.bind_some, walk_rows rel_backward, Option.bind_some]
    congr 1
    rw [← List.map_reverse, ← List.map_dropLast, ← List.map_append]
    congr 1
    have e1 : (els.take k).reverse.map (fun e => e.rel.inv) = ((els.take k).map El.rel).reverse.map Frame.inv := by
      rw [← List.map_reverse, List.map_map]; rfl
    rw [e1, scan_back ho]
    have e2 := scan_split (firstFrame els p.frame k) ((els.take k).map El.rel) ((els.drop k).map El.rel)
    rw [← List.map_append, List.take_append_drop] at e2
    rw [← e2]
    congr 2
    exact (fold_back ho p.frame).symm

theorem scan_get (F : Frame) (L : List Frame) (i : ℕ) (hi : i < L.length) (h1 : i < (List.scanl Frame.comp F L).length)
    (h2 : i + 1 < (List.scanl Frame.comp F L).length) :
    (List.scanl Frame.comp F L)[i + 1] = ((List.scanl Frame.comp F L)[i]).comp L[i] := by
  induction L generalizing F i with
  | nil => simp at hi
  | cons a L ih =>
    cases i with
    | zero => simp [List.scanl_cons]
    | succ i =>
      simp only [List.scanl_cons, List.getElem_cons_succ]
      exact ih _ _ (by simpa using hi) _ _

theorem scan_first (F : Frame) (L : List Frame) (i : ℕ) (h : i < (List.scanl Frame.comp F L).length) :
    (List.scanl Frame.comp F L)[i] = F.comp ((L.take i).foldl Frame.comp Frame.id) := by
  induction L generalizing F i with
  | nil =>
    have : i = 0 := by simpa using h
    subst this
    simp [Frame.comp_id]
  | cons a L ih =>
    cases i with
    | zero => simp [List.scanl_cons, Frame.comp_id]
    | succ i =>
      simp only [List.scanl_cons, List.getElem_cons_succ, List.take_succ_cons, List.foldl_cons]
      rw [ih, Frame.id_comp, foldl_comp _ a, Frame.comp_assoc]

/-- One row of the rotations of a path. -/
theorem row_derivs (l a t f1 f2 f3 fd : ℝ) (ha : a ≠ 0) (u : ℝ) :
    let c := Real.cos t
    let s := Real.sin t
    let R13 : ℝ → ℝ := fun u => f1 * (-c * Real.sin (u * a)) + f2 * (-s * Real.sin (u * a)) + f3 * Real.cos (u * a)
    let R11 : ℝ → ℝ := fun u => f1 * (c ^ 2 * Real.cos (u * a) + s ^ 2) + f2 * (c * s * (Real.cos (u * a) - 1))
      + f3 * (c * Real.sin (u * a))
    let R12 : ℝ → ℝ := fun u => f1 * (c * s * (Real.cos (u * a) - 1)) + f2 * (s ^ 2 * Real.cos (u * a) + c ^ 2)
      + f3 * (s * Real.sin (u * a))
    let D : ℝ → ℝ := fun u => f1 * (c * (l / a * (Real.cos (u * a) - 1))) + f2 * (s * (l / a * (Real.cos (u * a) - 1)))
      + f3 * (l / a * Real.sin (u * a)) + fd
    HasDerivAt D (l * R13 u) u ∧ HasDerivAt R11 (a * c * R13 u) u ∧ HasDerivAt R12 (a * s * R13 u) u ∧
    HasDerivAt R13 (-a * (c * R11 u + s * R12 u)) u := by
  intro c s R13 R11 R12 D
  have cs : s ^ 2 + c ^ 2 = 1 := Real.sin_sq_add_cos_sq t
  have hm : HasDerivAt (fun u : ℝ => u * a) a u := by simpa using (hasDerivAt_id u).mul_const a
  have hc : HasDerivAt (fun u => Real.cos (u * a)) (-Real.sin (u * a) * a) u := hm.cos
  have hs : HasDerivAt (fun u => Real.sin (u * a)) (Real.cos (u * a) * a) u := hm.sin
  have aff : ∀ A B C : ℝ, HasDerivAt (fun u => A + B * Real.cos (u * a) + C * Real.sin (u * a))
      (B * (-Real.sin (u * a) * a) + C * (Real.cos (u * a) * a)) u := by
    intro A B C
    have := ((hc.const_mul B).const_add A).add (hs.const_mul C)
    exact this
  refine ⟨?_, ?_, ?_, ?_⟩
  · convert aff (fd - f1 * (c * (l / a)) - f2 * (s * (l / a))) (f1 * (c * (l / a)) + f2 * (s * (l / a))) (f3 * (l / a)) using 1
    · funext v; simp only [D]; ring
    · simp only [R13]; field_simp; ring
  · convert aff (f1 * s ^ 2 - f2 * (c * s)) (f1 * c ^ 2 + f2 * (c * s)) (f3 * c) using 1
    · funext v; simp only [R11]; ring
    · simp only [R13]; ring
  · convert aff (f2 * c ^ 2 - f1 * (c * s)) (f2 * s ^ 2 + f1 * (c * s)) (f3 * s) using 1
    · funext v; simp only [R12]; ring
    · simp only [R13]; ring
  · convert aff 0 f3 (-(f1 * c) - f2 * s) using 1
    · funext v; simp only [R13]; ring
    · simp only [R11, R12]
      linear_combination (-a * (f1 * c * Real.cos (u * a) + f2 * s * Real.cos (u * a) + f3 * Real.sin (u * a))) * cs

/-- The survey of an element with length, angle and tilt follows its reference path. -/
theorem follows_move (F : Frame) (l a t : ℝ) : Follows l a t F (F.comp (moveFrame l a t)) := by
  by_cases ha : a = 0
  · subst ha
    refine ⟨fun u => F.comp (Frame.shift 0 0 (u * l)), ?_, ?_, ?_⟩
    · simp [shift_zero, Frame.comp_id]
    · simp [moveFrame]
    · intro u
      have h : ∀ a1 a2 a3 d : ℝ, HasDerivAt (fun u => a1 * 0 + a2 * 0 + a3 * (u * l) + d) (l * (a1 * 0 + a2 * 0 + a3 * 1)) u := by
        intro a1 a2 a3 d
        have := (((hasDerivAt_id u).mul_const l).const_mul a3).const_add (a1 * 0 + a2 * 0)
        rw [show l * (a1 * 0 + a2 * 0 + a3 * 1) = a3 * (1 * l) by ring]
        exact this.add_const d
      have z : ∀ x : ℝ, HasDerivAt (fun _ : ℝ => x) 0 u := fun x => hasDerivAt_const u x
      simp only [Frame.comp, Frame.shift, neg_zero, zero_mul]
      exact ⟨⟨h _ _ _ _, h _ _ _ _, h _ _ _ _⟩, ⟨z _, z _, z _⟩, ⟨z _, z _, z _⟩, ⟨z _, z _, z _⟩⟩
  · let G : ℝ → Frame := fun u =>
      (Frame.roll t).comp ((⟨Real.cos (u * a), 0, -Real.sin (u * a), 0, 1, 0, Real.sin (u * a), 0, Real.cos (u * a),
        l / a * (Real.cos (u * a) - 1), 0, l / a * Real.sin (u * a)⟩ : Frame).comp (Frame.roll (-t)))
    have cs : Real.sin t ^ 2 + Real.cos t ^ 2 = 1 := Real.sin_sq_add_cos_sq t
    have hG : ∀ u, G u = ⟨Real.cos t ^ 2 * Real.cos (u * a) + Real.sin t ^ 2,
        Real.cos t * Real.sin t * (Real.cos (u * a) - 1), -Real.cos t * Real.sin (u * a),
        Real.cos t * Real.sin t * (Real.cos (u * a) - 1), Real.sin t ^ 2 * Real.cos (u * a) + Real.cos t ^ 2,
        -Real.sin t * Real.sin (u * a), Real.cos t * Real.sin (u * a), Real.sin t * Real.sin (u * a), Real.cos (u * a),
        Real.cos t * (l / a * (Real.cos (u * a) - 1)), Real.sin t * (l / a * (Real.cos (u * a) - 1)),
        l / a * Real.sin (u * a)⟩ := by
      intro u
      ext <;> simp [G, Frame.comp, Frame.roll] <;> ring
    refine ⟨fun u => F.comp (G u), ?_, ?_, ?_⟩
    · have : G 0 = Frame.id := by
        rw [hG]
        ext <;> simp [Frame.id]
      simp [this, Frame.comp_id]
    · simp [G, moveFrame, ha, arcFrame]
    · intro u
      simp only [hG]
      simp only [Frame.comp]
      obtain ⟨a1, a2, a3, a4⟩ := row_derivs l a t F.r11 F.r12 F.r13 F.d1 ha u
      obtain ⟨b1, b2, b3, b4⟩ := row_derivs l a t F.r21 F.r22 F.r23 F.d2 ha u
      obtain ⟨c1, c2, c3, c4⟩ := row_derivs l a t F.r31 F.r32 F.r33 F.d3 ha u
      exact ⟨⟨a1, b1, c1⟩, ⟨a2, b2, c2⟩, ⟨a3, b3, c3⟩, ⟨a4, b4, c4⟩⟩

end

end Verif.Survey
