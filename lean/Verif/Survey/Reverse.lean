import Verif.Survey.Slices

/-!
# C69: the survey seen from the other direction, and C70: the angles in the table
-/

namespace Verif.Survey

open Verif.Frames
open Verif.Magnets (RBendState rbendH rbendLength)

noncomputable section

/-! ## What the reversed line is -/

/-- An `RBend` seen from the other side. -/
def RB.reversed (b : RB) : RB :=
  { b with
    state := { b.state with angle := -b.state.angle, h := -b.state.h, k0 := -b.state.k0 }
    rotS := -b.rotS
    shift := -b.shift }

/-- A piece seen from the other side. -/
def Piece.reversed : Piece → Piece
  | .entry => .exit
  | .exit => .entry
  | k => k

/-- Attributes seen from the other side. -/
def Own.reversed (a : Own) : Own := ⟨a.length, -a.h, -a.hxl, -a.rotS⟩

/-- An element seen from the other side: the axes x and s have changed their sign, so a bend to the left is one to the right,
and the steps come in the reverse order. -/
def El.reversed : El → El
  | .own a t => .own a.reversed t
  | .slice k a w => .slice k.reversed a.reversed w
  | .rbend b => .rbend b.reversed
  | .rslice k b w => .rslice k.reversed b.reversed w
  | .translation sx sy => .translation sx (-sy)
  | .rotation rs rx ry a b c => .rotation rs rx (-ry) c b a
  | .xRotation t => .xRotation t
  | .yRotation t => .yRotation (-t)
  | .sRotation t => .sRotation t
  | .replica e => .replica e.reversed

/-- A frame seen after half a turn around the vertical axis, with axes turned in the same way. -/
def turned (F : Frame) : Frame :=
  ⟨F.r11, -F.r12, F.r13, -F.r21, F.r22, -F.r23, F.r31, -F.r32, F.r33, -F.d1, F.d2, -F.d3⟩

/-- `turned` is half a turn of the laboratory and of the axes. -/
theorem turned_eq (F : Frame) : turned F = (Frame.yaw Real.pi).comp (F.comp (Frame.yaw Real.pi)) := by
  ext <;> simp [turned, Frame.comp, Frame.yaw]

theorem turned_comp (F G : Frame) : turned (F.comp G) = (turned F).comp (turned G) := by
  ext <;> simp [turned, Frame.comp] <;> ring

theorem turned_turned (F : Frame) : turned (turned F) = F := by
  ext <;> simp [turned]

theorem turned_id : turned Frame.id = Frame.id := by
  ext <;> simp [turned, Frame.id]

theorem flip_frame (p : Pose) : (flipPose p).frame = turned p.frame := by
  ext <;> simp [flipPose, turned, Pose.frame]

theorem turned_move (l a t : ℝ) : turned (moveFrame l a t).inv = moveFrame l (-a) (-t) := by
  rw [move_inv]
  unfold moveFrame
  have e1 : ∀ t, turned (Frame.roll t) = Frame.roll (-t) := by
    intro t; ext <;> simp [turned, Frame.roll]
  split_ifs
  · ext <;> simp [turned, Frame.shift]
  · rw [turned_comp, turned_comp, e1, e1]
    congr 2
    ext <;> simp [turned, arcFrame]
    all_goals rw [div_neg]; ring

theorem turned_axis (rs rx ry : ℝ) (a : Axis) : turned (axisFrame (-rs) (-rx) (-ry) a) = axisFrame rs rx (-ry) a := by
  cases a <;> ext <;> simp [turned, axisFrame, Frame.pitch, Frame.yaw, Frame.roll]

theorem x0_reversed (b : RB) : b.reversed.x0In = -b.x0Out ∧ b.reversed.x0Out = -b.x0In := by
  have m : b.reversed.state.x0Mid b.reversed.shift b.reversed.sagitta = -b.state.x0Mid b.shift b.sagitta := by
    unfold RBendState.x0Mid RB.reversed
    simp only [abs_neg]
    split_ifs
    · rw [neg_div, Real.cos_neg, div_neg]; ring
    · ring
  have t1 : 0.5 * b.reversed.state.angle - b.reversed.state.angleDiff / 2 = -(0.5 * b.state.angle + b.state.angleDiff / 2) := by
    simp only [RB.reversed]; ring
  have t2 : 0.5 * b.reversed.state.angle + b.reversed.state.angleDiff / 2 = -(0.5 * b.state.angle - b.state.angleDiff / 2) := by
    simp only [RB.reversed]; ring
  have ha : |b.reversed.state.angle| = |b.state.angle| := abs_neg _
  have hh : b.reversed.state.h = -b.state.h := rfl
  have hl : b.reversed.state.lengthStraight = b.state.lengthStraight := rfl
  have sq : ∀ x y : ℝ, (-x - -b.state.h * y / 2) ^ 2 = (x - b.state.h * y / 2) ^ 2 := by intro x y; ring
  constructor
  · unfold RB.x0In RB.x0Out RBendState.x0In RBendState.x0Out
    simp only [m, t1, ha, hh, hl, Real.sin_neg, Real.cos_neg, sq]
    split_ifs
    · rw [div_neg]; ring
    · rfl
  · unfold RB.x0In RB.x0Out RBendState.x0In RBendState.x0Out
    simp only [m, t2, ha, hh, hl, Real.sin_neg, Real.cos_neg, sq]
    split_ifs
    · rw [div_neg]; ring
    · rfl

theorem angle_reversed (b : RB) : b.reversed.angleIn = -b.angleOut ∧ b.reversed.angleOut = -b.angleIn := by
  constructor <;> simp [RB.angleIn, RB.angleOut, RB.reversed] <;> ring

theorem entry_reversed (b : RB) : turned (exitRel b).inv = entryRel b.reversed := by
  unfold exitRel entryRel
  have hs : b.reversed.straight = b.straight := rfl
  have ha : |b.reversed.state.angle| = |b.state.angle| := abs_neg _
  have ht : b.reversed.rotS = -b.rotS := rfl
  rw [hs, ha, ht, (angle_reversed b).1, (x0_reversed b).1]
  by_cases h : b.straight = true
  · simp only [h, if_true]
    by_cases h2 : |b.state.angle| > 1e-10
    · simp only [if_pos h2]
      rw [comp_inv_rev (ortho_shift _ _ _) (ortho_moveFrame _ _ _), turned_comp, turned_move, shift_inv]
      congr 1
      ext <;> simp [turned, Frame.shift]
    · simp only [if_neg h2]
      rw [comp_inv_rev ortho_id (ortho_moveFrame _ _ _), turned_comp, turned_move, id_inv, turned_id]
  · simp [h, id_inv, turned_id]

theorem exit_reversed (b : RB) : turned (entryRel b).inv = exitRel b.reversed := by
  unfold exitRel entryRel
  have hs : b.reversed.straight = b.straight := rfl
  have ha : |b.reversed.state.angle| = |b.state.angle| := abs_neg _
  have ht : b.reversed.rotS = -b.rotS := rfl
  rw [hs, ha, ht, (angle_reversed b).2, (x0_reversed b).2]
  by_cases h : b.straight = true
  · simp only [h, if_true]
    by_cases h2 : |b.state.angle| > 1e-10
    · simp only [if_pos h2]
      rw [comp_inv_rev (ortho_moveFrame _ _ _) (ortho_shift _ _ _), turned_comp, turned_move, shift_inv]
      congr 1
      ext <;> simp [turned, Frame.shift]
    · simp only [if_neg h2]
      rw [comp_inv_rev (ortho_moveFrame _ _ _) ortho_id, turned_comp, turned_move, id_inv, turned_id]
  · simp [h, id_inv, turned_id]

theorem resolve_reversed (e : El) : e.reversed.resolve = e.resolve.reversed := by
  induction e with
  | replica e ih => exact ih
  | _ => rfl

theorem resolve_resolve (e : El) : e.resolve.resolve = e.resolve := by
  induction e with
  | replica e ih => exact ih
  | _ => rfl

theorem replica_move (e : El) : (El.replica e).driftLength = (El.replica e.resolve).driftLength ∧
    (El.replica e).angle = (El.replica e.resolve).angle ∧ (El.replica e).tilt = (El.replica e.resolve).tilt := by
  refine ⟨?_, ?_, ?_⟩
  · simp only [El.driftLength, El.isThick, El.length, El.resolve, resolve_resolve]
    rfl
  · simp only [El.angle, El.angleBody, El.resolve, resolve_resolve]
    rfl
  · simp only [El.tilt, El.resolve, resolve_resolve]
    rfl

theorem move_reversed (e : El) (h : ∀ e', e = .replica e' → e'.resolve = e') :
    moveFrame e.reversed.driftLength e.reversed.angle e.reversed.tilt
      = moveFrame e.driftLength (-e.angle) (-e.tilt) := by
  have zero : ∀ t s : ℝ, moveFrame 0 0 t = moveFrame 0 0 s := by
    intro t s; rw [drift_zero_frame, drift_zero_frame]
  have key : (e.reversed.driftLength = e.driftLength ∧ e.reversed.angle = -e.angle ∧ e.reversed.tilt = -e.tilt) ∨
      (e.reversed.driftLength = 0 ∧ e.reversed.angle = 0 ∧ e.driftLength = 0 ∧ e.angle = 0) := by
    cases e with
    | own a t =>
      left
      refine ⟨?_, ?_, ?_⟩ <;> simp [El.reversed, El.driftLength, El.isThick, El.length, El.resolve, El.ownOf, El.parentOf,
        El.weightOf, El.angle, El.angleBody, El.tilt, Own.reversed]
      ring
    | slice k a w =>
      left
      cases k <;> refine ⟨?_, ?_, ?_⟩ <;> simp [El.reversed, El.driftLength, El.isThick, El.length, El.resolve, El.ownOf,
        El.parentOf, El.weightOf, El.angle, El.angleBody, El.tilt, Own.reversed, Piece.reversed, Piece.isThick,
        El.inheritFlag, El.tiltFlag, Piece.inherits, Piece.tilts] <;> ring
    | rbend b =>
      left
      refine ⟨?_, ?_, ?_⟩ <;> simp [El.reversed, El.driftLength, El.isThick, El.length, El.resolve, El.ownOf, El.parentOf,
        El.weightOf, El.angle, El.angleBody, El.tilt, RB.reversed, RB.attrs]
    | rslice k b w =>
      left
      by_cases hs : b.straight = true <;>
      cases k <;> refine ⟨?_, ?_, ?_⟩ <;> simp [El.reversed, El.driftLength, El.isThick, El.length, El.resolve, El.ownOf,
        El.parentOf, El.weightOf, El.angle, El.angleBody, El.tilt, RB.reversed, RB.attrs, Piece.reversed, Piece.isThick,
        El.inheritFlag, El.tiltFlag, Piece.inherits, Piece.tilts, hs] <;> ring
    | translation sx sy =>
      right
      simp [El.reversed, El.driftLength, El.isThick, El.resolve, El.ownOf, El.parentOf, El.angle, El.angleBody]
    | rotation rs rx ry a b c =>
      right
      simp [El.reversed, El.driftLength, El.isThick, El.resolve, El.ownOf, El.parentOf, El.angle, El.angleBody]
    | xRotation t =>
      right
      simp [El.reversed, El.driftLength, El.isThick, El.resolve, El.ownOf, El.parentOf, El.angle, El.angleBody]
    | yRotation t =>
      right
      simp [El.reversed, El.driftLength, El.isThick, El.resolve, El.ownOf, El.parentOf, El.angle, El.angleBody]
    | sRotation t =>
      right
      simp [El.reversed, El.driftLength, El.isThick, El.resolve, El.ownOf, El.parentOf, El.angle, El.angleBody]
    | replica e =>
      have hr := h e rfl
      cases e with
      | own a t =>
        left
        refine ⟨?_, ?_, ?_⟩ <;> simp [El.reversed, El.driftLength, El.isThick, El.length, El.resolve, El.ownOf, El.parentOf,
          El.weightOf, El.angle, El.angleBody, El.tilt, Own.reversed]
        ring
      | slice k a w =>
        left
        cases k <;> refine ⟨?_, ?_, ?_⟩ <;> simp [El.reversed, El.driftLength, El.isThick, El.length, El.resolve, El.ownOf,
          El.parentOf, El.weightOf, El.angle, El.angleBody, El.tilt, Own.reversed, Piece.reversed, Piece.isThick,
          El.inheritFlag, El.tiltFlag]
      | rbend b =>
        left
        refine ⟨?_, ?_, ?_⟩ <;> simp [El.reversed, El.driftLength, El.isThick, El.length, El.resolve, El.ownOf, El.parentOf,
          El.weightOf, El.angle, El.angleBody, El.tilt, RB.reversed, RB.attrs]
      | rslice k b w =>
        left
        by_cases hs : b.straight = true <;>
        cases k <;> refine ⟨?_, ?_, ?_⟩ <;> simp [El.reversed, El.driftLength, El.isThick, El.length, El.resolve, El.ownOf,
          El.parentOf, El.weightOf, El.angle, El.angleBody, El.tilt, RB.reversed, RB.attrs, Piece.reversed, Piece.isThick,
          El.inheritFlag, El.tiltFlag, hs] <;> ring
      | replica e2 => 
        exfalso
        have c := congrArg sizeOf hr
        have le : ∀ e : El, sizeOf e.resolve ≤ sizeOf e := by
          intro e
          induction e with
          | replica e ih => 
            show sizeOf e.resolve ≤ _
            have : sizeOf (El.replica e) = 1 + sizeOf e := rfl
            omega
          | _ => exact le_refl _
        have l2 := le e2
        have : sizeOf (El.replica e2) = 1 + sizeOf e2 := rfl
        have c' : sizeOf e2.resolve = sizeOf (El.replica e2) := c
        omega
      | _ =>
        right
        simp [El.reversed, El.driftLength, El.isThick, El.resolve, El.ownOf, El.parentOf, El.angle, El.angleBody]
  rcases key with ⟨a, b, c⟩ | ⟨a, b, c, d⟩
  · rw [a, b, c]
  · rw [a, b, c, d, neg_zero]
    exact zero _ _

theorem rel_reversed (e : El) : e.reversed.rel = turned e.rel.inv := by
  have gen : ∀ e : El, moveFrame e.reversed.driftLength e.reversed.angle e.reversed.tilt
      = turned (moveFrame e.driftLength e.angle e.tilt).inv := by
    intro e
    rw [turned_move]
    cases e with
    | replica e =>
      obtain ⟨a, b, c⟩ := replica_move e
      obtain ⟨a', b', c'⟩ := replica_move e.reversed
      show moveFrame (El.replica e.reversed).driftLength (El.replica e.reversed).angle (El.replica e.reversed).tilt = _
      rw [a, b, c, a', b', c', resolve_reversed]
      exact move_reversed (.replica e.resolve) (fun e' h => by
        have := (El.replica.inj h)
        rw [← this, resolve_resolve])
    | _ => exact move_reversed _ (fun _ h => by simp at h)
  cases e with
  | rslice k b w =>
    cases k with
    | thick =>
      show moveFrame _ _ _ = turned (moveFrame _ _ _).inv
      rw [turned_move]
      by_cases h : b.straight = true <;> simp [RB.reversed, h]
    | drift =>
      show moveFrame _ _ _ = turned (moveFrame _ _ _).inv
      rw [turned_move, neg_zero]
      rfl
    | entry => exact (exit_reversed b).symm
    | exit => exact (entry_reversed b).symm
    | thin => exact gen (.rslice .thin b w)
  | translation sx sy =>
    show Frame.shift _ _ _ = turned (Frame.shift _ _ _).inv
    rw [shift_inv]
    ext <;> simp [turned, Frame.shift]
  | rotation rs rx ry a b c =>
    show axesFrame _ _ _ _ = turned (axesFrame _ _ _ _).inv
    rw [axes_inv]
    simp only [axesFrame, turned_comp, turned_axis, turned_id]
  | xRotation t =>
    show Frame.pitch _ = turned (Frame.pitch _).inv
    rw [pitch_inv]
    ext <;> simp [turned, Frame.pitch]
  | yRotation t =>
    show Frame.yaw _ = turned (Frame.yaw _).inv
    rw [yaw_inv]
    ext <;> simp [turned, Frame.yaw]
  | sRotation t =>
    show Frame.roll _ = turned (Frame.roll _).inv
    rw [roll_inv]
    ext <;> simp [turned, Frame.roll]
  | own a t => exact gen (.own a t)
  | slice k a w => exact gen (.slice k a w)
  | rbend b => exact gen (.rbend b)
  | replica e => exact gen (.replica e)

theorem revRows_eq {α : Type} (l : List α) : revRows l = l.reverse := by
  cases l <;> simp [revRows]

/-- The frames of a table in reverse order, half a turn around. -/
theorem scan_reversed {L : List Frame} (hL : ∀ G ∈ L, G.Ortho) (F : Frame) :
    (List.scanl Frame.comp F L).reverse.map turned
      = List.scanl Frame.comp (turned (L.foldl Frame.comp F)) (L.reverse.map fun G => turned G.inv) := by
  induction L generalizing F with
  | nil => rfl
  | cons g L ih =>
    have hg := hL g (by simp)
    have ih' := ih (fun G hG => hL G (by simp [hG])) (F.comp g)
    have back : ∀ (L : List Frame), (∀ G ∈ L, G.Ortho) → ∀ F : Frame,
        (L.reverse.map fun G => turned G.inv).foldl Frame.comp (turned (L.foldl Frame.comp F)) = turned F := by
      intro L
      induction L with
      | nil => intro _ F; rfl
      | cons g L ih =>
        intro hL F
        simp only [List.foldl_cons, List.reverse_cons, List.map_append, List.foldl_append, List.map_cons, List.map_nil,
          List.foldl_nil]
        rw [ih (fun G hG => hL G (by simp [hG])), ← turned_comp, Frame.comp_assoc, Frame.comp_inv (hL g (by simp)),
          Frame.comp_id]
    simp only [List.scanl_cons, List.reverse_cons, List.map_append, List.map_cons, List.map_nil, List.foldl_cons,
      List.scanl_append, List.scanl_nil, List.tail_cons]
    rw [ih', back L (fun G hG => hL G (by simp [hG])), ← turned_comp, Frame.comp_assoc, Frame.comp_inv hg, Frame.comp_id]

/-! ## C69 -/

/-- The reversed table is the survey of the reversed line: the elements in reverse order, each seen from the other side,
starting at the reversed last row. -/
theorem C69_reversed_line (els : List El) (P : Pose) (k : ℕ) :
    ∃ rows last, getSurvey els P k = some rows ∧ rows.getLast? = some last ∧
      getSurvey (els.reverse.map El.reversed) (flipPose last) 0 = some (reversePoses rows) := by
  have ho : ∀ G ∈ els.map El.rel, G.Ortho := by
    intro G hG
    obtain ⟨e, _, rfl⟩ := List.mem_map.1 hG
    exact ortho_rel e
  have hlast : ∀ (L : List Frame) (F : Frame), (List.scanl Frame.comp F L).getLast? = some (L.foldl Frame.comp F) := by
    intro L
    induction L with
    | nil => intro F; rfl
    | cons g L ih =>
      intro F
      rw [List.scanl_cons, List.foldl_cons, ← ih, List.getLast?_cons_of_ne_nil]
      simp
  refine ⟨_, ofFrame ((els.map El.rel).foldl Frame.comp (firstFrame els P.frame k)), survey_rows _ _ _, ?_, ?_⟩
  · rw [List.getLast?_map, hlast]
    rfl
  · rw [survey_rows]
    congr 1
    unfold reversePoses
    rw [revRows_eq, ← List.map_reverse, List.map_map (f := ofFrame)]
    have e1 : (flipPose ∘ ofFrame) = ofFrame ∘ turned := by
      funext F
      apply frame_inj
      simp only [Function.comp_apply]
      rw [flip_frame, frame_ofFrame, frame_ofFrame]
    rw [e1, ← List.map_map, scan_reversed ho, flip_frame, frame_ofFrame]
    congr 2
    rw [← List.map_reverse, List.map_map, List.map_map]
    apply List.map_congr_left
    intro e _
    exact rel_reversed e

/-- The reference path of a magnet in the reversed table: the same length, the opposite angle and tilt. -/
theorem C69_follows {l a t : ℝ} {F F' : Frame} (h : Follows l a t F F') : Follows l (-a) (-t) (turned F') (turned F) := by
  obtain ⟨P, h0, h1, hd⟩ := h
  refine ⟨fun u => turned (P (1 - u)), by simp [h1], by simp [h0], ?_⟩
  intro u
  have sub : HasDerivAt (fun u : ℝ => 1 - u) (-1) u := by
    simpa using (hasDerivAt_id u).const_sub 1
  have ch : ∀ {f : ℝ → ℝ} {d : ℝ}, HasDerivAt f d (1 - u) → HasDerivAt (fun u => f (1 - u)) (-d) u := by
    intro f d hf
    have := HasDerivAt.scomp u hf sub
    simpa [Function.comp_def] using this
  obtain ⟨⟨d1, d2, d3⟩, ⟨a1, a2, a3⟩, ⟨b1, b2, b3⟩, ⟨c1, c2, c3⟩⟩ := hd (1 - u)
  simp only [turned, Real.cos_neg, Real.sin_neg]
  refine ⟨⟨?_, ?_, ?_⟩, ⟨?_, ?_, ?_⟩, ⟨?_, ?_, ?_⟩, ?_, ?_, ?_⟩
  · exact (ch d1).neg.congr_deriv (by ring)
  · exact (ch d2).congr_deriv (by ring)
  · exact (ch d3).neg.congr_deriv (by ring)
  · exact (ch a1).congr_deriv (by ring)
  · exact (ch a2).neg.congr_deriv (by ring)
  · exact (ch a3).congr_deriv (by ring)
  · exact (ch b1).neg.congr_deriv (by ring)
  · exact (ch b2).congr_deriv (by ring)
  · exact (ch b3).neg.congr_deriv (by ring)
  · exact (ch c1).congr_deriv (by ring)
  · exact (ch c2).neg.congr_deriv (by ring)
  · exact (ch c3).congr_deriv (by ring)

/-- Reversing twice gives the table back: poses and names for every table, positions when they start at zero. -/
theorem C69_involution (rows : List Pose) (names : List String) (s : List ℝ) (h : s.head? = some 0) :
    reversePoses (reversePoses rows) = rows ∧ reverseProps (reverseProps names) = names ∧ reverseS (reverseS s) = s := by
  refine ⟨?_, ?_, ?_⟩
  · unfold reversePoses
    rw [revRows_eq, revRows_eq, ← List.map_reverse, List.reverse_reverse, List.map_map]
    have : flipPose ∘ flipPose = id := by
      funext p
      apply frame_inj
      simp only [Function.comp_apply]
      rw [flip_frame, flip_frame, turned_turned]
      rfl
    rw [this, List.map_id]
  · rcases List.eq_nil_or_concat names with h | ⟨l, a, h⟩
    · subst h; rfl
    · subst h
      simp [reverseProps]
  · unfold reverseS
    rw [revRows_eq, revRows_eq, ← List.map_reverse, List.reverse_reverse, List.map_map]
    cases s with
    | nil => rfl
    | cons a l =>
      have : a = 0 := by simpa using h
      subst this
      have e : ((((0 : ℝ) :: l).reverse.map fun x => ((0 : ℝ) :: l).getLastD 0 - x).getLastD 0) = ((0 : ℝ) :: l).getLastD 0 := by
        simp [List.reverse_cons, List.getLastD_eq_getLast?]
      rw [e]
      conv_rhs => rw [← List.map_id ((0 : ℝ) :: l)]
      apply List.map_congr_left
      intro x _
      simp

/-- The columns of the reversed table: positions add up the lengths in reverse order, names come in reverse order, and the
last row stays last. -/
theorem C69_columns (lens : List ℝ) (names : List String) (endName : String) :
    reverseS (lens.scanl (· + ·) 0) = lens.reverse.scanl (· + ·) 0 ∧
    reverseProps (names ++ [endName]) = names.reverse ++ [endName] := by
  constructor
  · unfold reverseS
    rw [revRows_eq]
    have last : ∀ (L : List ℝ) (a : ℝ), (L.scanl (· + ·) a).getLastD 0 = a + L.sum := by
      intro L
      induction L with
      | nil => intro a; simp
      | cons b L ih =>
        intro a
        have := ih (a + b)
        rw [List.scanl_cons, List.sum_cons, ← add_assoc, ← this]
        cases L <;> simp [List.scanl_cons]
    rw [last, zero_add]
    have gen : ∀ (L : List ℝ) (a : ℝ), (L.scanl (· + ·) a).reverse.map (fun x => a + L.sum - x) = L.reverse.scanl (· + ·) 0 := by
      intro L
      induction L with
      | nil => intro a; simp
      | cons b L ih =>
        intro a
        have h := ih (a + b)
        simp only [List.scanl_cons, List.reverse_cons, List.map_append, List.map_cons, List.map_nil, List.sum_cons,
          List.scanl_append, List.scanl_nil, List.tail_cons]
        rw [← add_assoc, h]
        congr 2
        have : ∀ (L : List ℝ) (c : ℝ), L.foldl (· + ·) c = c + L.sum := by
          intro L
          induction L with
          | nil => intro c; simp
          | cons d L ih => intro c; simp [ih, add_assoc]
        rw [this, List.sum_reverse]
        ring
    have := gen lens 0
    rwa [zero_add] at this
  · simp [reverseProps]

/-- The reversed line of a bend of one radian and a drift: the bend comes last and turns to the other side. -/
example : [El.own ⟨1, 1, 0, 0.2⟩ true, .own ⟨2, 0, 0, 0⟩ true].reverse.map El.reversed
    = [.own ⟨2, 0, 0, 0⟩ true, .own ⟨1, -1, 0, -0.2⟩ true] := by
  simp [El.reversed, Own.reversed]

/-! ## C70 -/

theorem wrap_mod (d : ℝ) : ∃ n : ℤ, wrap d = d + n * (2 * Real.pi) := by
  unfold wrap
  simp only
  split_ifs with h
  · refine ⟨-⌊(d + Real.pi) / (2 * Real.pi)⌋ + 1, ?_⟩
    push_cast
    linarith [h.1]
  · refine ⟨-⌊(d + Real.pi) / (2 * Real.pi)⌋, ?_⟩
    push_cast
    ring

theorem wrap_small (d : ℝ) : |wrap d| ≤ Real.pi := by
  have pi0 := Real.pi_pos
  unfold wrap
  simp only
  split_ifs with h
  · rw [abs_of_pos pi0]
  · have h1 := Int.floor_le ((d + Real.pi) / (2 * Real.pi))
    have h2 := Int.lt_floor_add_one ((d + Real.pi) / (2 * Real.pi))
    rw [le_div_iff₀ (by positivity)] at h1
    rw [div_lt_iff₀ (by positivity)] at h2
    rw [abs_le]
    constructor <;> nlinarith

theorem go_mod (l : List ℝ) (prev acc : ℝ) (h : ∃ n : ℤ, acc = prev + n * (2 * Real.pi)) :
    List.Forall₂ (fun y z => ∃ n : ℤ, z = y + n * (2 * Real.pi)) l (unwrap.go prev acc l) := by
  induction l generalizing prev acc with
  | nil => exact .nil
  | cons y l ih =>
    have hh : ∃ n : ℤ, acc + wrap (y - prev) = y + n * (2 * Real.pi) := by
      obtain ⟨n, hn⟩ := h
      obtain ⟨m, hm⟩ := wrap_mod (y - prev)
      refine ⟨n + m, ?_⟩
      rw [hn, hm]
      push_cast
      ring
    exact .cons hh (ih _ _ hh)

/-- `np.unwrap` changes angles by full turns only. -/
theorem unwrap_mod (l : List ℝ) : List.Forall₂ (fun y z => ∃ n : ℤ, z = y + n * (2 * Real.pi)) l (unwrap l) := by
  cases l with
  | nil => exact .nil
  | cons x l => exact .cons ⟨0, by simp⟩ (go_mod l x x ⟨0, by simp⟩)

theorem go_jump (l : List ℝ) (prev acc : ℝ) : List.IsChain (fun y z => |z - y| ≤ Real.pi) (acc :: unwrap.go prev acc l) := by
  induction l generalizing prev acc with
  | nil => simp [unwrap.go]
  | cons y l ih =>
    rw [unwrap.go, List.isChain_cons_cons]
    refine ⟨?_, ih _ _⟩
    rw [add_sub_cancel_left]
    exact wrap_small _

/-- A row whose vertical axis is not horizontal: the three angles give its axes back. -/
theorem euler_row {w : M3} (ho : (Pose.mk 0 w).frame.Ortho) (h : w 1 1 ≠ 0) :
    fromAngles (thetaOf w) (phiOf w) (psiOf w) = w := by
  obtain ⟨q11, q12, q13, q21, q22, q23, q31, q32, q33⟩ := ho.cof
  have row2 := ho.inv.c22
  have col3 := ho.c33
  have c13 := ho.c13
  have c23 := ho.c23
  simp only [Pose.frame, Frame.inv] at row2 col3 c13 c23 q11 q12 q13 q21 q22 q23 q31 q32 q33
  have hpos' : 0 < w 1 1 ^ 2 + w 1 0 ^ 2 := by positivity
  have hsum : w 1 1 ^ 2 + w 1 0 ^ 2 = w 2 2 ^ 2 + w 0 2 ^ 2 := by linear_combination row2 - col3
  have hpos : 0 < w 2 2 ^ 2 + w 0 2 ^ 2 := by rw [← hsum]; exact hpos'
  generalize hn : Real.sqrt (w 2 2 ^ 2 + w 0 2 ^ 2) = n
  have hn0 : 0 < n := by rw [← hn]; exact Real.sqrt_pos.2 hpos
  have hn2 : n ^ 2 = w 2 2 ^ 2 + w 0 2 ^ 2 := by rw [← hn]; exact Real.sq_sqrt hpos.le
  have hnn : n ≠ 0 := hn0.ne'
  have hone : n ^ 2 + w 1 2 ^ 2 = 1 := by rw [hn2]; linear_combination col3
  have st : Real.sin (thetaOf w) = w 0 2 / n := by
    unfold thetaOf; rw [sin_atan2, hn]
  have ct : Real.cos (thetaOf w) = w 2 2 / n := by
    unfold thetaOf; rw [cos_atan2 hpos, hn]
  have ss : Real.sin (psiOf w) = w 1 0 / n := by
    unfold psiOf; rw [sin_atan2, hsum, hn]
  have cs : Real.cos (psiOf w) = w 1 1 / n := by
    unfold psiOf; rw [cos_atan2 hpos', hsum, hn]
  have hd : w 1 1 / Real.cos (psiOf w) = n := by
    rw [cs]; field_simp
  have sp : Real.sin (phiOf w) = w 1 2 := by
    unfold phiOf; rw [sin_atan2, hd, hone, Real.sqrt_one, div_one]
  have cp : Real.cos (phiOf w) = n := by
    unfold phiOf
    rw [cos_atan2 (by rw [hd, hone]; exact one_pos), hd, hone, Real.sqrt_one, div_one]
  have key : (Pose.mk 0 (fromAngles (thetaOf w) (phiOf w) (psiOf w))).frame = (Pose.mk 0 w).frame := by
    ext <;> simp [Pose.frame, fromAngles, lit, st, ct, ss, cs, sp, cp] <;> field_simp
    · linear_combination -(w 0 0) * hn2 + w 2 2 * q22 - w 0 2 * c13
    · linear_combination -(w 0 1) * hn2 - w 2 2 * q21 - w 0 2 * c23
    · linear_combination -(w 2 0) * hn2 - w 0 2 * q22 - w 2 2 * c13
    · linear_combination -(w 2 1) * hn2 + w 0 2 * q21 - w 2 2 * c23
  have := frame_inj key
  exact (Pose.mk.inj this).2

theorem fromAngles_mod {a b c a' b' c' : ℝ} (ha : ∃ n : ℤ, a' = a + n * (2 * Real.pi)) (hb : ∃ n : ℤ, b' = b + n * (2 * Real.pi))
    (hc : ∃ n : ℤ, c' = c + n * (2 * Real.pi)) : fromAngles a' b' c' = fromAngles a b c := by
  obtain ⟨i, rfl⟩ := ha
  obtain ⟨j, rfl⟩ := hb
  obtain ⟨k, rfl⟩ := hc
  simp only [fromAngles, Real.cos_add_int_mul_two_pi, Real.sin_add_int_mul_two_pi]

theorem col_get {f : Pose → ℝ} {rows : List Pose} {i : ℕ} {p : Pose} (h : rows[i]? = some p) :
    ∃ a, (unwrap (rows.map f))[i]? = some a ∧ ∃ n : ℤ, a = f p + n * (2 * Real.pi) := by
  have hf := List.forall₂_iff_get.1 (unwrap_mod (rows.map f))
  obtain ⟨hi, hp⟩ := List.getElem?_eq_some_iff.1 h
  have hi1 : i < (rows.map f).length := by simpa using hi
  have hi2 : i < (unwrap (rows.map f)).length := hf.1 ▸ hi1
  refine ⟨_, List.getElem?_eq_getElem hi2, ?_⟩
  have := hf.2 i hi1 hi2
  simpa [hp] using this

/-- The angles in the table describe the axes, wherever the vertical axis of the row is not horizontal: a survey started from
the same element with the position and the angles found in its row is the same survey. -/
theorem C70_angles_partial (els : List El) (X0 Y0 Z0 theta0 phi0 psi0 : ℝ) (k : ℕ) (rows : List Pose)
    (h : survey els X0 Y0 Z0 theta0 phi0 psi0 k = some rows) (i : ℕ) (p : Pose) (hp : rows[i]? = some p) (hv : p.w 1 1 ≠ 0) :
    ∃ a b c, (thetaCol rows)[i]? = some a ∧ (phiCol rows)[i]? = some b ∧ (psiCol rows)[i]? = some c ∧
      fromAngles a b c = p.w ∧ survey els (p.v 0) (p.v 1) (p.v 2) a b c i = some rows := by
  obtain ⟨a, ha, ma⟩ := col_get (f := fun p => thetaOf p.w) hp
  obtain ⟨b, hb, mb⟩ := col_get (f := fun p => phiOf p.w) hp
  obtain ⟨c, hc, mc⟩ := col_get (f := fun p => psiOf p.w) hp
  have ho : p.frame.Ortho := by
    rw [(row_eq h hp).2]
    refine (ortho_first els (ortho_start X0 Y0 Z0 theta0 phi0 psi0) k).comp (ortho_fold ?_)
    intro G hG
    obtain ⟨e, _, rfl⟩ := List.mem_map.1 (List.mem_of_mem_take hG)
    exact ortho_rel e
  have ho' : (Pose.mk 0 p.w).frame.Ortho := by
    obtain ⟨a1, a2, a3, a4, a5, a6, a7⟩ := ho
    exact ⟨a1, a2, a3, a4, a5, a6, a7⟩
  have e : fromAngles a b c = p.w := by
    rw [fromAngles_mod ma mb mc]
    exact euler_row ho' hv
  refine ⟨a, b, c, ha, hb, hc, e, ?_⟩
  have hv3 : (Pose.mk ![p.v 0, p.v 1, p.v 2] (fromAngles a b c)) = p := by
    rw [e]
    apply frame_inj
    ext <;> simp [Pose.frame]
  show getSurvey els (Pose.mk ![p.v 0, p.v 1, p.v 2] (fromAngles a b c)) i = _
  rw [hv3]
  exact C67_restart els _ k i rows h p hp

/-- The angles in the table do not jump: from row to row each changes by at most half a turn. -/
theorem C70_continuous (l : List ℝ) : List.IsChain (fun y z => |z - y| ≤ Real.pi) (unwrap l) := by
  cases l with
  | nil => exact .nil
  | cons x l => exact go_jump l x x

/-- The row at the starting element reports the angles it was started with, up to full turns. -/
theorem C70_start {theta phi psi : ℝ} (h : 0 < Real.cos phi) (h2 : Real.cos psi ≠ 0) :
    Real.cos (thetaOf (fromAngles theta phi psi)) = Real.cos theta ∧ Real.sin (thetaOf (fromAngles theta phi psi)) = Real.sin theta ∧
    Real.cos (phiOf (fromAngles theta phi psi)) = Real.cos phi ∧ Real.sin (phiOf (fromAngles theta phi psi)) = Real.sin phi ∧
    Real.cos (psiOf (fromAngles theta phi psi)) = Real.cos psi ∧ Real.sin (psiOf (fromAngles theta phi psi)) = Real.sin psi := by
  have n1 : ∀ x : ℝ, (Real.cos x * Real.cos phi) ^ 2 + (Real.sin x * Real.cos phi) ^ 2 = Real.cos phi ^ 2 := by
    intro x
    linear_combination Real.cos phi ^ 2 * Real.sin_sq_add_cos_sq x
  have n2 : (Real.cos phi * Real.cos psi) ^ 2 + (Real.cos phi * Real.sin psi) ^ 2 = Real.cos phi ^ 2 := by
    linear_combination Real.cos phi ^ 2 * Real.sin_sq_add_cos_sq psi
  have sq : Real.sqrt (Real.cos phi ^ 2) = Real.cos phi := Real.sqrt_sq h.le
  have pos : 0 < Real.cos phi ^ 2 := by positivity
  have cs : Real.cos (psiOf (fromAngles theta phi psi)) = Real.cos psi := by
    show Real.cos (atan2 (Real.cos phi * Real.sin psi) (Real.cos phi * Real.cos psi)) = _
    rw [cos_atan2 (by rw [n2]; exact pos), n2, sq, mul_div_cancel_left₀ _ h.ne']
  have ss : Real.sin (psiOf (fromAngles theta phi psi)) = Real.sin psi := by
    show Real.sin (atan2 (Real.cos phi * Real.sin psi) (Real.cos phi * Real.cos psi)) = _
    rw [sin_atan2, n2, sq, mul_div_cancel_left₀ _ h.ne']
  have d : fromAngles theta phi psi 1 1 / Real.cos (psiOf (fromAngles theta phi psi)) = Real.cos phi := by
    rw [cs]
    show Real.cos phi * Real.cos psi / Real.cos psi = _
    rw [mul_div_cancel_right₀ _ h2]
  have one : Real.cos phi ^ 2 + Real.sin phi ^ 2 = 1 := Real.cos_sq_add_sin_sq phi
  have e12 : fromAngles theta phi psi 1 2 = Real.sin phi := rfl
  refine ⟨?_, ?_, ?_, ?_, cs, ss⟩
  · show Real.cos (atan2 (Real.sin theta * Real.cos phi) (Real.cos theta * Real.cos phi)) = _
    rw [cos_atan2 (by rw [n1]; exact pos), n1, sq, mul_div_cancel_right₀ _ h.ne']
  · show Real.sin (atan2 (Real.sin theta * Real.cos phi) (Real.cos theta * Real.cos phi)) = _
    rw [sin_atan2, n1, sq, mul_div_cancel_right₀ _ h.ne']
  · unfold phiOf
    rw [d, e12, cos_atan2 (by rw [one]; exact one_pos), one, Real.sqrt_one, div_one]
  · unfold phiOf
    rw [d, e12, sin_atan2, one, Real.sqrt_one, div_one]

/-- A row which is rolled and inclined. -/
example : fromAngles 1 0.5 0.3 1 1 ≠ 0 ∧ 0 < Real.cos 0.5 ∧ Real.cos 0.3 ≠ 0 := by
  have p := Real.two_le_pi
  have h1 : 0 < Real.cos 0.5 := Real.cos_pos_of_mem_Ioo ⟨by norm_num; linarith, by norm_num; linarith⟩
  have h2 : 0 < Real.cos 0.3 := Real.cos_pos_of_mem_Ioo ⟨by norm_num; linarith, by norm_num; linarith⟩
  refine ⟨?_, h1, h2.ne'⟩
  show Real.cos 0.5 * Real.cos 0.3 ≠ 0
  positivity

end

end Verif.Survey
