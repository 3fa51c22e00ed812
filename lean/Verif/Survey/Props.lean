import Verif.Survey.Lemmas
import Mathlib.Analysis.Calculus.MeanValue

/-!
# C65, C66, C67: the survey follows the reference path, agrees with tracking and does not depend on its start
-/

namespace Verif.Survey

open Verif.Frames

noncomputable section

/-! ## C65: rows -/

theorem const_of {f : ℝ → ℝ} (h : ∀ u, HasDerivAt f 0 u) (x y : ℝ) : f x = f y :=
  is_const_of_deriv_eq_zero (fun u => (h u).differentiableAt) (fun u => (h u).deriv) x y

/-- Two solutions for one row of the axes with the same start are equal. -/
theorem row_unique {a c s l : ℝ} (cs : s ^ 2 + c ^ 2 = 1) {d x y z d' x' y' z' : ℝ → ℝ}
    (hd : ∀ u, HasDerivAt d (l * z u) u) (hx : ∀ u, HasDerivAt x (a * c * z u) u) (hy : ∀ u, HasDerivAt y (a * s * z u) u)
    (hz : ∀ u, HasDerivAt z (-a * (c * x u + s * y u)) u)
    (hd' : ∀ u, HasDerivAt d' (l * z' u) u) (hx' : ∀ u, HasDerivAt x' (a * c * z' u) u)
    (hy' : ∀ u, HasDerivAt y' (a * s * z' u) u) (hz' : ∀ u, HasDerivAt z' (-a * (c * x' u + s * y' u)) u)
    (e1 : d 0 = d' 0) (e2 : x 0 = x' 0) (e3 : y 0 = y' 0) (e4 : z 0 = z' 0) (u : ℝ) :
    d u = d' u ∧ x u = x' u ∧ y u = y' u ∧ z u = z' u := by
  -- the component which does not move
  have hB : ∀ u, HasDerivAt (fun u => c * (y u - y' u) - s * (x u - x' u)) 0 u := by
    intro u
    have := (((hy u).sub (hy' u)).const_mul c).sub (((hx u).sub (hx' u)).const_mul s)
    exact this.congr_deriv (by ring)
  -- the rotation keeps the square
  have hE : ∀ u, HasDerivAt (fun u => (c * (x u - x' u) + s * (y u - y' u)) ^ 2 + (z u - z' u) ^ 2) 0 u := by
    intro u
    have h1 := ((((hx u).sub (hx' u)).const_mul c).add (((hy u).sub (hy' u)).const_mul s)).pow 2
    have h2 := ((hz u).sub (hz' u)).pow 2
    refine (h1.add h2).congr_deriv ?_
    simp only [Pi.sub_apply, Pi.add_apply]
    push_cast
    linear_combination (2 * a * (c * (x u - x' u) + s * (y u - y' u)) * (z u - z' u)) * cs
  have b0 := const_of hB u 0
  have q0 := const_of hE u 0
  simp only [e2, e3, e4, sub_self, mul_zero, add_zero, ne_eq, OfNat.ofNat_ne_zero, not_false_eq_true, zero_pow] at b0 q0
  have allz : ∀ v, z v = z' v := by
    intro v
    have q := const_of hE v 0
    simp only [e2, e3, e4, sub_self, mul_zero, add_zero, ne_eq, OfNat.ofNat_ne_zero, not_false_eq_true, zero_pow] at q
    nlinarith [sq_nonneg (c * (x v - x' v) + s * (y v - y' v)), sq_nonneg (z v - z' v)]
  have hA : c * (x u - x' u) + s * (y u - y' u) = 0 := by
    have := allz u
    rw [this] at q0
    simpa using q0
  have hD : ∀ u, HasDerivAt (fun u => d u - d' u) 0 u := by
    intro u
    have := (hd u).sub (hd' u)
    rw [allz u, sub_self] at this
    exact this
  have d0 := const_of hD u 0
  refine ⟨by linarith [e1], ?_, ?_, allz u⟩
  · have : x u - x' u = c * (c * (x u - x' u) + s * (y u - y' u)) - s * (c * (y u - y' u) - s * (x u - x' u)) := by
      linear_combination (-(x u - x' u)) * cs
    rw [hA, b0] at this
    linarith
  · have : y u - y' u = s * (c * (x u - x' u) + s * (y u - y' u)) + c * (c * (y u - y' u) - s * (x u - x' u)) := by
      linear_combination (-(y u - y' u)) * cs
    rw [hA, b0] at this
    linarith

/-- Length, angle and tilt of the path and the frame at the beginning determine the frame at the end: the specification
`Follows` is a function. -/
theorem C65_unique {l a t : ℝ} {F G H : Frame} (h1 : Follows l a t F G) (h2 : Follows l a t F H) : G = H := by
  obtain ⟨P, p0, p1, hP⟩ := h1
  obtain ⟨Q, q0, q1, hQ⟩ := h2
  have cs : Real.sin t ^ 2 + Real.cos t ^ 2 = 1 := Real.sin_sq_add_cos_sq t
  have e : P 0 = Q 0 := p0.trans q0.symm
  have r1 := row_unique cs (fun u => (hP u).1.1) (fun u => (hP u).2.1.1) (fun u => (hP u).2.2.1.1) (fun u => (hP u).2.2.2.1)
    (fun u => (hQ u).1.1) (fun u => (hQ u).2.1.1) (fun u => (hQ u).2.2.1.1) (fun u => (hQ u).2.2.2.1)
    (by rw [e]) (by rw [e]) (by rw [e]) (by rw [e]) 1
  have r2 := row_unique cs (fun u => (hP u).1.2.1) (fun u => (hP u).2.1.2.1) (fun u => (hP u).2.2.1.2.1)
    (fun u => (hP u).2.2.2.2.1) (fun u => (hQ u).1.2.1) (fun u => (hQ u).2.1.2.1) (fun u => (hQ u).2.2.1.2.1)
    (fun u => (hQ u).2.2.2.2.1) (by rw [e]) (by rw [e]) (by rw [e]) (by rw [e]) 1
  have r3 := row_unique cs (fun u => (hP u).1.2.2) (fun u => (hP u).2.1.2.2) (fun u => (hP u).2.2.1.2.2)
    (fun u => (hP u).2.2.2.2.2) (fun u => (hQ u).1.2.2) (fun u => (hQ u).2.1.2.2) (fun u => (hQ u).2.2.1.2.2)
    (fun u => (hQ u).2.2.2.2.2) (by rw [e]) (by rw [e]) (by rw [e]) (by rw [e]) 1
  rw [p1, q1] at r1 r2 r3
  ext
  · exact r1.2.1
  · exact r1.2.2.1
  · exact r1.2.2.2
  · exact r2.2.1
  · exact r2.2.2.1
  · exact r2.2.2.2
  · exact r3.2.1
  · exact r3.2.2.1
  · exact r3.2.2.2
  · exact r1.1
  · exact r2.1
  · exact r3.1

theorem angle_own (a : Own) (t : Bool) : (El.own a t).angle = a.turn := by
  simp [El.angle, El.resolve, El.angleBody, El.ownOf, El.parentOf, El.weightOf, Own.turn]

theorem drift_zero_frame (t : ℝ) : moveFrame 0 0 t = Frame.id := by simp [moveFrame, shift_zero]

theorem arc_zero_len (a : ℝ) : arcFrame 0 a = Frame.yaw (-a) := by
  ext <;> simp [arcFrame, Frame.yaw]

theorem move_zero_len (a t : ℝ) : moveFrame 0 a t = (Frame.roll t).comp ((Frame.yaw (-a)).comp (Frame.roll (-t))) := by
  unfold moveFrame
  split_ifs with h
  · rw [h, neg_zero, yaw_zero, Frame.id_comp, roll_cancel, shift_zero]
  · rw [arc_zero_len]

theorem roll_shift (t x : ℝ) : (Frame.shift (x * Real.cos t) (x * Real.sin t) 0)
    = (Frame.roll t).comp ((Frame.shift x 0 0).comp (Frame.roll (-t))) := by
  have cs : Real.sin t ^ 2 + Real.cos t ^ 2 = 1 := Real.sin_sq_add_cos_sq t
  ext <;> simp [Frame.shift, Frame.roll, Frame.comp] <;> linarith

theorem entryRel_straight {b : RB} (h : b.straight = true) : entryRel b =
    (Frame.roll b.rotS).comp ((Frame.yaw (-b.angleIn)).comp
        ((Frame.shift (if |b.state.angle| > 1e-10 then -b.x0In else 0) 0 0).comp (Frame.roll (-b.rotS)))) := by
  have r : (Frame.roll (-b.rotS)).comp (Frame.roll b.rotS) = Frame.id := by
    have := roll_cancel (-b.rotS); rwa [neg_neg] at this
  unfold entryRel
  rw [if_pos h, move_zero_len]
  split_ifs
  · rw [roll_shift]
    simp only [Frame.comp_assoc]
    rw [comp_cancel r]
  · rw [shift_zero, Frame.id_comp, Frame.comp_id]

theorem exitRel_straight {b : RB} (h : b.straight = true) : exitRel b =
    (Frame.roll b.rotS).comp ((Frame.shift (if |b.state.angle| > 1e-10 then b.x0Out else 0) 0 0).comp
        ((Frame.yaw (-b.angleOut)).comp (Frame.roll (-b.rotS)))) := by
  have r : (Frame.roll (-b.rotS)).comp (Frame.roll b.rotS) = Frame.id := by
    have := roll_cancel (-b.rotS); rwa [neg_neg] at this
  unfold exitRel
  rw [if_pos h, move_zero_len]
  split_ifs
  · rw [roll_shift]
    simp only [Frame.comp_assoc]
    rw [comp_cancel r]
  · rw [shift_zero, Frame.id_comp, Frame.id_comp]

theorem move_straight (l t : ℝ) : moveFrame l 0 t = Frame.shift 0 0 l := by simp [moveFrame]

theorem rel_carries {e : El} (hd : Direct e) (F : Frame) : Carries e F (F.comp e.rel) := by
  have whole : ∀ r : El, (∀ a t, r = .own a t → Carries r F (F.comp (moveFrame r.driftLength r.angle r.tilt))) ∧
      (∀ b, r = .rbend b → Carries r F (F.comp (moveFrame r.driftLength r.angle r.tilt))) := by
    intro r
    constructor
    · rintro a t rfl
      have h := follows_move F (El.own a t).driftLength (El.own a t).angle (El.own a t).tilt
      simpa [Carries, El.driftLength, El.isThick, El.resolve, El.length, El.ownOf, El.parentOf, El.weightOf, angle_own,
        El.tilt] using h
    · rintro b rfl
      have h := follows_move F (El.rbend b).driftLength (El.rbend b).angle (El.rbend b).tilt
      simpa [Carries, El.driftLength, El.isThick, El.resolve, El.length, El.ownOf, El.parentOf, El.weightOf, El.angle,
        El.angleBody, El.tilt, RB.attrs] using h
  cases e with
  | own a t => exact (whole _).1 a t rfl
  | rbend b => exact (whole _).2 b rfl
  | slice k a w =>
    have h := follows_move F (El.slice k a w).driftLength (El.slice k a w).angle (El.slice k a w).tilt
    have hr : (El.slice k a w).rel = moveFrame (El.slice k a w).driftLength (El.slice k a w).angle (El.slice k a w).tilt := rfl
    cases k with
    | thick =>
      rw [hr]
      have e1 : (El.slice .thick a w).driftLength = w * a.length := by
        simp [El.driftLength, El.isThick, El.resolve, Piece.isThick, El.length, El.ownOf, El.parentOf, El.weightOf, mul_comm]
      have e2 : (El.slice .thick a w).angle = w * a.turn := by
        simp only [El.angle, El.resolve, El.angleBody, El.ownOf, El.parentOf, El.weightOf, El.inheritFlag, Piece.inherits,
          Own.turn, if_true]
        ring
      have e3 : (El.slice .thick a w).tilt = a.rotS := by
        simp [El.tilt, El.resolve, El.ownOf, El.parentOf, El.tiltFlag, Piece.tilts]
      rw [e1, e2, e3] at h ⊢
      exact h
    | thin =>
      rw [hr]
      have e1 : (El.slice .thin a w).driftLength = 0 := by
        simp [El.driftLength, El.isThick, El.resolve, Piece.isThick]
      have e2 : (El.slice .thin a w).angle = w * a.turn := by
        simp only [El.angle, El.resolve, El.angleBody, El.ownOf, El.parentOf, El.weightOf, El.inheritFlag, Piece.inherits,
          Own.turn, if_true]
        ring
      have e3 : (El.slice .thin a w).tilt = a.rotS := by
        simp [El.tilt, El.resolve, El.ownOf, El.parentOf, El.tiltFlag, Piece.tilts]
      rw [e1, e2, e3] at h ⊢
      exact h
    | drift =>
      rw [hr]
      have e1 : (El.slice .drift a w).driftLength = w * a.length := by
        simp [El.driftLength, El.isThick, El.resolve, Piece.isThick, El.length, El.ownOf, El.parentOf, El.weightOf, mul_comm]
      have e2 : (El.slice .drift a w).angle = 0 := by
        simp [El.angle, El.resolve, El.angleBody, El.ownOf, El.inheritFlag, Piece.inherits]
      have e3 : (El.slice .drift a w).tilt = 0 := by
        simp [El.tilt, El.resolve, El.ownOf, El.tiltFlag, Piece.tilts]
      rw [e1, e2, e3] at h ⊢
      exact h
    | entry =>
      rw [hr]
      simp [Carries, El.angle, El.resolve, El.angleBody, El.ownOf, El.inheritFlag, Piece.inherits, El.driftLength, El.isThick,
        Piece.isThick, drift_zero_frame, Frame.comp_id]
    | exit =>
      rw [hr]
      simp [Carries, El.angle, El.resolve, El.angleBody, El.ownOf, El.inheritFlag, Piece.inherits, El.driftLength, El.isThick,
        Piece.isThick, drift_zero_frame, Frame.comp_id]
  | rslice k b w =>
    cases k with
    | thick =>
      have h := follows_move F (b.state.length * w) (b.state.angle * w) b.rotS
      unfold Carries
      split_ifs with hs
      · simp [El.rel, hs, move_straight, mul_comm]
      · simpa [El.rel, hs, mul_comm] using h
    | thin =>
      have hr : (El.rslice .thin b w).rel
        = moveFrame (El.rslice .thin b w).driftLength (El.rslice .thin b w).angle (El.rslice .thin b w).tilt := rfl
      rw [hr]
      have e1 : (El.rslice .thin b w).driftLength = 0 := by
        simp [El.driftLength, El.isThick, El.resolve, Piece.isThick]
      have e3 : (El.rslice .thin b w).tilt = b.rotS := by
        simp [El.tilt, El.resolve, El.ownOf, El.parentOf, El.tiltFlag, Piece.tilts, RB.attrs]
      unfold Carries
      split_ifs with hs
      · have e2 : (El.rslice .thin b w).angle = 0 := by simp [El.angle, El.resolve, hs]
        rw [e1, e2, drift_zero_frame, Frame.comp_id]
      · have e2 : (El.rslice .thin b w).angle = w * (b.state.h * b.state.length) := by
          simp only [El.angle, El.resolve, hs, Bool.false_eq_true, if_false, El.angleBody, El.ownOf, El.parentOf,
            El.weightOf, El.inheritFlag, Piece.inherits, RB.attrs, if_true]
          ring
        rw [e1, e2, e3]
        exact follows_move _ _ _ _
    | drift =>
      show F.comp (moveFrame _ 0 0) = _
      rw [move_straight, mul_comm w]
      split_ifs <;> rfl
    | entry =>
      show Carries _ F (F.comp (entryRel b))
      unfold Carries
      by_cases hs : b.straight = true
      · rw [if_pos hs, entryRel_straight hs]
      · rw [if_neg hs, entryRel, if_neg hs, Frame.comp_id]
    | exit =>
      show Carries _ F (F.comp (exitRel b))
      unfold Carries
      by_cases hs : b.straight = true
      · rw [if_pos hs, exitRel_straight hs]
      · rw [if_neg hs, exitRel, if_neg hs, Frame.comp_id]
  | translation => rfl
  | rotation => rfl
  | xRotation => rfl
  | yRotation => rfl
  | sRotation => rfl
  | replica e =>
    have hres : ∀ r : El, Carries r F (F.comp (moveFrame (El.replica e).driftLength (El.replica e).angle (El.replica e).tilt))
        = Carries r F (F.comp (El.replica e).rel) := fun _ => rfl
    -- the replica and its target carry in the same way
    have hc : ∀ (x : El) (G : Frame), Carries x F G = Carries x.resolve F G := by
      intro x G
      induction x with
      | replica y ih => exact ih
      | _ => rfl
    rw [hc, ← hres]
    have hres' : (El.replica e).resolve = e.resolve := rfl
    rw [hres']
    unfold Direct at hd
    cases hq : e.resolve with
    | own a t =>
      have := (whole (.own a t)).1 a t rfl
      have e1 : (El.replica e).driftLength = (El.own a t).driftLength := by
        unfold El.driftLength El.isThick El.length
        rw [hres', hq]
        rfl
      have e2 : (El.replica e).angle = (El.own a t).angle := by
        simp [El.angle, hq, El.resolve, El.angleBody, El.inheritFlag, El.parentOf]
      have e3 : (El.replica e).tilt = (El.own a t).tilt := by
        simp [El.tilt, hq, El.resolve, El.tiltFlag, El.parentOf]
      rw [e1, e2, e3]
      exact this
    | rbend b =>
      have := (whole (.rbend b)).2 b rfl
      have e1 : (El.replica e).driftLength = (El.rbend b).driftLength := by
        unfold El.driftLength El.isThick El.length
        rw [hres', hq]
        rfl
      have e2 : (El.replica e).angle = (El.rbend b).angle := by
        simp [El.angle, hq, El.resolve, El.angleBody, El.inheritFlag, El.parentOf]
      have e3 : (El.replica e).tilt = (El.rbend b).tilt := by
        simp [El.tilt, hq, El.resolve, El.tiltFlag, El.parentOf]
      rw [e1, e2, e3]
      exact this
    | _ => simp [hq] at hd

theorem ortho_foldF {L : List Frame} (hL : ∀ G ∈ L, G.Ortho) {F : Frame} (hF : F.Ortho) : (L.foldl Frame.comp F).Ortho := by
  induction L generalizing F with
  | nil => exact hF
  | cons g L ih =>
    simp only [List.foldl_cons]
    exact ih (fun G hG => hL G (by simp [hG])) (hF.comp (hL g (by simp)))

theorem ortho_fold {L : List Frame} (hL : ∀ G ∈ L, G.Ortho) : (L.foldl Frame.comp Frame.id).Ortho :=
  ortho_foldF hL ortho_id

theorem ortho_first (els : List El) {F : Frame} (hF : F.Ortho) (k : ℕ) : (firstFrame els F k).Ortho := by
  unfold firstFrame
  refine ortho_foldF ?_ hF
  intro G hG
  obtain ⟨H, hH, rfl⟩ := List.mem_map.1 hG
  rw [List.mem_reverse] at hH
  obtain ⟨e, _, rfl⟩ := List.mem_map.1 hH
  exact (ortho_rel e).inv

/-- For every line of elements (replicas only of magnets, drifts and the like), every starting pose and every starting
element, the survey exists, has one row per element and one more, the row of the starting element is the starting pose, the axes
of every row are orthonormal and right-handed, and from each row to the next the frame is carried along the reference path of the element between them. -/
theorem C65_rows_partial (els : List El) (hd : ∀ e ∈ els, Direct e) (X0 Y0 Z0 theta0 phi0 psi0 : ℝ) (k : ℕ)
    (hk : k ≤ els.length) :
    ∃ rows, survey els X0 Y0 Z0 theta0 phi0 psi0 k = some rows ∧ rows.length = els.length + 1 ∧
      (∃ r, rows[k]? = some r ∧ r.frame = (Frame.shift X0 Y0 Z0).comp
        ((Frame.yaw theta0).comp ((Frame.pitch phi0).comp (Frame.roll psi0)))) ∧
      (∀ r ∈ rows, r.frame.Ortho) ∧
      ∀ (i : ℕ) (e : El) (r r' : Pose), els[i]? = some e → rows[i]? = some r → rows[i + 1]? = some r' →
        Carries e r.frame r'.frame := by
  have start : (Pose.mk ![X0, Y0, Z0] (fromAngles theta0 phi0 psi0)).frame = (Frame.shift X0 Y0 Z0).comp
      ((Frame.yaw theta0).comp ((Frame.pitch phi0).comp (Frame.roll psi0))) := by
    ext <;> simp [Pose.frame, fromAngles, lit, Frame.comp, Frame.shift, Frame.yaw, Frame.pitch, Frame.roll] <;> ring
  have oL : ∀ G ∈ els.map El.rel, G.Ortho := by
    intro G hG
    obtain ⟨e, _, rfl⟩ := List.mem_map.1 hG
    exact ortho_rel e
  refine ⟨_, survey_rows els _ k, by simp, ?_, ?_, ?_⟩
  · have hlt : k < (List.scanl Frame.comp (firstFrame els (Pose.mk ![X0, Y0, Z0] (fromAngles theta0 phi0 psi0)).frame k)
        (els.map El.rel)).length := by simp; omega
    refine ⟨ofFrame ((List.scanl Frame.comp (firstFrame els (Pose.mk ![X0, Y0, Z0] (fromAngles theta0 phi0 psi0)).frame k)
        (els.map El.rel))[k]), ?_, ?_⟩
    · rw [List.getElem?_map, List.getElem?_eq_getElem hlt]; rfl
    · rw [frame_ofFrame, scan_first, ← foldl_comp, ← start]
      unfold firstFrame
      rw [← List.map_take, fold_back]
      intro G hG
      obtain ⟨e, _, rfl⟩ := List.mem_map.1 hG
      exact ortho_rel e
  · intro r hr
    obtain ⟨F, hF, rfl⟩ := List.mem_map.1 hr
    obtain ⟨i, hi, rfl⟩ := List.getElem_of_mem hF
    rw [frame_ofFrame, scan_first]
    refine (ortho_first els ?_ k).comp (ortho_fold (fun G hG => oL G (List.mem_of_mem_take hG)))
    rw [start]
    exact (ortho_shift _ _ _).comp ((ortho_yaw _).comp ((ortho_pitch _).comp (ortho_roll _)))
  · intro i e r r' he hr hr'
    rw [List.getElem?_map, Option.map_eq_some_iff] at hr hr'
    obtain ⟨F, hF, rfl⟩ := hr
    obtain ⟨F', hF', rfl⟩ := hr'
    rw [List.getElem?_eq_some_iff] at hF hF' he
    obtain ⟨h1, rfl⟩ := hF
    obtain ⟨h2, rfl⟩ := hF'
    obtain ⟨h3, rfl⟩ := he
    rw [frame_ofFrame, frame_ofFrame, scan_get _ _ i (by simpa using h3) h1 h2, List.getElem_map]
    exact rel_carries (hd _ (List.getElem_mem h3)) _

/-- A replica of a `Translation` moves the reference frame of tracking, but not the survey; the same for every replica of an
element with an own rule for the survey.  A replica of a slice of a bend has length in the survey, but no angle. -/
theorem C65_replica_violated :
    (∃ rows, survey [.replica (.translation 1 0)] 0 0 0 0 0 0 0 = some rows ∧
      ∃ r r', rows[0]? = some r ∧ rows[1]? = some r' ∧ r'.frame = r.frame ∧
        ¬ Carries (.replica (.translation 1 0)) r.frame r'.frame) ∧
    (∃ rows, survey [.replica (.slice .thick ⟨1, 1, 0, 0⟩ 1)] 0 0 0 0 0 0 0 = some rows ∧
      ∃ r r', rows[0]? = some r ∧ rows[1]? = some r' ∧ r'.frame = r.frame.comp (Frame.shift 0 0 1) ∧
        ¬ Carries (.replica (.slice .thick ⟨1, 1, 0, 0⟩ 1)) r.frame r'.frame) := by
  have z : (Pose.mk ![0, 0, 0] (fromAngles 0 0 0)).frame = Frame.id := by
    ext <;> simp [Pose.frame, fromAngles, lit, Frame.id]
  constructor
  · refine ⟨_, survey_rows _ _ 0, _, _, rfl, rfl, ?_, ?_⟩
    · simp only [frame_ofFrame]
      show (firstFrame _ _ 0).comp (moveFrame _ _ _) = _
      simp [El.driftLength, El.isThick, El.resolve, El.angle, El.angleBody, El.ownOf, El.parentOf, El.weightOf,
        drift_zero_frame, Frame.comp_id]
    · simp only [frame_ofFrame, z]
      intro h
      change (firstFrame _ _ 0).comp (moveFrame _ _ _) = _ at h
      have := congrArg Frame.d1 h
      simp [El.driftLength, El.isThick, El.resolve, El.angle, El.angleBody, El.ownOf, El.parentOf, El.weightOf,
        drift_zero_frame, Frame.comp, firstFrame, Frame.id, Frame.shift] at this
  · have hm : (El.replica (.slice .thick ⟨1, 1, 0, 0⟩ 1)).rel = Frame.shift 0 0 1 := by
      show moveFrame _ _ _ = _
      simp [El.driftLength, El.isThick, El.resolve, El.angle, El.angleBody, El.ownOf, El.parentOf, El.weightOf, El.inheritFlag,
        El.length, Piece.isThick, move_straight]
    refine ⟨_, survey_rows _ _ 0, _, _, rfl, rfl, ?_, ?_⟩
    · simp only [frame_ofFrame]
      show (firstFrame _ _ 0).comp (El.rel _) = _
      rw [hm]
    · simp only [frame_ofFrame, z]
      intro h
      change Follows _ _ _ _ ((firstFrame _ _ 0).comp (El.rel _)) at h
      rw [hm] at h
      have h2 := follows_move Frame.id (1 * 1) (1 * (Own.turn ⟨1, 1, 0, 0⟩)) 0
      have := C65_unique h h2
      have c := congrArg Frame.r31 this
      simp [firstFrame, Frame.comp, Frame.id, Frame.shift, moveFrame, Own.turn, arcFrame, Frame.roll] at c
      have := Real.sin_pos_of_pos_of_lt_pi one_pos (by linarith [Real.two_le_pi])
      linarith

/-- A line with a drift, a tilted bend, a rotation, a straight rectangular bend in slices and a replica of the bend. -/
example : ∀ e ∈ [El.own ⟨1, 0, 0, 0⟩ true, .own ⟨2, 0.1, 0, 0.3⟩ true, .rotation 0.1 0.2 0.3 .x .y .s,
    .rslice .entry ⟨(Magnets.RBendState.init.run [.lengthStraight 1, .angle 0.2]), 0, 0, true, true⟩ 0,
    .replica (.own ⟨2, 0.1, 0, 0.3⟩ true)], Direct e := by
  intro e he
  simp only [List.mem_cons, List.not_mem_nil, or_false] at he
  rcases he with rfl | rfl | rfl | rfl | rfl <;> trivial

/-! ## C66: tracking -/

theorem ref_move {q : Placed} {a : Own} {w : ℝ} (hk : q.kappa = a.h) (hl : q.mis.length = a.length) (ht : q.thick = true)
    (hw1 : q.weight = w) (hr : q.mis.tilt = a.rotS) : refFrame q = moveFrame (w * a.length) (w * (a.h * a.length)) a.rotS := by
  have hlen : q.len = w * a.length := by simp [Placed.len, ht, hl, hw1, mul_comm]
  unfold refFrame
  rw [hk, hlen, hr]
  by_cases h0 : a.h = 0
  · rw [if_pos h0, h0]
    simp [move_straight, straightRef]
  · rw [if_neg h0]
    by_cases hz : w * a.length = 0
    · have e1 : w * (a.h * a.length) = 0 := by rw [show w * (a.h * a.length) = a.h * (w * a.length) by ring, hz, mul_zero]
      rw [hz, e1, drift_zero_frame, mul_zero]
      have : Frame.arc 0 a.h = Frame.id := by ext <;> simp [Frame.arc, Frame.id]
      rw [curvedRef, this, Frame.id_comp, roll_cancel]
    · unfold moveFrame
      have e1 : w * (a.h * a.length) = a.h * (w * a.length) := by ring
      rw [e1, if_neg (mul_ne_zero h0 hz), curvedRef]
      congr 2
      have : w * a.length / (a.h * (w * a.length)) = 1 / a.h := by
        rw [mul_comm a.h, ← div_div, div_self hz]
      ext <;> simp only [Frame.arc, arcFrame, this] <;> ring

theorem pass_moves {e : El} {ds : ℝ} {p q : Part} (h : FreePass e ds p q) : Moves e.rel ds p q := by
  cases h with
  | translation sx sy => exact (C48_shifts sx sy 0 p).1
  | xRotation k f hc hx => exact (C48_xrotation k f hc hx).1
  | yRotation k f hc hx => exact (C48_yrotation k f hc hx).1
  | sRotation f => exact (C48_srotation f _).1
  | rotation k f hcx hcy hx => exact (C48_rotation hcx hcy _ _ _ k f hx).1
  | @drift a p f h hxl =>
    have := C50_exact_flight f a.length
    have e1 : (El.own a true).rel = straightRef a.length := by
      show moveFrame _ _ _ = _
      rw [angle_own]
      simp [Own.turn, h, hxl, move_straight, straightRef, El.driftLength, El.isThick, El.resolve, El.length, El.ownOf,
        El.parentOf]
    rw [e1]
    exact this
  | @magnet a q body p hc hw hk hl ht hw1 hr hxl hp hb hq =>
    have := C49_transparent hc hw body hp hb hq
    rw [ref_move hk hl ht hw1 hr] at this
    have e1 : (El.own a true).rel = moveFrame (1 * a.length) (1 * (a.h * a.length)) a.rotS := by
      show moveFrame _ _ _ = _
      rw [angle_own]
      simp [Own.turn, hxl, El.driftLength, El.isThick, El.resolve, El.length, El.ownOf, El.parentOf, El.tilt]
    rw [e1]
    have e2 : q.len = a.length := by simp [Placed.len, ht, hl, hw1]
    rwa [e2] at this
  | @slice a w q body p hc hw hk hl ht hw1 hr hxl hp hb hq =>
    have := C49_transparent hc hw body hp hb hq
    rw [ref_move hk hl ht hw1 hr] at this
    have e1 : (El.slice .thick a w).rel = moveFrame (w * a.length) (w * (a.h * a.length)) a.rotS := by
      show moveFrame _ _ _ = _
      have e1 : (El.slice .thick a w).driftLength = w * a.length := by
        simp [El.driftLength, El.isThick, El.resolve, Piece.isThick, El.length, El.ownOf, El.parentOf, El.weightOf, mul_comm]
      have e2 : (El.slice .thick a w).angle = w * (a.h * a.length) := by
        simp only [El.angle, El.resolve, El.angleBody, El.ownOf, El.parentOf, El.weightOf, El.inheritFlag, Piece.inherits,
          if_true, hxl]
        ring
      have e3 : (El.slice .thick a w).tilt = a.rotS := by
        simp [El.tilt, El.resolve, El.ownOf, El.parentOf, El.tiltFlag, Piece.tilts]
      rw [e1, e2, e3]
    rw [e1]
    have e2 : q.len = w * a.length := by simp [Placed.len, ht, hl, hw1, mul_comm]
    rwa [e2] at this

theorem line_moves {els : List El} {ds : ℝ} {p q : Part} (h : FreeLine els ds p q) :
    Moves ((els.map El.rel).foldl Frame.comp Frame.id) ds p q := by
  induction h with
  | nil p => exact Same.refl p
  | cons h _ ih =>
    simp only [List.map_cons, List.foldl_cons, Frame.id_comp]
    rw [foldl_comp]
    exact Moves.comp (pass_moves h) ih

/-- A particle which flies freely through the elements `i`, ..., `j - 1` of a line, according to the tracking functions of
rotations, translations, drifts and misaligned bends without field, is seen from row `j` of the survey where it is seen from
row `i`: one and the same straight line in space. -/
theorem C66_tracking (els : List El) (X0 Y0 Z0 theta0 phi0 psi0 : ℝ) (k : ℕ) (rows : List Pose)
    (h : survey els X0 Y0 Z0 theta0 phi0 psi0 k = some rows) (i j : ℕ) (hij : i ≤ j) (r r' : Pose)
    (hr : rows[i]? = some r) (hr' : rows[j]? = some r') (ds : ℝ) (p q : Part)
    (hp : FreeLine ((els.take j).drop i) ds p q) : Moves (seenFrom r.frame r'.frame) ds p q := by
  unfold survey at h
  rw [survey_rows, Option.some.injEq] at h
  subst h
  rw [List.getElem?_map, Option.map_eq_some_iff] at hr hr'
  obtain ⟨F, hF, rfl⟩ := hr
  obtain ⟨F', hF', rfl⟩ := hr'
  rw [List.getElem?_eq_some_iff] at hF hF'
  obtain ⟨h1, rfl⟩ := hF
  obtain ⟨h2, rfl⟩ := hF'
  rw [frame_ofFrame, frame_ofFrame, scan_first, scan_first]
  have o1 : (firstFrame els (Pose.mk ![X0, Y0, Z0] (fromAngles theta0 phi0 psi0)).frame k).Ortho := by
    apply ortho_first
    have start : (Pose.mk ![X0, Y0, Z0] (fromAngles theta0 phi0 psi0)).frame = (Frame.shift X0 Y0 Z0).comp
        ((Frame.yaw theta0).comp ((Frame.pitch phi0).comp (Frame.roll psi0))) := by
      ext <;> simp [Pose.frame, fromAngles, lit, Frame.comp, Frame.shift, Frame.yaw, Frame.pitch, Frame.roll] <;> ring
    rw [start]
    exact (ortho_shift _ _ _).comp ((ortho_yaw _).comp ((ortho_pitch _).comp (ortho_roll _)))
  have o2 : (((els.map El.rel).take i).foldl Frame.comp Frame.id).Ortho := by
    apply ortho_fold
    intro G hG
    obtain ⟨e, _, rfl⟩ := List.mem_map.1 (List.mem_of_mem_take hG)
    exact ortho_rel e
  have hsplit : ((els.map El.rel).take j).foldl Frame.comp Frame.id
      = (((els.map El.rel).take i).foldl Frame.comp Frame.id).comp
        ((((els.take j).drop i).map El.rel).foldl Frame.comp Frame.id) := by
    rw [← foldl_comp, ← List.foldl_append, List.map_drop, List.map_take]
    congr 1
    conv_lhs => rw [← List.take_append_drop i (List.take j (List.map El.rel els))]
    rw [List.take_take, min_eq_left hij]
  unfold seenFrom
  rw [hsplit, ← Frame.comp_assoc, ← Frame.comp_assoc, comp_inv_rev o1 o2]
  rw [show (((((els.map El.rel).take i).foldl Frame.comp Frame.id).inv.comp
      (firstFrame els (Pose.mk ![X0, Y0, Z0] (fromAngles theta0 phi0 psi0)).frame k).inv).comp
      (firstFrame els (Pose.mk ![X0, Y0, Z0] (fromAngles theta0 phi0 psi0)).frame k)).comp
      (((els.map El.rel).take i).foldl Frame.comp Frame.id) = Frame.id by
    rw [Frame.comp_assoc, Frame.comp_assoc, ← Frame.comp_assoc (firstFrame _ _ _).inv, Frame.inv_comp o1, Frame.id_comp,
      Frame.inv_comp o2], Frame.id_comp]
  exact line_moves hp

/-- A particle which passes a translation, a rotation by one radian around the longitudinal axis and a drift. -/
example : FreeLine [.translation 0.1 0.2, .sRotation 1, .own ⟨3, 0, 0, 0⟩ true] (0 + (0 + (3 + 0)))
    ⟨0.01, 0.001, 0, 0, 0, 0, 0, 0, 1, 1, 1, 1, 0, 0, 0⟩
    (driftExact (sRotationElement 1 false (translationElement 0.1 0.2 false
      ⟨0.01, 0.001, 0, 0, 0, 0, 0, 0, 1, 1, 1, 1, 0, 0, 0⟩)) 3) := by
  have f : (translationElement 0.1 0.2 false ⟨0.01, 0.001, 0, 0, 0, 0, 0, 0, 1, 1, 1, 1, 0, 0, 0⟩).Forward := by
    simp only [Part.Forward, translationElement, xyShift]; norm_num
  refine .cons (.translation _ _ _) (.cons (.sRotation f) (.cons (.drift ?_ rfl rfl) (.nil _)))
  exact (C48_srotation f 1).1.forward (ortho_roll _) (crosses_roll _ f)

/-! ## C67: start -/

theorem row_eq {els : List El} {P : Pose} {k : ℕ} {rows : List Pose} (h : getSurvey els P k = some rows) {i : ℕ} {r : Pose}
    (hr : rows[i]? = some r) :
    i ≤ els.length ∧
    r.frame = (firstFrame els P.frame k).comp (((els.map El.rel).take i).foldl Frame.comp Frame.id) := by
  rw [survey_rows, Option.some.injEq] at h
  subst h
  rw [List.getElem?_map, Option.map_eq_some_iff] at hr
  obtain ⟨F, hF, rfl⟩ := hr
  rw [List.getElem?_eq_some_iff] at hF
  obtain ⟨h1, rfl⟩ := hF
  refine ⟨?_, ?_⟩
  · simp at h1; omega
  · rw [frame_ofFrame, scan_first]

theorem start_frame (X0 Y0 Z0 theta0 phi0 psi0 : ℝ) : (Pose.mk ![X0, Y0, Z0] (fromAngles theta0 phi0 psi0)).frame
    = (Frame.shift X0 Y0 Z0).comp ((Frame.yaw theta0).comp ((Frame.pitch phi0).comp (Frame.roll psi0))) := by
  ext <;> simp [Pose.frame, fromAngles, lit, Frame.comp, Frame.shift, Frame.yaw, Frame.pitch, Frame.roll] <;> ring

theorem ortho_start (X0 Y0 Z0 theta0 phi0 psi0 : ℝ) :
    (Pose.mk ![X0, Y0, Z0] (fromAngles theta0 phi0 psi0)).frame.Ortho := by
  rw [start_frame]
  exact (ortho_shift _ _ _).comp ((ortho_yaw _).comp ((ortho_pitch _).comp (ortho_roll _)))

/-- Two surveys of the same line, from any two elements and any two positions and orientations, differ by one rigid motion of
space; what one element looks like from another (`survey_relative_transform`) is the same in both. -/
theorem C67_rigid (els : List El) (X0 Y0 Z0 t0 p0 s0 X1 Y1 Z1 t1 p1 s1 : ℝ) (k0 k1 : ℕ) (rows0 rows1 : List Pose)
    (h0 : survey els X0 Y0 Z0 t0 p0 s0 k0 = some rows0) (h1 : survey els X1 Y1 Z1 t1 p1 s1 k1 = some rows1) :
    (∃ R : Frame, R.Ortho ∧ ∀ (i : ℕ) (r r' : Pose), rows0[i]? = some r → rows1[i]? = some r' → r'.frame = R.comp r.frame) ∧
    ∀ (i j : ℕ) (a b a' b' : Pose), rows0[i]? = some a → rows0[j]? = some b → rows1[i]? = some a' → rows1[j]? = some b' →
      seenFrom a'.frame b'.frame = seenFrom a.frame b.frame := by
  have o0 := ortho_first els (ortho_start X0 Y0 Z0 t0 p0 s0) k0
  have o1 := ortho_first els (ortho_start X1 Y1 Z1 t1 p1 s1) k1
  have oi : ∀ i, (((els.map El.rel).take i).foldl Frame.comp Frame.id).Ortho := by
    intro i
    apply ortho_fold
    intro G hG
    obtain ⟨e, _, rfl⟩ := List.mem_map.1 (List.mem_of_mem_take hG)
    exact ortho_rel e
  refine ⟨⟨(firstFrame els _ k1).comp (firstFrame els _ k0).inv, o1.comp o0.inv, ?_⟩, ?_⟩
  · intro i r r' hr hr'
    rw [(row_eq h0 hr).2, (row_eq h1 hr').2, Frame.comp_assoc, ← Frame.comp_assoc _ _ (List.foldl _ _ _), Frame.inv_comp o0,
      Frame.id_comp]
  · intro i j a b a' b' ha hb ha' hb'
    rw [(row_eq h0 ha).2, (row_eq h0 hb).2, (row_eq h1 ha').2, (row_eq h1 hb').2]
    unfold seenFrom
    rw [comp_inv_rev o0 (oi i), comp_inv_rev o1 (oi i), Frame.comp_assoc, Frame.comp_assoc,
      ← Frame.comp_assoc (firstFrame _ _ _).inv, ← Frame.comp_assoc (firstFrame _ _ _).inv, Frame.inv_comp o0,
      Frame.inv_comp o1]

/-- A survey which starts at any element with the pose which another survey gives there is that other survey. -/
theorem C67_restart (els : List El) (P : Pose) (k k' : ℕ) (rows : List Pose)
    (h : getSurvey els P k = some rows) (r : Pose) (hr : rows[k']? = some r) : getSurvey els r k' = some rows := by
  obtain ⟨hk, hf⟩ := row_eq h hr
  rw [survey_rows] at h ⊢
  rw [← h]
  congr 3
  -- the first row of both
  rw [hf]
  have hL : ∀ G ∈ (els.take k').map El.rel, G.Ortho := by
    intro G hG
    obtain ⟨e, _, rfl⟩ := List.mem_map.1 hG
    exact ortho_rel e
  rw [← foldl_comp, ← List.map_take]
  unfold firstFrame
  generalize (((els.take k).map El.rel).reverse.map Frame.inv).foldl Frame.comp P.frame = F
  clear hr hf h
  revert hL
  generalize (els.take k').map El.rel = L
  intro hL
  rw [foldl_comp _ (L.foldl _ _), foldl_comp L, Frame.comp_assoc]
  have : (L.foldl Frame.comp Frame.id).comp ((L.reverse.map Frame.inv).foldl Frame.comp Frame.id) = Frame.id := by
    induction L with
    | nil => exact Frame.id_comp _
    | cons g L ih =>
      have hg := hL g (by simp)
      have ih' := ih (fun G hG => hL G (by simp [hG]))
      simp only [List.foldl_cons, Frame.id_comp, List.reverse_cons, List.map_append, List.map_cons, List.map_nil,
        List.foldl_append, List.foldl_nil]
      rw [foldl_comp L g, Frame.comp_assoc, ← Frame.comp_assoc (List.foldl _ _ _), ih', Frame.id_comp, Frame.comp_inv hg]
  rw [this, Frame.comp_id]

/-- Relative transformations compose. -/
theorem C67_relative {F G H : Frame} (hF : F.Ortho) (hG : G.Ortho) :
    (seenFrom F G).comp (seenFrom G H) = seenFrom F H ∧ seenFrom F F = Frame.id ∧ F.comp (seenFrom F G) = G ∧
    ∀ T, F.comp T = G → T = seenFrom F G := by
  unfold seenFrom
  refine ⟨?_, Frame.inv_comp hF, ?_, ?_⟩
  · rw [Frame.comp_assoc, ← Frame.comp_assoc G, Frame.comp_inv hG, Frame.id_comp]
  · rw [← Frame.comp_assoc, Frame.comp_inv hF, Frame.id_comp]
  · rintro T rfl
    rw [← Frame.comp_assoc, Frame.inv_comp hF, Frame.id_comp]

/-- A survey from the second of two elements. -/
example : ∃ rows, survey [.own ⟨1, 0, 0, 0⟩ true, .yRotation 0.1] 0 0 0 0 0 0 1 = some rows ∧
    ∃ r, rows[0]? = some r ∧ r.frame = Frame.shift 0 0 (-1) := by
  refine ⟨_, survey_rows _ _ 1, _, rfl, ?_⟩
  rw [frame_ofFrame]
  show (firstFrame _ _ 1) = _
  simp only [firstFrame, List.take_succ_cons, List.take_zero, List.map_cons, List.map_nil, List.reverse_cons, List.reverse_nil,
    List.nil_append, List.foldl_cons, List.foldl_nil]
  have e1 : (El.own ⟨1, 0, 0, 0⟩ true).rel = Frame.shift 0 0 1 := by
    show moveFrame _ _ _ = _
    rw [angle_own]
    simp [Own.turn, move_straight, El.driftLength, El.isThick, El.resolve, El.length, El.ownOf, El.parentOf]
  rw [e1, shift_inv, start_frame]
  simp [yaw_zero, pitch_zero, roll_zero, Frame.comp_id, shift_zero, Frame.id_comp]

end

end Verif.Survey
