import Verif.Magnets.BodyLemmas

/-!
# C60: backtracking through a magnet

`C60_backtrack`: a particle which is tracked through a magnet (or a slice of it, of weight `w`) and then back is where it was, for
every model, integrator, number of kicks, kind of body, all multipoles and linear edges.  `C60_straight`: without any condition on the
particle for straight magnets.  `C60_full_edge`: with a full edge the particle is always lost.
-/

namespace Verif.Magnets

open Frames

noncomputable section

/-- The angle by which the frame turns at an end of a straight body. -/
def endAngle (m : Magnet) (isExit : Bool) : ℝ :=
  let t := if isExit then (m.h * m.length + m.rbendAngleDiff) / 2 else (m.h * m.length - m.rbendAngleDiff) / 2
  if |t| > 1e-10 then t else 0

/-- The particle crosses the end plane of the straight body forward. -/
structure TiltOk (θ : ℝ) (p : Part) : Prop where
  kin : p.Kin
  forward : p.Forward
  cos : Real.cos θ ≠ 0
  crosses : Crosses (Frame.yaw (-θ)) p

theorem tiltIn_undo {t : Tilt} {θ : ℝ} (hs : t.sin = Real.sin θ) (hc : t.cos = Real.cos θ) {p : Part} (ok : TiltOk θ p) :
    tiltOut ⟨-t.sin, t.cos, t.x0⟩ (tiltIn t p) = p := by
  have h := (C48_yrotation ok.kin ok.forward (angle := -θ) (by rw [Real.cos_neg]; exact ok.cos) ok.crosses).2
  simp only [yRotationElement, Real.sin_neg, Real.cos_neg, Real.tan_neg, neg_neg] at h
  unfold tiltOut tiltIn
  simp only [neg_neg, hs, hc, neg_div, ← Real.tan_eq_sin_div_cos, add_sub_cancel_right]
  simpa using h

theorem tiltOut_undo {t : Tilt} {θ : ℝ} (hs : t.sin = Real.sin θ) (hc : t.cos = Real.cos θ) {p : Part}
    (ok : TiltOk θ { p with x := p.x - t.x0 }) : tiltIn ⟨-t.sin, t.cos, t.x0⟩ (tiltOut t p) = p := by
  have h := (C48_yrotation ok.kin ok.forward (angle := -θ) (by rw [Real.cos_neg]; exact ok.cos) ok.crosses).2
  simp only [yRotationElement, Real.sin_neg, Real.cos_neg, Real.tan_neg, neg_neg] at h
  unfold tiltOut tiltIn
  simp only [neg_neg, hs, hc, neg_div, ← Real.tan_eq_sin_div_cos]
  simp only [Bool.false_eq_true, if_false, if_true] at h
  rw [h]
  ext <;> simp

theorem geometry_tilt (m : Magnet) (h : (geometry m).straight = true) :
    (geometry m).tin.sin = Real.sin (endAngle m false) ∧ (geometry m).tin.cos = Real.cos (endAngle m false) ∧
    (geometry m).tout.sin = Real.sin (endAngle m true) ∧ (geometry m).tout.cos = Real.cos (endAngle m true) := by
  unfold geometry at h ⊢
  by_cases c : m.rbendModel = 0 ∨ m.rbendModel = 1
  · simp [c] at h
  · by_cases c2 : m.rbendModel = 2
    · simp only [if_neg c, if_pos c2, sincos, endAngle, if_true, Bool.false_eq_true, if_false]
      refine ⟨?_, ?_, ?_, ?_⟩ <;> split_ifs <;> simp
    · simp [c, c2] at h

theorem geometry_active (m : Magnet) : (geometry m).entry.active = m.entry.active ∧ (geometry m).exit.active = m.exit.active ∧
    (geometry m).entry.model = m.entry.model ∧ (geometry m).exit.model = m.exit.model := by
  unfold geometry
  split_ifs <;> exact ⟨rfl, rfl, rfl, rfl⟩

/-- The body, as tracked forward with weight `w`, can be undone for the particle `p`. -/
def PassesBody (m : Magnet) (w : ℝ) (p : Part) : Prop :=
  let g := geometry m
  let c := configure (modelOf m) m.k0 m.k1 g.h m.ks
  BodyOk (driftArgs m c) (kickArgs m c (g.length * w) w m.hxl) (g.length * w) (kickNumber m w g.h (g.length * w)) (integratorOf m) p

/-- The particle passes the magnet: where the body is straight it crosses the end planes forward, in between the drifts can be
undone. -/
structure Passes (m : Magnet) (fullEdge : Bool → Part → Part) (w : ℝ) (p : Part) : Prop where
  entry : m.entry.active = true → m.rbendModel = 2 → TiltOk (endAngle m false) p
  body : m.bodyActive = true → ∀ q, trackEntry m fullEdge (geometry m) (geometry m).entry (geometry m).tin false p = some q →
    PassesBody m w q
  exit : m.exit.active = true → m.rbendModel = 2 →
    ∀ q, trackEntry m fullEdge (geometry m) (geometry m).entry (geometry m).tin false p = some q →
    ∀ r, edge m fullEdge (geometry m).length (geometry m).exit true false (if m.bodyActive then trackBody m (geometry m) w 1 q else q) =
      some r →
    TiltOk (endAngle m true) { r with x := r.x - (geometry m).tout.x0 }

theorem straight_iff (m : Magnet) : (geometry m).straight = true ↔ m.rbendModel = 2 := by
  unfold geometry
  split_ifs with c c2
  · simp
    omega
  · simp [c2]
  · simp [c2]

theorem kickNumber_neg (m : Magnet) (w h l : ℝ) : kickNumber m w h (-l) = kickNumber m w h l := by
  unfold kickNumber
  rw [abs_neg]

theorem trackBody_eq (m : Magnet) (w sg : ℝ) (p : Part) : trackBody m (geometry m) w sg p =
    (let g := geometry m
    let c := configure (modelOf m) m.k0 m.k1 g.h m.ks
    let ds := if g.straight ∧ modelOf m ≥ 0 then sg * g.lengthCurved * w - sg * g.length * w else 0
    later ds ds (body (driftArgs m c) (kickArgs m c (sg * g.length * w) (sg * w) (sg * m.hxl)) (sg * g.length * w)
      (kickNumber m w g.h (sg * g.length * w)) (integratorOf m) p)) := by
  unfold trackBody
  simp only
  split_ifs
  · rfl
  · rw [later_zero]

theorem trackBody_undo (m : Magnet) (w : ℝ) (p : Part) (ok : PassesBody m w p) :
    trackBody m (geometry m) w (-1) (trackBody m (geometry m) w 1 p) = p := by
  unfold PassesBody at ok
  rw [trackBody_eq, trackBody_eq]
  simp only [one_mul, neg_mul] at ok ⊢
  rw [later_body, later_later, kickNumber_neg]
  generalize hc : configure (modelOf m) m.k0 m.k1 (geometry m).h m.ks = c at *
  have e : kickArgs m c (-((geometry m).length * w)) (-w) (-m.hxl) =
      (kickArgs m c ((geometry m).length * w) w m.hxl).opposite := rfl
  have := body_undo _ _ _ _ _ _ ok
  rw [e, this]
  split_ifs
  · rw [show ∀ a b : ℝ, a - b + (-a - -b) = 0 from fun a b => by ring]
    exact later_zero p
  · rw [add_zero]
    exact later_zero p

theorem edge_undo (m : Magnet) (fullEdge : Bool → Part → Part) (l : ℝ) (e : Edge) (isExit isExit' : Bool) (p q : Part)
    (hl : e.model ≠ 1 ∧ e.model ≠ 2) (h : edge m fullEdge l e isExit false p = some q) :
    edge m fullEdge l e isExit' true q = some p := by
  unfold edge at h ⊢
  by_cases c : e.model = 0
  · simp only [if_pos c, Option.some.injEq] at h ⊢
    subst h
    ext <;> simp [edgeKick]
  · have c2 : ¬ (e.model = 1 ∨ e.model = 2) := by
      rintro (h | h)
      · exact hl.1 h
      · exact hl.2 h
    simp only [if_neg c, if_neg c2, Option.some.injEq] at h ⊢
    exact h.symm

/-- C60. -/
theorem C60_backtrack (m : Magnet) (fullEdge : Bool → Part → Part) (w : ℝ) (p q : Part)
    (entryLinear : m.entry.active = true → m.entry.model ≠ 1 ∧ m.entry.model ≠ 2)
    (exitLinear : m.exit.active = true → m.exit.model ≠ 1 ∧ m.exit.model ≠ 2)
    (ok : Passes m fullEdge w p) (h : trackMagnet m fullEdge w false p = some q) : trackMagnet m fullEdge w true q = some p := by
  obtain ⟨g1, g2, g3, g4⟩ := geometry_active m
  have hs := straight_iff m
  have ht := geometry_tilt m
  have okE := ok.entry
  have okB := ok.body
  have okX := ok.exit
  clear ok
  unfold trackMagnet at h ⊢
  simp only [Bool.false_eq_true, if_false, if_true] at h ⊢
  rw [← g1, ← g3] at entryLinear
  rw [← g2, ← g4] at exitLinear
  rw [← g1] at okE
  rw [← g2] at okX
  rw [← hs] at okE okX
  have ub := trackBody_undo m w
  have eqB : ∀ x, trackBody m (geometry m) w 1 x = trackBody m (geometry m) w 1 x := fun _ => rfl
  generalize geometry m = g at *
  cases e : trackEntry m fullEdge g g.entry g.tin false p with
  | none => rw [e] at h; cases h
  | some q1 =>
    rw [e] at h
    simp only at h
    have okB := fun hb => okB hb q1 e
    have okX := fun ha hst => okX ha hst q1 e
    generalize hb : (if m.bodyActive = true then trackBody m g w 1 q1 else q1) = q2 at *
    -- back through the exit
    have s1 : trackEntry m fullEdge g g.exit ⟨-g.tout.sin, g.tout.cos, g.tout.x0⟩ true q = some q2 := by
      unfold trackExit at h
      unfold trackEntry
      by_cases ha : g.exit.active = true
      · rw [if_pos ha] at h ⊢
        cases e2 : edge m fullEdge g.length g.exit true false q2 with
        | none => rw [e2] at h; cases h
        | some q3 =>
          rw [e2] at h
          simp only [Option.some.injEq] at h
          have back := edge_undo m fullEdge g.length g.exit true false q2 q3 (exitLinear ha) e2
          subst h
          by_cases hst : g.straight = true
          · rw [if_pos hst, if_pos hst, tiltOut_undo (ht hst).2.2.1 (ht hst).2.2.2 (okX ha hst q3 e2)]
            exact back
          · rw [if_neg hst, if_neg hst]
            exact back
      · rw [if_neg ha] at h ⊢
        exact h.symm
    rw [s1]
    simp only
    -- back through the body
    have s2 : (if m.bodyActive = true then trackBody m g w (-1) q2 else q2) = q1 := by
      by_cases c : m.bodyActive = true
      · rw [if_pos c] at hb ⊢
        rw [← hb]
        exact ub q1 (okB c)
      · rw [if_neg c] at hb ⊢
        exact hb.symm
    rw [s2]
    -- back through the entry
    unfold trackEntry at e
    unfold trackExit
    by_cases ha : g.entry.active = true
    · rw [if_pos ha] at e ⊢
      rw [edge_undo m fullEdge g.length g.entry false true _ q1 (entryLinear ha) e]
      simp only [Option.some.injEq]
      by_cases hst : g.straight = true
      · rw [if_pos hst, if_pos hst]
        exact tiltIn_undo (ht hst).1 (ht hst).2.1 (okE ha hst)
      · rw [if_neg hst, if_neg hst]
    · rw [if_neg ha] at e ⊢
      exact e.symm

/-- Forward tracking never loses a particle in the magnet. -/
theorem C60_forward (m : Magnet) (fullEdge : Bool → Part → Part) (w : ℝ) (p : Part) :
    ∃ q, trackMagnet m fullEdge w false p = some q := by
  have he : ∀ l e x r, ∃ q, edge m fullEdge l e x false r = some q := by
    intro l e x r
    unfold edge
    by_cases c : e.model = 0
    · exact ⟨_, if_pos c⟩
    · rw [if_neg c]
      by_cases c2 : e.model = 1 ∨ e.model = 2
      · rw [if_pos c2]
        exact ⟨_, rfl⟩
      · rw [if_neg c2]
        exact ⟨_, rfl⟩
  have h1 : ∀ g e t r, ∃ q, trackEntry m fullEdge g e t false r = some q := by
    intro g e t r
    unfold trackEntry
    split_ifs <;> first | exact he .. | exact ⟨_, rfl⟩
  have h2 : ∀ g e t r, ∃ q, trackExit m fullEdge g e t false r = some q := by
    intro g e t r
    unfold trackExit
    by_cases c : e.active = true
    · obtain ⟨q, hq⟩ := he g.length e true r
      rw [if_pos c, hq]
      exact ⟨_, rfl⟩
    · rw [if_neg c]
      exact ⟨_, rfl⟩
  unfold trackMagnet
  simp only [Bool.false_eq_true, if_false]
  obtain ⟨q, hq⟩ := h1 (geometry m) (geometry m).entry (geometry m).tin p
  rw [hq]
  exact h2 ..

/-- With a full edge at either end every particle is lost under backtracking. -/
theorem C60_full_edge (m : Magnet) (fullEdge : Bool → Part → Part) (w : ℝ) (p : Part)
    (h : m.entry.active = true ∧ (m.entry.model = 1 ∨ m.entry.model = 2) ∨
      m.exit.active = true ∧ (m.exit.model = 1 ∨ m.exit.model = 2)) : trackMagnet m fullEdge w true p = none := by
  obtain ⟨g1, g2, g3, g4⟩ := geometry_active m
  rw [← g1, ← g2, ← g3, ← g4] at h
  have he : ∀ l (e : Edge) x r, (e.model = 1 ∨ e.model = 2) → edge m fullEdge l e x true r = none := by
    intro l e x r hm
    unfold edge
    have c : ¬ e.model = 0 := by omega
    rw [if_neg c, if_pos hm]
    rfl
  unfold trackMagnet
  simp only [if_true]
  generalize geometry m = g at *
  generalize hq : trackEntry m fullEdge g g.exit ⟨-g.tout.sin, g.tout.cos, g.tout.x0⟩ true p = q
  cases q with
  | none => rfl
  | some q =>
    simp only
    obtain ⟨a, b⟩ | ⟨a, b⟩ := h
    · unfold trackExit
      rw [if_pos a, he _ _ _ _ b]
    · unfold trackEntry at hq
      rw [if_pos a, he _ _ _ _ b] at hq
      cases hq

theorem stepsOk_free {d : DriftArgs} (h : ∀ l p, DriftOk d l p) (k : KickArgs) (l : ℝ) (L : List Step) (p : Part) :
    StepsOk d k l L p := by
  induction L generalizing p with
  | nil => trivial
  | cons o rest ih =>
    cases o
    · exact ⟨h _ _, ih _⟩
    · exact ih _

/-- Quadrupoles, sextupoles, octupoles, multipoles and straight bends, with any model but the expanded combined function map and the
solenoid: backtracking undoes tracking for every particle, without any condition. -/
theorem C60_straight (m : Magnet) (fullEdge : Bool → Part → Part) (w : ℝ) (p : Part)
    (hr : m.rbendModel ≠ 2) (hh : |m.h| < 1e-8) (hm : modelOf m ≠ 4 ∧ modelOf m ≠ -2)
    (entryLinear : m.entry.active = true → m.entry.model ≠ 1 ∧ m.entry.model ≠ 2)
    (exitLinear : m.exit.active = true → m.exit.model ≠ 1 ∧ m.exit.model ≠ 2) :
    ∃ q, trackMagnet m fullEdge w false p = some q ∧ trackMagnet m fullEdge w true q = some p := by
  obtain ⟨q, hq⟩ := C60_forward m fullEdge w p
  refine ⟨q, hq, C60_backtrack m fullEdge w p q entryLinear exitLinear ⟨fun _ h => absurd h hr, ?_, fun _ h => absurd h hr⟩ hq⟩
  intro _ r _
  have gh : (geometry m).h = m.h := by
    unfold geometry
    split_ifs
    · rfl
    · rfl
  unfold PassesBody
  simp only [gh]
  generalize hc : configure (modelOf m) m.k0 m.k1 m.h m.ks = c
  have hd : c.driftModel = -1 ∨ c.driftModel = 0 ∨ c.driftModel = 1 ∨ c.driftModel = 5 := by
    have hdm : driftModelOf (modelOf m) m.h = -1 ∨ driftModelOf (modelOf m) m.h = 0 ∨ driftModelOf (modelOf m) m.h = 1 ∨
        driftModelOf (modelOf m) m.h = 5 ∨ driftModelOf (modelOf m) m.h = 99999999 := by
      have h4 : ¬ (if modelOf m = 1 then (3 : ℤ) else modelOf m) = 4 := by
        split_ifs
        · norm_num
        · exact hm.1
      have h2 : ¬ (if modelOf m = 1 then (3 : ℤ) else modelOf m) = -2 := by
        split_ifs
        · norm_num
        · exact hm.2
      unfold driftModelOf
      simp only [if_pos hh, if_neg h4, if_neg h2]
      split_ifs <;> simp
    rw [← hc]
    unfold configure
    simp only
    obtain h | h | h | h | h := hdm <;> simp [h]
  have free : ∀ l p, DriftOk (driftArgs m c) l p := by
    intro l p
    right
    obtain h | h | h | h := hd
    · exact Or.inl h
    · exact Or.inr (Or.inl h)
    · exact Or.inr (Or.inr (Or.inl h))
    · exact Or.inr (Or.inr (Or.inr (Or.inl h)))
  unfold BodyOk
  split_ifs
  · exact free _ _
  · exact stepsOk_free free _ _ _ _

theorem stepsOk_of {d : DriftArgs} {k : KickArgs} {l : ℝ} {I : Part → Prop} (h : ∀ l p, I p → DriftOk d l p)
    (hd : ∀ l p, I p → I (magnetDrift d l p)) (hk : ∀ w p, I p → I (magnetKick k w p)) (L : List Step) (p : Part) (hp : I p) :
    StepsOk d k l L p := by
  induction L generalizing p with
  | nil => trivial
  | cons o rest ih =>
    cases o
    · exact ⟨h _ _ hp, ih _ (hd _ _ hp)⟩
    · exact ih _ (hk _ _ hp)

theorem edge_delta {m : Magnet} {fullEdge : Bool → Part → Part} {l : ℝ} {e : Edge} {x : Bool} {p q : Part}
    (hl : e.model ≠ 1 ∧ e.model ≠ 2) (h : edge m fullEdge l e x false p = some q) : q.delta = p.delta := by
  unfold edge at h
  by_cases c : e.model = 0
  · simp only [if_pos c, Option.some.injEq] at h
    rw [← h]
    rfl
  · have c2 : ¬ (e.model = 1 ∨ e.model = 2) := by
      rintro (h | h)
      · exact hl.1 h
      · exact hl.2 h
    simp only [if_neg c, if_neg c2, Option.some.injEq] at h
    rw [← h]

/-- Quadrupoles with their default model: backtracking undoes tracking for every particle. -/
theorem C60_quadrupole (m : Magnet) (fullEdge : Bool → Part → Part) (w : ℝ) (p : Part) (hp : 0 < 1 + p.delta)
    (hr : m.rbendModel ≠ 2) (hh : m.h = 0) (hk : m.k0 = 0) (hm : modelOf m = 4)
    (entryLinear : m.entry.active = true → m.entry.model ≠ 1 ∧ m.entry.model ≠ 2)
    (exitLinear : m.exit.active = true → m.exit.model ≠ 1 ∧ m.exit.model ≠ 2) :
    ∃ q, trackMagnet m fullEdge w false p = some q ∧ trackMagnet m fullEdge w true q = some p := by
  obtain ⟨q, hq⟩ := C60_forward m fullEdge w p
  refine ⟨q, hq, C60_backtrack m fullEdge w p q entryLinear exitLinear ⟨fun _ h => absurd h hr, ?_, fun _ h => absurd h hr⟩ hq⟩
  intro _ r hr'
  have hs : ¬ (geometry m).straight = true := by rw [straight_iff]; exact hr
  have hd : r.delta = p.delta := by
    unfold trackEntry at hr'
    by_cases ha : (geometry m).entry.active = true
    · rw [if_pos ha, if_neg hs] at hr'
      refine edge_delta ?_ hr'
      rw [(geometry_active m).1] at ha
      rw [(geometry_active m).2.2.1]
      exact entryLinear ha
    · rw [if_neg ha] at hr'
      cases hr'
      rfl
  have gh : (geometry m).h = 0 := by
    unfold geometry
    split_ifs <;> exact hh
  unfold PassesBody
  simp only [gh, hm, hk]
  have hc : configure 4 0 m.k1 0 m.ks = ⟨0, m.k1, 0, 0, 0, 0, 0, 0, m.k1, false, 3⟩ := by
    norm_num [configure, driftModelOf]
  rw [hc]
  have one : ∀ l p, 0 < 1 + p.delta → DriftOk (driftArgs m ⟨0, m.k1, 0, 0, 0, 0, 0, 0, m.k1, false, 3⟩) l p := by
    intro l p hp
    refine Or.inr (Or.inr (Or.inr (Or.inr (Or.inr (Or.inl ⟨by norm_num [driftArgs], by norm_num [driftArgs], ?_⟩)))))
    simp only [DriftArgs.Regular, Regular, driftArgs]
    norm_num
    exact hp
  have hp' : 0 < 1 + r.delta := by rw [hd]; exact hp
  unfold BodyOk
  split_ifs
  · exact one _ _ hp'
  · refine stepsOk_of (I := fun p => 0 < 1 + p.delta) one ?_ ?_ _ _ hp'
    · intro l q hq
      show 0 < 1 + (magnetDrift _ l q).delta
      rw [(C59_touched _ l q).1.1.delta]
      exact hq
    · intro w q hq
      show 0 < 1 + (magnetKick _ w q).delta
      rw [C58_kick]
      exact hq

end

end Verif.Magnets
