import Verif.SegMap.Symplectic
import Verif.Symplectic.Violations

/-!
# Segments of a ring: symplecticity of segments, lines and turns (C81), examples and violations
-/

namespace Verif.SegMap

open Frames hiding curvature
open Symplectic Filter Topology

noncomputable section

/-- Tracking through one segment as a map of particles. -/
def segment (e : Seg) (k : Consts) (r1 r2 : ℕ → ℝ) (s : St) (q : Part) : Option Part := (track e k r1 r2 { s with p := q }).map (·.p)

/-- Tracking through a line of segments as a map of particles. -/
def segments (k : Consts) (l : List Piece) (s : St) (q : Part) : Option Part := (trackLine k l { s with p := q }).map (·.p)

/-- Tracking for some turns as a map of particles. -/
def turns (k : Consts) (l : List Piece) (n : ℕ) (s : St) (q : Part) : Option Part := (trackTurns k l n { s with p := q }).map (·.p)

/-- C81, one segment: without dispersion and chromaticity and with `det_xy = det_yx` a segment is symplectic in every mode.
Missing: dispersion, chromaticity and other detunings, see below. -/
theorem C81_segment_partial {e : Seg} (st : Steady e) (a : Achromatic e) {k : Consts} (r1 r2 : ℕ → ℝ) {s : St} (hk : s.p.Kin)
    (run : RunsLong e k (after e s)) : SymplecticAtO (segment e k r1 r2 s) s.p := (fairOn_track st a r1 r2 hk run).symplectic

/-- Only the particle changes. -/
theorem steady_rest {e : Seg} (st : Steady e) {k : Consts} {r1 r2 : ℕ → ℝ} {s t : St} (h : track e k r1 r2 s = some t) :
    t = { s with p := t.p } := by
  obtain ⟨s1, h1, rfl⟩ := steady_track st h
  have u := untouched_longitudinal h1
  have e1 : s1.p0c = s.p0c := u.p0c
  have e2 : s1.gamma0 = s.gamma0 := u.gamma0
  simp only [e1, e2]

/-- The particle gets through the line, whose segments are as in C81. -/
def RunsLine (k : Consts) : List Piece → St → Prop
  | [], _ => True
  | a :: l, s => Steady a.e ∧ Achromatic a.e ∧ RunsLong a.e k (after a.e s) ∧ ∀ t, track a.e k a.r1 a.r2 s = some t → RunsLine k l t

theorem fairOn_line (k : Consts) : ∀ (l : List Piece) {s : St}, s.p.Kin → RunsLine k l s → FairOn (segments k l s) s.p
    ∧ ∀ t, trackLine k l s = some t → t = { s with p := t.p }
  | [], s, hk, _ => ⟨⟨fun q => q, fun _ _ _ => rfl, Fair.id hk⟩, fun t h => by rw [← Option.some.inj h]⟩
  | a :: l, s, hk, h => by
    obtain ⟨st, ac, run, rest⟩ := h
    have f := fairOn_track st ac a.r1 a.r2 hk run
    have kin : ∀ t, track a.e k a.r1 a.r2 s = some t → t.p.Kin := by
      intro t ht
      obtain ⟨G, hG, fG⟩ := f
      have := hG s.p rfl rfl
      simp only [ht, Option.map_some, Option.some.injEq] at this
      rw [this]
      exact fG.kin
    constructor
    · have b := FairOn.bind (G := fun q => segments k l s q) hk f fun q hq => by
        cases ht : track a.e k a.r1 a.r2 s with
        | none => simp [ht] at hq
        | some t =>
          simp only [ht, Option.map_some, Option.some.injEq] at hq
          subst hq
          have g := (fairOn_line k l (kin t ht) (rest t ht)).1
          have e := steady_rest st ht
          have e2 : segments k l t = segments k l s := by
            funext q
            show (trackLine k l { p := q, p0c := t.p0c, gamma0 := t.gamma0 }).map _ = _
            rw [e]
            rfl
          rw [← e2]
          exact g
      obtain ⟨G, hG, fG⟩ := b
      refine ⟨G, fun q hb hc => ?_, fG⟩
      rw [← hG q hb hc]
      unfold segments
      simp only [trackLine]
      cases ht : track a.e k a.r1 a.r2 { s with p := q } with
      | none => rfl
      | some t =>
        have e := steady_rest st ht
        simp only [Option.map_some, Option.bind_some]
        rw [e]
    · intro t h
      simp only [trackLine] at h
      cases ht : track a.e k a.r1 a.r2 s with
      | none => simp [ht] at h
      | some t1 =>
        simp only [ht] at h
        have g := (fairOn_line k l (kin t1 ht) (rest t1 ht)).2 t h
        have e := steady_rest st ht
        rw [g, e]

/-- C81, lines. -/
theorem C81_line_partial {k : Consts} {l : List Piece} {s : St} (hk : s.p.Kin) (run : RunsLine k l s) :
    SymplecticAtO (segments k l s) s.p := (fairOn_line k l hk run).1.symplectic

/-- The particle gets through every turn. -/
def RunsTurns (k : Consts) (l : List Piece) : ℕ → St → Prop
  | 0, _ => True
  | n + 1, s => RunsLine k l s ∧ ∀ t, trackLine k l s = some t → RunsTurns k l n t

theorem fairOn_turns (k : Consts) (l : List Piece) : ∀ (n : ℕ) {s : St}, s.p.Kin → RunsTurns k l n s → FairOn (turns k l n s) s.p
  | 0, _, hk, _ => ⟨fun q => q, fun _ _ _ => rfl, Fair.id hk⟩
  | n + 1, s, hk, h => by
    obtain ⟨run, rest⟩ := h
    obtain ⟨f, same⟩ := fairOn_line k l hk run
    have b := FairOn.bind (G := fun q => turns k l n s q) hk f fun q hq => by
      cases ht : trackLine k l s with
      | none => simp [segments, ht] at hq
      | some t =>
        have hq : some t.p = some q := by
          rw [← hq]
          simp [segments, ht]
        cases hq
        have kt : t.p.Kin := by
          obtain ⟨G, hG, fG⟩ := f
          have := hG s.p rfl rfl
          simp only [segments, ht, Option.map_some, Option.some.injEq] at this
          rw [this]
          exact fG.kin
        have g := fairOn_turns k l n kt (rest t ht)
        have e := same t ht
        have e2 : turns k l n t = turns k l n s := by
          funext q
          show (trackTurns k l n { p := q, p0c := t.p0c, gamma0 := t.gamma0 }).map _ = _
          rw [e]
          rfl
        rw [← e2]
        exact g
    obtain ⟨G, hG, fG⟩ := b
    refine ⟨G, fun q hb hc => ?_, fG⟩
    rw [← hG q hb hc]
    unfold turns segments
    simp only [trackTurns]
    cases ht : trackLine k l { s with p := q } with
    | none => rfl
    | some t =>
      have e : t = { s with p := t.p } := by
        have key : ∀ (l : List Piece) (s t : St), (∀ a ∈ l, Steady a.e) → trackLine k l s = some t → t = { s with p := t.p } := by
          intro l
          induction l with
          | nil =>
            intro s t _ h
            rw [← Option.some.inj h]
          | cons a l ih =>
            intro s t hl h
            simp only [trackLine] at h
            cases h1 : track a.e k a.r1 a.r2 s with
            | none => simp [h1] at h
            | some t1 =>
              simp only [h1] at h
              rw [ih t1 t (fun a ha => hl a (by simp [ha])) h, steady_rest (hl a (by simp)) h1]
        have steady : ∀ (l : List Piece) (s : St), s.p.Kin → RunsLine k l s → ∀ a ∈ l, Steady a.e := by
          intro l
          induction l with
          | nil => intro _ _ _ a ha; simp at ha
          | cons b l ih =>
            intro s hk h a ha
            rcases List.mem_cons.1 ha with rfl | ha
            · exact h.1
            · obtain ⟨st, ac, run, rest⟩ := h
              obtain ⟨G, hG, fG⟩ := fairOn_track st ac b.r1 b.r2 hk run
              have e := hG s.p rfl rfl
              cases h1 : track b.e k b.r1 b.r2 s with
              | none => simp [h1] at e
              | some t1 =>
                simp only [h1, Option.map_some, Option.some.injEq] at e
                exact ih t1 (by rw [e]; exact fG.kin) (rest t1 h1) a ha
        exact key l { s with p := q } t (steady l s hk run) ht
      simp only [Option.map_some, Option.bind_some]
      rw [e]

/-- C81, turns: lines of such segments are symplectic over any number of turns. -/
theorem C81_turns_partial {k : Consts} {l : List Piece} {n : ℕ} {s : St} (hk : s.p.Kin) (run : RunsTurns k l n s) :
    SymplecticAtO (turns k l n s) s.p := (fairOn_turns k l n hk run).symplectic

/-! ## Examples -/

/-- A particle with position, momentum and a longitudinal position. -/
def start : St :=
  { p := { x := 1, px := 2, y := 1, py := 0, zeta := 0.01, s := 0, delta := 0, ptau := 0, rpp := 1, rvv := 1, beta0 := 3 / 5, chi := 1
           spinX := 0, spinY := 0, spinZ := 0 }
    p0c := 3, gamma0 := 5 / 4 }

theorem kin_start : start.p.Kin := by constructor <;> norm_num [start]

/-- Tunes, detuning, an orbit and synchrotron motion in buckets. -/
def synchrotron : Seg :=
  { base with
    qx := 0.31, qy := 0.32, coeffsDqx := [0.31], coeffsDqy := [0.32], detXX := 5, detXY := 3, detYX := 3, detYY := 2
    x0 := { bet := 4, alf := 1, d := 0, dp := 0, ref := 0.001, pref := 0 }
    x1 := { bet := 9, alf := -1, d := 0, dp := 0, ref := 0, pref := 0.001 }
    mode := 1, qs := 1 / 4, bets := 1000, bucketLength := 1 / 400000000 }

theorem steady_synchrotron : Steady synchrotron := by
  refine ⟨⟨?_, ?_, ?_, ?_, ⟨rfl, rfl⟩, ⟨rfl, rfl⟩⟩, rfl, rfl⟩ <;> norm_num [synchrotron, base, flat]

theorem getD_single (a : ℝ) {i : ℕ} (h : 1 ≤ i) : [a].getD i 0 = 0 := by
  obtain ⟨j, rfl⟩ : ∃ j, i = j + 1 := ⟨i - 1, by omega⟩
  simp

theorem achromatic_synchrotron : Achromatic synchrotron :=
  ⟨⟨rfl, rfl, rfl, rfl⟩, ⟨rfl, rfl, rfl, rfl⟩, fun _ h => ⟨getD_single _ h, getD_single _ h⟩, rfl⟩

/-- The hypotheses of C80 (fixed synchrotron tune). -/
example : FixedQs synchrotron 1000 (1 / 400000000) ∧ consts.kill = false
    ∧ Inside (1 / 400000000 * start.p.beta0 * Rf.clight) 0 (long 1000 ((0 : ℤ) * (1 / 400000000 * start.p.beta0 * Rf.clight)) start) := by
  refine ⟨⟨steady_synchrotron, rfl, rfl, rfl⟩, rfl, Or.inr ?_⟩
  norm_num [start, Rf.clight, long]

/-- The hypotheses of C80 (fixed RF). -/
example : RefOk consts start ∧ etaOf { base with alfp := 0.1 } start.gamma0 ≠ 0 := by
  refine ⟨⟨?_, ?_, ?_, ?_⟩, ?_⟩ <;> norm_num [consts, start, etaOf]

/-- The hypotheses of C81 in buckets. -/
example : RunsLong synchrotron consts (after synchrotron start) := by
  have hs : Real.sin (2 * Real.pi * (1 / 4)) = 1 := by
    rw [show 2 * Real.pi * (1 / 4) = Real.pi / 2 by ring, Real.sin_pi_div_two]
  have fl : ⌊(0.01 / (1 / 400000000 * (3 / 5) * Rf.clight) + 0.5 : ℝ)⌋ = 0 := by
    rw [Int.floor_eq_iff]
    norm_num [Rf.clight]
  unfold RunsLong
  rw [if_pos (show synchrotron.mode = 1 from rfl)]
  refine ⟨by norm_num [synchrotron], rfl, ?_, ?_⟩
  · intro _ n hn
    have hn : (0.01 / (1 / 400000000 * (3 / 5) * Rf.clight) + 0.5 : ℝ) = n := hn
    rw [hn, Int.floor_intCast] at fl
    subst fl
    norm_num [Rf.clight] at hn
  · have e5 : coords (longRotate synchrotron.qs synchrotron.bets (synchrotron.bucketLength * (after synchrotron start).p.beta0 * Rf.clight)
        false (after synchrotron start).p) 5 = 0.01 / 1000 := by
      show (3 / 5 * (Real.sin (2 * Real.pi * (1 / 4)) * (if 1 / 400000000 * (3 / 5) * Rf.clight > 0 then 0.01 + -(if 1 / 400000000 * (3 / 5)
        * Rf.clight > 0 then 1 / 400000000 * (3 / 5) * Rf.clight * (⌊(0.01 / (1 / 400000000 * (3 / 5) * Rf.clight) + 0.5 : ℝ)⌋ : ℝ) else 0)
        else 0.01) / 1000 + Real.cos (2 * Real.pi * (1 / 4)) * (0 / (3 / 5)))) / (3 / 5 : ℝ) = 0.01 / 1000
      rw [fl, hs]
      simp
    constructor <;> rw [e5] <;> norm_num [after, start, transverse, removeDispersion, removeOrbit]

/-- A segment with an RF system, in the nonlinear mode. -/
def nonlinear : Seg := { base with
  mode := 2
  alfp := 1
  slippageLength := 1
  rf := [(1, 400000000, 0, Real.pi)] }

/-- The hypotheses of C81 in the nonlinear mode, for the particle in the centre of the bucket. -/
example : Steady nonlinear ∧ Achromatic nonlinear
    ∧ RunsLong nonlinear consts (after nonlinear { start with p := { start.p with zeta := 0 } }) := by
  refine ⟨⟨⟨?_, ?_, ?_, ?_, ⟨rfl, rfl⟩, ⟨rfl, rfl⟩⟩, rfl, rfl⟩, ⟨⟨rfl, rfl, rfl, rfl⟩, ⟨rfl, rfl, rfl, rfl⟩,
    fun _ h => ⟨getD_single _ h, getD_single _ h⟩, rfl⟩, ?_⟩
  · norm_num [nonlinear, base, flat]
  · norm_num [nonlinear, base, flat]
  · norm_num [nonlinear, base, flat]
  · norm_num [nonlinear, base, flat]
  · unfold RunsLong
    rw [if_neg (by simp [nonlinear]), if_pos (show nonlinear.mode = 2 from rfl)]
    refine ⟨by norm_num [consts], by norm_num [after, start], ?_, trivial⟩
    have e5 : coords (rfKick consts (slip nonlinear (after nonlinear { start with p := { start.p with zeta := 0 } }))
        (1, 400000000, 0, Real.pi)).p 5 = 0 := by
      simp [coords, rfKick, slip, after, start, transverse, removeDispersion, removeOrbit, addToEnergy, Rf.updatePtau]
    constructor <;> rw [e5] <;> norm_num

/-! ## Violations -/

theorem frozen_segment {e : Seg} (pl : Plain e) (fr : Frozen e) (k : Consts) (r1 r2 : ℕ → ℝ) (s : St) (q : Part) :
    segment e k r1 r2 s q = some { addOrbit e (addDispersion e (transverse e (removeDispersion e (removeOrbit e q)))) with
      s := q.s + e.length } := by
  simp only [segment, track, longitudinal, fr.mode, increments, fr.increment, fr.ref, ne_eq, not_true_eq_false, if_false, pl.noDamping.1,
    pl.noDamping.2, pl.noNoise.1, pl.noNoise.2, Bool.false_eq_true]
  rfl

theorem frozen_canonical {e : Seg} (pl : Plain e) (fr : Frozen e) {k : Consts} {r1 r2 : ℕ → ℝ} {s : St}
    (h : SymplecticAtO (segment e k r1 r2 s) s.p) : Canonical (fun z => coords (addOrbit e (addDispersion e (transverse e
      (removeDispersion e (removeOrbit e (place s.p z))))))) (coords s.p) := by
  obtain ⟨G, h1, h2⟩ := h
  refine Canonical.congr h2 ?_
  filter_upwards [h1] with z hz
  rw [frozen_segment pl fr] at hz
  rw [← Option.some.inj hz]
  rfl

/-- A quarter of a turn between two places with the horizontal dispersion `D`. -/
def dispersive (D : ℝ) : Seg := { base with
  qx := 1 / 4
  coeffsDqx := [1 / 4]
  x0 := { flat 1 0 with d := D }
  x1 := { flat 1 0 with d := D } }

/-- C81: a segment with dispersion is not symplectic: `zeta` would have to change with the amplitude. -/
theorem C81_dispersion_violated {D : ℝ} (hD : D ≠ 0) (k : Consts) (r1 r2 : ℕ → ℝ) {s : St} (hk : s.p.Kin) :
    ¬SymplecticAtO (segment (dispersive D) k r1 r2 s) s.p := by
  intro h
  have pl : Plain (dispersive D) := by
    refine ⟨?_, ?_, ?_, ?_, ⟨rfl, rfl⟩, ⟨rfl, rfl⟩⟩ <;> norm_num [dispersive, base, flat]
  have c := frozen_canonical pl ⟨rfl, rfl, rfl⟩ h
  have fine := fine_coords hk
  have ph : ∀ q, phases (dispersive D) q = (Real.pi / 2, 0) := by
    intro q
    have hd : detuning (dispersive D) := by
      rw [detuning_iff]
      left
      norm_num [dispersive, base]
    unfold phases
    rw [if_pos hd]
    simp only [addChroma_eq]
    norm_num [dispersive, base]
    ring
  have c : Canonical (fun z : Z => ![z 1 + D * (opdOf s.p.beta0 (z 5) - 1), -(z 0 - D * (opdOf s.p.beta0 (z 5) - 1))
      + 0 * (opdOf s.p.beta0 (z 5) - 1), z 2, z 3, z 4, z 5]) (coords s.p) := by
    refine c.congr (Eventually.of_forall fun z => ?_)
    have hb := hk.beta0.ne'
    ext i
    fin_cases i <;> simp only [coords, addOrbit, addDispersion, transverse, ph, planeMap] <;> simp [removeDispersion, removeOrbit, place, dispersive,
      base, flat, hb]
    ring
  obtain ⟨M, hM, o⟩ := Canonical.lines c
  have l := fun v => line (coords s.p) v
  let r := (1 + s.p.beta0 ^ 2 * coords s.p 5) / opdOf s.p.beta0 (coords s.p 5)
  have hr : 0 < r := div_pos fine.energy (opdOf_pos fine.rad)
  have dO : HasDerivAt (fun t : ℝ => opdOf s.p.beta0 (coords s.p 5 + t * dir 5 5)) r 0 := by
    refine (hasDerivAt_opdOf (b := s.p.beta0) (l (dir 5) 5) (by simpa [radOf] using fine.rad)).congr_deriv ?_
    simp [dir, r]
  have m00 : M (dir 0) 0 = 0 := hM _ _ _ (by simpa [dir] using hasDerivAt_const (𝕜 := ℝ) _ _)
  have m01 : M (dir 0) 1 = -1 := hM _ _ _ (by
    have := ((l (dir 0) 0).sub_const (D * (opdOf s.p.beta0 (coords s.p 5) - 1))).neg.add_const 0
    simpa [dir] using this)
  have m50 : M (dir 5) 0 = D * r := hM _ _ _ (by
    have := ((dO.sub_const 1).const_mul D).const_add (coords s.p 1)
    simpa [dir] using this)
  have m51 : M (dir 5) 1 = D * r := hM _ _ _ (by
    have := (((dO.sub_const 1).const_mul D).const_sub (coords s.p 0)).neg.add_const 0
    simpa [dir] using this)
  have mz : ∀ i, 2 ≤ i → M (dir 0) i = 0 := by
    intro i hi
    refine hM _ _ _ ?_
    fin_cases i
    · exact absurd hi (by decide)
    · exact absurd hi (by decide)
    · simpa [dir] using l (dir 0) 2
    · simpa [dir] using l (dir 0) 3
    · simpa [dir] using l (dir 0) 4
    · simpa [dir] using l (dir 0) 5
  have := o (dir 0) (dir 5)
  simp only [omega, m00, m01, m50, m51, mz 2 (by decide), mz 3 (by decide), mz 4 (by decide), mz 5 (by decide)] at this
  have z1 : dir 0 1 = 0 ∧ dir 0 2 = 0 ∧ dir 0 3 = 0 ∧ dir 0 4 = 0 ∧ dir 0 5 = 0 ∧ dir 5 0 = 0 ∧ dir 5 1 = 0 := by simp [dir]
  simp only [z1] at this
  have : D * r = 0 := by linarith
  rcases mul_eq_zero.1 this with h | h
  · exact hD h
  · exact hr.ne' h

/-- A turn with linear chromaticity. -/
def chromatic (xi : ℝ) : Seg := { base with
  qx := 1
  coeffsDqx := [1, xi] }

/-- C81: a segment with chromaticity is not symplectic, for every particle which is off the axis. -/
theorem C81_chroma_violated {xi : ℝ} (hxi : xi ≠ 0) (k : Consts) (r1 r2 : ℕ → ℝ) {s : St} (hk : s.p.Kin) (hx : s.p.x ≠ 0) :
    ¬SymplecticAtO (segment (chromatic xi) k r1 r2 s) s.p := by
  intro h
  have pl : Plain (chromatic xi) := by
    refine ⟨?_, ?_, ?_, ?_, ⟨rfl, rfl⟩, ⟨rfl, rfl⟩⟩ <;> norm_num [chromatic, base, flat]
  have c := frozen_canonical pl ⟨rfl, rfl, rfl⟩ h
  have fine := fine_coords hk
  have ph : ∀ q, phases (chromatic xi) q = (2 * Real.pi * (1 + xi * q.delta), 0) := by
    intro q
    have hd : detuning (chromatic xi) := by
      rw [detuning_iff]
      left
      norm_num [chromatic, base]
    unfold phases
    rw [if_pos hd]
    simp only [addChroma_eq]
    norm_num [chromatic, base]
    ring
  let A : Z → ℝ := fun z => 2 * Real.pi * (1 + xi * (opdOf s.p.beta0 (z 5) - 1))
  have c : Canonical (fun z : Z => ![Real.cos (A z) * z 0 + Real.sin (A z) * z 1, -Real.sin (A z) * z 0 + Real.cos (A z) * z 1,
      z 2, z 3, z 4, z 5]) (coords s.p) := by
    refine c.congr (Eventually.of_forall fun z => ?_)
    have hb := hk.beta0.ne'
    ext i
    fin_cases i <;> simp only [coords, addOrbit, addDispersion, transverse, ph, planeMap] <;> simp [removeDispersion, removeOrbit, place,
      chromatic, base, flat, hb, A]
  obtain ⟨M, hM, o⟩ := Canonical.lines c
  have l := fun v => line (coords s.p) v
  let r := (1 + s.p.beta0 ^ 2 * coords s.p 5) / opdOf s.p.beta0 (coords s.p 5)
  have hr : 0 < r := div_pos fine.energy (opdOf_pos fine.rad)
  have dA : HasDerivAt (fun t : ℝ => 2 * Real.pi * (1 + xi * (opdOf s.p.beta0 (coords s.p 5 + t * dir 5 5) - 1))) (2 * Real.pi * xi * r) 0 := by
    refine ((((hasDerivAt_opdOf (b := s.p.beta0) (l (dir 5) 5) (by simpa [radOf] using fine.rad)).sub_const 1).const_mul xi).const_add
      1).const_mul (2 * Real.pi) |>.congr_deriv ?_
    simp [dir, r]
    ring
  have m00 : M (dir 0) 0 = Real.cos (A (coords s.p)) := hM _ _ _ (by
    have := ((l (dir 0) 0).const_mul (Real.cos (A (coords s.p)))).add_const (Real.sin (A (coords s.p)) * coords s.p 1)
    simpa [dir, A] using this)
  have m01 : M (dir 0) 1 = -Real.sin (A (coords s.p)) := hM _ _ _ (by
    have := ((l (dir 0) 0).const_mul (-Real.sin (A (coords s.p)))).add_const (Real.cos (A (coords s.p)) * coords s.p 1)
    simpa [dir, A] using this)
  have m50 : M (dir 5) 0 = -Real.sin (A (coords s.p)) * (2 * Real.pi * xi * r) * s.p.x + Real.cos (A (coords s.p)) * (2 * Real.pi * xi * r) * s.p.px :=
    hM _ _ _ (by
      have := (dA.cos.mul_const s.p.x).add (dA.sin.mul_const s.p.px)
      have e0 : coords s.p 0 = s.p.x := rfl
      have e1 : coords s.p 1 = s.p.px := rfl
      simpa [dir, A, e0, e1, Pi.add_def] using this)
  have m51 : M (dir 5) 1 = -Real.cos (A (coords s.p)) * (2 * Real.pi * xi * r) * s.p.x + -Real.sin (A (coords s.p)) * (2 * Real.pi * xi * r) * s.p.px :=
    hM _ _ _ (by
      have := (dA.sin.neg.mul_const s.p.x).add (dA.cos.mul_const s.p.px)
      have e0 : coords s.p 0 = s.p.x := rfl
      have e1 : coords s.p 1 = s.p.px := rfl
      simpa [dir, A, e0, e1, Pi.add_def] using this)
  have mz : ∀ i, 2 ≤ i → M (dir 0) i = 0 := by
    intro i hi
    refine hM _ _ _ ?_
    fin_cases i
    · exact absurd hi (by decide)
    · exact absurd hi (by decide)
    · simpa [dir] using l (dir 0) 2
    · simpa [dir] using l (dir 0) 3
    · simpa [dir] using l (dir 0) 4
    · simpa [dir] using l (dir 0) 5
  have := o (dir 0) (dir 5)
  simp only [omega, m00, m01, m50, m51, mz 2 (by decide), mz 3 (by decide), mz 4 (by decide), mz 5 (by decide)] at this
  have z1 : dir 0 1 = 0 ∧ dir 0 2 = 0 ∧ dir 0 3 = 0 ∧ dir 0 4 = 0 ∧ dir 0 5 = 0 ∧ dir 5 0 = 0 ∧ dir 5 1 = 0 := by simp [dir]
  simp only [z1] at this
  have cs := Real.sin_sq_add_cos_sq (A (coords s.p))
  have : 2 * Real.pi * xi * r * s.p.x = 0 := by
    linear_combination -this - 2 * Real.pi * xi * r * s.p.x * cs
  have hpi := Real.pi_pos.ne'
  simp [hpi, hxi, hr.ne', hx] at this

/-- Detuning of the horizontal tune with the vertical action only. -/
def lopsided (D : ℝ) : Seg := { base with detXY := D }

/-- C81: a segment with `det_xy` and without `det_yx` is not symplectic, for every particle which is off both axes. -/
theorem C81_detuning_violated {D : ℝ} (hD : D ≠ 0) (k : Consts) (r1 r2 : ℕ → ℝ) {s : St} (hk : s.p.Kin) (hx : s.p.x ≠ 0) (hy : s.p.y ≠ 0) :
    ¬SymplecticAtO (segment (lopsided D) k r1 r2 s) s.p := by
  intro h
  have pl : Plain (lopsided D) := by
    refine ⟨?_, ?_, ?_, ?_, ⟨rfl, rfl⟩, ⟨rfl, rfl⟩⟩ <;> norm_num [lopsided, base, flat]
  have c := frozen_canonical pl ⟨rfl, rfl, rfl⟩ h
  have ph : ∀ q, phases (lopsided D) q = (Real.pi * D * (q.y ^ 2 + q.py ^ 2), 0) := by
    intro q
    have hd : detuning (lopsided D) := by
      rw [detuning_iff]
      simp [lopsided, hD]
    unfold phases
    rw [if_pos hd]
    simp only [addChroma_eq]
    norm_num [lopsided, base, actionOf, flat]
    ring
  let A : Z → ℝ := fun z => Real.pi * D * (z 2 ^ 2 + z 3 ^ 2)
  have c : Canonical (fun z : Z => ![Real.cos (A z) * z 0 + Real.sin (A z) * z 1, -Real.sin (A z) * z 0 + Real.cos (A z) * z 1,
      z 2, z 3, z 4, z 5]) (coords s.p) := by
    refine c.congr (Eventually.of_forall fun z => ?_)
    have hb := hk.beta0.ne'
    ext i
    fin_cases i <;> simp only [coords, addOrbit, addDispersion, transverse, ph, planeMap] <;> simp [removeDispersion, removeOrbit, place,
      lopsided, base, flat, hb, A]
  obtain ⟨M, hM, o⟩ := Canonical.lines c
  have l := fun v => line (coords s.p) v
  have dA : HasDerivAt (fun t : ℝ => Real.pi * D * ((coords s.p 2 + t * dir 2 2) ^ 2 + coords s.p 3 ^ 2)) (2 * Real.pi * D * s.p.y) 0 := by
    refine ((((l (dir 2) 2).pow 2).add_const (coords s.p 3 ^ 2)).const_mul (Real.pi * D)).congr_deriv ?_
    simp [dir, coords]
    ring
  have m00 : M (dir 0) 0 = Real.cos (A (coords s.p)) := hM _ _ _ (by
    have := ((l (dir 0) 0).const_mul (Real.cos (A (coords s.p)))).add_const (Real.sin (A (coords s.p)) * coords s.p 1)
    simpa [dir, A] using this)
  have m01 : M (dir 0) 1 = -Real.sin (A (coords s.p)) := hM _ _ _ (by
    have := ((l (dir 0) 0).const_mul (-Real.sin (A (coords s.p)))).add_const (Real.cos (A (coords s.p)) * coords s.p 1)
    simpa [dir, A] using this)
  have m20 : M (dir 2) 0 = -Real.sin (A (coords s.p)) * (2 * Real.pi * D * s.p.y) * s.p.x
      + Real.cos (A (coords s.p)) * (2 * Real.pi * D * s.p.y) * s.p.px :=
    hM _ _ _ (by
      have := (dA.cos.mul_const s.p.x).add (dA.sin.mul_const s.p.px)
      have e0 : coords s.p 0 = s.p.x := rfl
      have e1 : coords s.p 1 = s.p.px := rfl
      simpa [dir, A, e0, e1, Pi.add_def] using this)
  have m21 : M (dir 2) 1 = -Real.cos (A (coords s.p)) * (2 * Real.pi * D * s.p.y) * s.p.x
      + -Real.sin (A (coords s.p)) * (2 * Real.pi * D * s.p.y) * s.p.px :=
    hM _ _ _ (by
      have := (dA.sin.neg.mul_const s.p.x).add (dA.cos.mul_const s.p.px)
      have e0 : coords s.p 0 = s.p.x := rfl
      have e1 : coords s.p 1 = s.p.px := rfl
      simpa [dir, A, e0, e1, Pi.add_def] using this)
  have mz : ∀ i, 2 ≤ i → M (dir 0) i = 0 := by
    intro i hi
    refine hM _ _ _ ?_
    fin_cases i
    · exact absurd hi (by decide)
    · exact absurd hi (by decide)
    · simpa [dir] using l (dir 0) 2
    · simpa [dir] using l (dir 0) 3
    · simpa [dir] using l (dir 0) 4
    · simpa [dir] using l (dir 0) 5
  have := o (dir 0) (dir 2)
  simp only [omega, m00, m01, m20, m21, mz 2 (by decide), mz 3 (by decide), mz 4 (by decide), mz 5 (by decide)] at this
  have z1 : dir 0 1 = 0 ∧ dir 0 2 = 0 ∧ dir 0 3 = 0 ∧ dir 0 4 = 0 ∧ dir 0 5 = 0 ∧ dir 2 0 = 0 ∧ dir 2 1 = 0 := by simp [dir]
  simp only [z1] at this
  have cs := Real.sin_sq_add_cos_sq (A (coords s.p))
  have : 2 * Real.pi * D * s.p.y * s.p.x = 0 := by
    linear_combination -this - 2 * Real.pi * D * s.p.y * s.p.x * cs
  have hpi := Real.pi_pos.ne'
  simp [hpi, hD, hy, hx] at this

/-- Particles as in the three theorems exist. -/
example : start.p.Kin ∧ start.p.x ≠ 0 ∧ start.p.y ≠ 0 := ⟨kin_start, by norm_num [start], by norm_num [start]⟩

end

end Verif.SegMap
