import Verif.SegMap.Props

/-!
# Segments of a ring: examples, and arguments which the code does not handle as documented
-/

namespace Verif.SegMap

open Frames

noncomputable section

/-- Optics without dispersion and orbit. -/
def flat (bet alf : ℝ) : Optics := { bet := bet, alf := alf, d := 0, dp := 0, ref := 0, pref := 0 }

/-- A segment with the default arguments. -/
def base : Seg :=
  { length := 1, qx := 0, qy := 0, coeffsDqx := [0], coeffsDqy := [0], detXX := 0, detXY := 0, detYX := 0, detYY := 0
    x0 := flat 1 0, x1 := flat 1 0, y0 := flat 1 0, y1 := flat 1 0, energyRefIncrement := 0, energyIncrement := 0
    uncorrelatedDamping := false, correlatedDamping := false, damping := fun _ _ => 0
    uncorrelatedNoise := false, correlatedNoise := false, noise := fun _ _ => 0
    mode := 0, qs := 0, bets := 0, bucketLength := 0, alfp := 0, slippageLength := 0, rf := [] }

theorem plain_base : Plain base :=
  ⟨by norm_num [base, flat], by norm_num [base, flat], by norm_num [base, flat], by norm_num [base, flat], ⟨rfl, rfl⟩, ⟨rfl, rfl⟩⟩

/-- The particle `x = 1` with momentum deviation `delta` on a reference orbit with `beta0 * gamma0 = 3 / 4`. -/
def probe (delta : ℝ) : St :=
  { p := { x := 1, px := 0, y := 0, py := 0, zeta := 0, s := 0, delta := delta, ptau := 0, rpp := 1, rvv := 1, beta0 := 3 / 5, chi := 1
           spinX := 0, spinY := 0, spinZ := 0 }
    p0c := 3, gamma0 := 5 / 4 }

def consts : Consts := { mass0 := 4, q0 := 1, chargeRatio := 1, kill := false }

/-- A tune with linear chromaticity. -/
def linearTune (q dq : ℝ) : TuneArgs := { q := q, dq := dq, ddq := 0, dnq := none }

theorem frozen_some {e : Seg} (pl : Plain e) (fr : Frozen e) (k : Consts) (r1 r2 : ℕ → ℝ) (s : St) : ∃ t, track e k r1 r2 s = some t
    ∧ t.p.delta = s.p.delta ∧ betaGamma t = betaGamma s
    ∧ t.p.x = (planeMap e.x0 e.x1 (phases e (removeDispersion e (removeOrbit e s.p))).1
        (s.p.x + -e.x0.ref + -e.x0.d * s.p.delta) (s.p.px + -e.x0.pref + -e.x0.dp * s.p.delta)).1 + e.x1.d * s.p.delta + e.x1.ref := by
  refine ⟨{ s with p := { addOrbit e (addDispersion e (transverse e (removeDispersion e (removeOrbit e s.p)))) with
    s := s.p.s + e.length } }, ?_, rfl, rfl, rfl⟩
  simp only [track, longitudinal, fr.mode, increments, fr.increment, fr.ref, ne_eq, not_true_eq_false, if_false, pl.noDamping.1,
    pl.noDamping.2, pl.noNoise.1, pl.noNoise.2, Bool.false_eq_true]
  rfl

/-! ## Examples -/

/-- Half of a ring with alternating optics, dispersion, chromaticity and detuning. -/
def half (bet0 alf0 bet1 alf1 : ℝ) : Seg :=
  { base with
    qx := 0.31, coeffsDqx := [0.31, 2], detXX := 5, detXY := 3, detYX := 3
    x0 := { bet := bet0, alf := alf0, d := 1, dp := 0.1, ref := 0.001, pref := 0 }
    x1 := { bet := bet1, alf := alf1, d := 2, dp := 0, ref := 0, pref := 0.001 } }

/-- The other half, which returns to the optics of the first. -/
def otherHalf (bet0 alf0 bet1 alf1 : ℝ) : Seg := { half bet0 alf0 bet1 alf1 with
  x0 := (half bet0 alf0 bet1 alf1).x1
  x1 := (half bet0 alf0 bet1 alf1).x0 }

def ring : List Piece :=
  [{ e := half 4 1 9 (-1), tx := linearTune 0.31 2, ty := linearTune 0 0, r1 := fun _ => 0, r2 := fun _ => 0 },
   { e := otherHalf 4 1 9 (-1), tx := linearTune 0.31 2, ty := linearTune 0 0, r1 := fun _ => 0, r2 := fun _ => 0 }]

theorem built_ring {e : Seg} (hx : e.qx = 0.31 ∧ e.coeffsDqx = [0.31, 2]) (hy : e.qy = 0 ∧ e.coeffsDqy = [0]) :
    Built e (linearTune 0.31 2) (linearTune 0 0) := by
  constructor
  · rw [hx.1, hx.2]
    simp [tuneFields, linearTune]
  · rw [hy.1, hy.2]
    simp [tuneFields, linearTune]

theorem tunesOk_ring (e : Seg) : TunesOk e (linearTune 0.31 2) (linearTune 0 0) := by
  refine ⟨fun _ _ => rfl, fun _ _ => rfl, Or.inl ?_⟩
  simp only [TuneArgs.at, linearTune]
  norm_num

/-- The hypotheses of C79 hold for a ring with dispersion, chromaticity and detuning, and every particle survives every turn. -/
example : Chain (half 4 1 9 (-1)).x0 (half 4 1 9 (-1)).y0 ring ∧ lastX (half 4 1 9 (-1)).x0 ring = (half 4 1 9 (-1)).x0
    ∧ lastY (half 4 1 9 (-1)).y0 ring = (half 4 1 9 (-1)).y0 ∧ (∀ a ∈ ring, Frozen a.e) ∧ 0 < betaGamma (probe 0.01)
    ∧ ∀ (n : ℕ) (s : St), ∃ t, trackTurns consts ring n s = some t := by
  have p1 : Plain (half 4 1 9 (-1)) :=
    ⟨by norm_num [half], by norm_num [half], by norm_num [half, base, flat], by norm_num [half, base, flat], ⟨rfl, rfl⟩, ⟨rfl, rfl⟩⟩
  have p2 : Plain (otherHalf 4 1 9 (-1)) :=
    ⟨by norm_num [half, otherHalf], by norm_num [half, otherHalf], by norm_num [half, otherHalf, base, flat],
      by norm_num [half, otherHalf, base, flat], ⟨rfl, rfl⟩, ⟨rfl, rfl⟩⟩
  have f1 : Frozen (half 4 1 9 (-1)) := ⟨rfl, rfl, rfl⟩
  have f2 : Frozen (otherHalf 4 1 9 (-1)) := ⟨rfl, rfl, rfl⟩
  refine ⟨⟨built_ring ⟨rfl, rfl⟩ ⟨rfl, rfl⟩, tunesOk_ring _, p1, rfl, rfl, built_ring ⟨rfl, rfl⟩ ⟨rfl, rfl⟩, tunesOk_ring _, p2, rfl, rfl,
    trivial⟩, rfl, rfl, ?_, ?_, ?_⟩
  · simp only [ring, List.mem_cons, List.not_mem_nil, or_false, forall_eq_or_imp, forall_eq]
    exact ⟨f1, f2⟩
  · norm_num [betaGamma, probe]
  · intro n
    induction n with
    | zero => exact fun s => ⟨s, rfl⟩
    | succ n ih =>
      intro s
      obtain ⟨t1, h1, -⟩ := frozen_some p1 f1 consts (fun _ => 0) (fun _ => 0) s
      obtain ⟨t2, h2, -⟩ := frozen_some p2 f2 consts (fun _ => 0) (fun _ => 0) t1
      obtain ⟨t, ht⟩ := ih t2
      refine ⟨t, ?_⟩
      simp only [trackTurns, trackLine, ring, h1, h2]
      exact ht

/-- Acceleration: the reference energy rises from 5 to 6; the hypotheses of C79 hold. -/
example : ∃ t, track { half 4 1 9 (-1) with energyRefIncrement := 1 } consts (fun _ => 0) (fun _ => 0) (probe 0.01) = some t
    ∧ 0 < betaGamma t := by
  have p1 : Plain { half 4 1 9 (-1) with energyRefIncrement := 1 } :=
    ⟨by norm_num [half], by norm_num [half], by norm_num [half, base, flat], by norm_num [half, base, flat], ⟨rfl, rfl⟩, ⟨rfl, rfl⟩⟩
  have h : ∃ t, track { half 4 1 9 (-1) with energyRefIncrement := 1 } consts (fun _ => 0) (fun _ => 0) (probe 0.01) = some t := by
    have e : ¬ ((4 : ℝ) * (5 / 4) + 1) * (4 * (5 / 4) + 1) - 4 * 4 ≤ 0 := by norm_num
    simp [track, longitudinal, half, base, increments, consts, probe, e]
  obtain ⟨t, h⟩ := h
  exact ⟨t, h, (C79_segment_partial (built_ring ⟨rfl, rfl⟩ ⟨rfl, rfl⟩) (tunesOk_ring _) p1 (by norm_num [consts])
    (by norm_num [betaGamma, probe]) h).2.2.1⟩

/-! ## Violations -/

/-- The documented phase advance of `e` for the particle, and what tracking does, without acceleration. -/
def AdvanceOk (e : Seg) (tx : TuneArgs) (k : Consts) (s : St) : Prop :=
  ∀ t, track e k (fun _ => 0) (fun _ => 0) s = some t → betaGamma t = betaGamma s → nx e.x1 t = turn (advX e tx s) (nx e.x0 s)

/-- Without tunes and detuning the chromaticity is ignored, whatever it is. -/
theorem chroma_ignored {e : Seg} {tx ty : TuneArgs} (b : Built e tx ty) (hx : tx.dnq = none ∧ tx.q = 0) (hy : ty.dnq = none ∧ ty.q = 0)
    (det : e.detXX = 0 ∧ e.detXY = 0 ∧ e.detYX = 0 ∧ e.detYY = 0) (p : Part) : phases e p = (0, 0) := by
  have key : ∀ (t : TuneArgs) (q : ℝ) (c : List ℝ), t.dnq = none ∧ t.q = 0 → tuneFields t.q t.dq t.ddq t.dnq = some (q, c) →
      q = 0 ∧ c.getD 0 0 = 0 := by
    intro t q c h hb
    rw [h.1, h.2] at hb
    simp only [tuneFields, Option.some.injEq, Prod.mk.injEq] at hb
    obtain ⟨rfl, rfl⟩ := hb
    refine ⟨rfl, ?_⟩
    rw [getD_mapIdx]
    split_ifs <;> simp
  obtain ⟨x1, x2⟩ := key tx _ _ hx b.1
  obtain ⟨y1, y2⟩ := key ty _ _ hy b.2
  have hd : ¬ detuning e := by
    rw [detuning_iff, x2, y2]
    simp [det]
  simp only [phases, if_neg hd, x1, y1, mul_zero]

/-- C79: the chromaticity of a segment whose tunes are zero is silently ignored. -/
theorem C79_chroma_violated : ∃ (e : Seg) (tx ty : TuneArgs) (s : St), Built e tx ty ∧ Plain e ∧ Frozen e ∧ tx = linearTune 0 1
    ∧ ty = linearTune 0 0 ∧ ¬ AdvanceOk e tx consts s := by
  let e : Seg := { base with coeffsDqx := [0, 1] }
  have b : Built e (linearTune 0 1) (linearTune 0 0) := by
    constructor
    · simp [e, base, tuneFields, linearTune]
    · simp [e, base, tuneFields, linearTune]
  have pl : Plain e := ⟨plain_base.1, plain_base.2, plain_base.3, plain_base.4, plain_base.5, plain_base.6⟩
  have fr : Frozen e := ⟨rfl, rfl, rfl⟩
  refine ⟨e, linearTune 0 1, linearTune 0 0, probe (1 / 4), b, pl, fr, rfl, rfl, fun h => ?_⟩
  obtain ⟨t, ht, hd, hb, hx⟩ := frozen_some pl fr consts (fun _ => 0) (fun _ => 0) (probe (1 / 4))
  have := congrArg Prod.fst (h t ht hb)
  have ph := chroma_ignored b ⟨rfl, rfl⟩ ⟨rfl, rfl⟩ ⟨rfl, rfl, rfl, rfl⟩
    (removeDispersion e (removeOrbit e (probe (1 / 4)).p))
  rw [ph] at hx
  have hx' : t.p.x = 1 := by
    rw [hx]
    simp [planeMap, e, base, flat, probe]
  have ha : advX e (linearTune 0 1) (probe (1 / 4)) = Real.pi / 2 := by
    simp only [advX, linearTune, TuneArgs.at, e, base, probe]
    ring
  rw [ha] at this
  simp [nx, normal, turn, hx', e, base, flat, probe] at this

/-- C79: nor does setting the tune afterwards switch the chromaticity on: the code looks at the tune with which the segment was
made. -/
theorem C79_set_tune_violated : ∃ (e0 : Seg) (s : St), Built e0 (linearTune 0 1) (linearTune 0 0) ∧ Plain e0 ∧ Frozen e0
    ∧ ¬ AdvanceOk { e0 with qx := 1 } (linearTune 1 1) consts s := by
  let e : Seg := { base with coeffsDqx := [0, 1] }
  have b : Built e (linearTune 0 1) (linearTune 0 0) := by
    constructor
    · simp [e, base, tuneFields, linearTune]
    · simp [e, base, tuneFields, linearTune]
  have pl : Plain e := ⟨plain_base.1, plain_base.2, plain_base.3, plain_base.4, plain_base.5, plain_base.6⟩
  have pl1 : Plain { e with qx := 1 } := ⟨plain_base.1, plain_base.2, plain_base.3, plain_base.4, plain_base.5, plain_base.6⟩
  have fr : Frozen e := ⟨rfl, rfl, rfl⟩
  have fr1 : Frozen { e with qx := 1 } := ⟨rfl, rfl, rfl⟩
  refine ⟨e, probe (1 / 4), b, pl, fr, fun h => ?_⟩
  obtain ⟨t, ht, hd, hb, hx⟩ := frozen_some pl1 fr1 consts (fun _ => 0) (fun _ => 0) (probe (1 / 4))
  have := congrArg Prod.fst (h t ht hb)
  have hnd : ¬ detuning { e with qx := 1 } := by
    rw [detuning_iff]
    simp [e, base]
  have ph : ∀ p, phases { e with qx := 1 } p = (2 * Real.pi * 1, 0) := by
    intro p
    simp only [phases, if_neg hnd]
    simp [e, base]
  rw [ph] at hx
  have hx' : t.p.x = 1 := by
    rw [hx]
    simp [planeMap, e, base, flat, probe]
  have ha : advX { e with qx := 1 } (linearTune 1 1) (probe (1 / 4)) = Real.pi / 2 + 2 * Real.pi := by
    simp only [advX, linearTune, TuneArgs.at, e, base, probe]
    ring
  rw [ha] at this
  simp [nx, normal, turn, hx', e, base, flat, probe, Real.cos_add_two_pi, Real.sin_add_two_pi] at this

/-- C79: a second order chromaticity without a linear one is taken for a linear one. -/
theorem C79_second_order_violated : ∃ (e : Seg) (tx ty : TuneArgs) (s : St), Built e tx ty ∧ Plain e ∧ Frozen e
    ∧ tx = { q := 1, dq := 0, ddq := 1, dnq := none } ∧ ¬ AdvanceOk e tx consts s := by
  let e : Seg := { base with qx := 1, coeffsDqx := [1, 1] }
  have b : Built e { q := 1, dq := 0, ddq := 1, dnq := none } (linearTune 0 0) := by
    constructor
    · simp [e, tuneFields]
    · simp [e, base, tuneFields, linearTune]
  have pl : Plain e := ⟨plain_base.1, plain_base.2, plain_base.3, plain_base.4, plain_base.5, plain_base.6⟩
  have fr : Frozen e := ⟨rfl, rfl, rfl⟩
  refine ⟨e, { q := 1, dq := 0, ddq := 1, dnq := none }, linearTune 0 0, probe 1, b, pl, fr, rfl, fun h => ?_⟩
  obtain ⟨t, ht, hd, hb, hx⟩ := frozen_some pl fr consts (fun _ => 0) (fun _ => 0) (probe 1)
  have := congrArg Prod.fst (h t ht hb)
  have hdet : detuning e := by
    rw [detuning_iff]
    simp [e]
  have ph : ∀ p : Part, p.delta = 1 → (phases e p).1 = 2 * (2 * Real.pi) := by
    intro p hp
    simp only [phases, if_pos hdet, addChroma_eq, hp]
    simp [e, base]
    ring
  rw [ph _ rfl] at hx
  have hc : Real.cos (2 * (2 * Real.pi)) = 1 := by
    have := Real.cos_nat_mul_two_pi 2
    simpa using this
  have hs : Real.sin (2 * (2 * Real.pi)) = 0 := by
    have := Real.sin_nat_mul_pi 4
    rw [← this]
    congr 1
    push_cast
    ring
  have hx' : t.p.x = 1 := by
    rw [hx]
    simp [planeMap, e, base, flat, probe, hc, hs]
  have ha : advX e { q := 1, dq := 0, ddq := 1, dnq := none } (probe 1) = Real.pi + 2 * Real.pi := by
    simp only [advX, TuneArgs.at, e, base, probe]
    ring
  rw [ha] at this
  simp [nx, normal, turn, hx', e, base, flat, probe, Real.cos_add_two_pi, Real.sin_add_two_pi] at this
  linarith

end

end Verif.SegMap
