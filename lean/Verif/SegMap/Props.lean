import Verif.SegMap.Lemmas
import Mathlib.Tactic.Push

/-!
# Segments of a ring turn the normalised coordinates by the phase advance
-/

namespace Verif.SegMap

open Frames

noncomputable section

/-- The chromatic arguments which the code handles as documented: a quadratic chromaticity comes with a linear one, and a tune which
depends on `delta` is not zero on momentum in both planes, unless there is detuning with amplitude. -/
structure TunesOk (e : Seg) (tx ty : TuneArgs) : Prop where
  x : tx.dnq = none → tx.dq = 0 → tx.ddq = 0
  y : ty.dnq = none → ty.dq = 0 → ty.ddq = 0
  seen : tx.at 0 ≠ 0 ∨ ty.at 0 ≠ 0 ∨ e.detXX ≠ 0 ∨ e.detXY ≠ 0 ∨ e.detYX ≠ 0 ∨ e.detYY ≠ 0
    ∨ (∀ d, tx.at d = tx.at 0) ∧ ∀ d, ty.at d = ty.at 0

theorem phases_eq {e : Seg} {tx ty : TuneArgs} (b : Built e tx ty) (ok : TunesOk e tx ty) (hx : 0 < e.x0.bet) (hy : 0 < e.y0.bet)
    (s : St) : phases e (removeDispersion e (removeOrbit e s.p)) = (advX e tx s, advY e ty s) := by
  obtain ⟨x1, x2, x3⟩ := tuneFields_at b.1 ok.x s.p.delta
  obtain ⟨y1, y2, y3⟩ := tuneFields_at b.2 ok.y s.p.delta
  have ax := actionOf_eq hx s.p.delta s.p.x s.p.px
  have ay := actionOf_eq hy s.p.delta s.p.y s.p.py
  unfold phases advX advY
  by_cases hd : detuning e
  · rw [if_pos hd]
    simp only [addChroma_eq, removeDispersion, removeOrbit, ax, ay, ← x3, ← y3, nx, ny]
    exact Prod.ext (by simp only; ring) (by simp only; ring)
  · rw [if_neg hd]
    rw [detuning_iff, x1, y1] at hd
    push Not at hd
    obtain ⟨h1, h2, h3, h4, h5, h6⟩ := hd
    have hs : (∀ d, tx.at d = tx.at 0) ∧ ∀ d, ty.at d = ty.at 0 := by
      rcases ok.seen with h | h | h | h | h | h | h
      · exact absurd h1 h
      · exact absurd h2 h
      · exact absurd h3 h
      · exact absurd h4 h
      · exact absurd h5 h
      · exact absurd h6 h
      · exact h
    rw [hs.1, hs.2, h3, h4, h5, h6, x2, y2]
    simp

/-- What tracking does without damping and noise. -/
theorem track_plain {e : Seg} (pl : Plain e) {k : Consts} {r1 r2 : ℕ → ℝ} {s t : St} (h : track e k r1 r2 s = some t) :
    ∃ s1 s2, longitudinal e k { s with p := transverse e (removeDispersion e (removeOrbit e s.p)) } = some s1
      ∧ increments e k s1 = some s2
      ∧ t = { s2 with p := { addOrbit e (addDispersion e s2.p) with s := s2.p.s + e.length } } := by
  unfold track at h
  split at h
  · simp at h
  · rename_i s1 h1
    split at h
    · simp at h
    · rename_i s2 h2
      refine ⟨s1, s2, h1, h2, ?_⟩
      have := Option.some.inj h
      simp only [pl.noDamping.1, pl.noDamping.2, pl.noNoise.1, pl.noNoise.2, Bool.false_eq_true, if_false] at this
      exact this.symm

theorem turn_zero (w : ℝ × ℝ) : turn 0 w = w := by simp [turn]

theorem turn_turn (a b : ℝ) (w : ℝ × ℝ) : turn a (turn b w) = turn (a + b) w := by
  simp only [turn, Real.cos_add, Real.sin_add]
  exact Prod.ext (by simp only; ring) (by simp only; ring)

theorem turn_smul (a f : ℝ) (w : ℝ × ℝ) : turn a (f • w) = f • turn a w := by
  simp only [turn, Prod.smul_fst, Prod.smul_snd, smul_eq_mul]
  exact Prod.ext (by simp only [Prod.smul_fst, smul_eq_mul]; ring) (by simp only [Prod.smul_snd, smul_eq_mul]; ring)

theorem action_turn (a : ℝ) (w : ℝ × ℝ) : action (turn a w) = action w := by
  simp only [action, turn]
  have := Real.sin_sq_add_cos_sq a
  linear_combination (w.1 ^ 2 + w.2 ^ 2) / 2 * this

/-- C79, one segment: the normalised coordinates at the exit, times the root of `beta0 * gamma0`, are those at the entrance turned by
the tune of the particle's momentum and actions. This holds for every longitudinal mode and with acceleration. Missing: the
combinations of arguments excluded by `TunesOk`, for which the theorems below show that the statement is false. -/
theorem C79_segment_partial {e : Seg} {tx ty : TuneArgs} (b : Built e tx ty) (ok : TunesOk e tx ty) (pl : Plain e) {k : Consts}
    (hm : 0 < k.mass0) {r1 r2 : ℕ → ℝ} {s t : St} (hg : 0 < betaGamma s) (h : track e k r1 r2 s = some t) :
    Real.sqrt (betaGamma t) • nx e.x1 t = turn (advX e tx s) (Real.sqrt (betaGamma s) • nx e.x0 s)
      ∧ Real.sqrt (betaGamma t) • ny e.y1 t = turn (advY e ty s) (Real.sqrt (betaGamma s) • ny e.y0 s)
      ∧ 0 < betaGamma t ∧ t.p.s = s.p.s + e.length := by
  obtain ⟨s1, s2, h1, h2, rfl⟩ := track_plain pl h
  have u := untouched_longitudinal h1
  have hg1 : betaGamma s1 = betaGamma s := by
    rw [show betaGamma s1 = s1.p.beta0 * s1.gamma0 from rfl, u.beta0, u.gamma0]
    rfl
  obtain ⟨f, hf, f2, hp, fx, fpx, fy, fpy, fs⟩ := increments_scale hm (by rw [hg1]; exact hg) h2
  rw [hg1] at f2
  have hph := phases_eq b ok pl.x0 pl.y0 s
  have root : Real.sqrt (betaGamma s) = f * Real.sqrt (betaGamma s2) := by
    rw [← f2, Real.sqrt_mul (sq_nonneg f), Real.sqrt_sq hf.le]
  have X := planeMap_normal pl.x0 pl.x1 (advX e tx s) s.p.delta s2.p.delta s.p.x s.p.px f
  have Y := planeMap_normal pl.y0 pl.y1 (advY e ty s) s.p.delta s2.p.delta s.p.y s.p.py f
  have ux : s1.p.x = (planeMap e.x0 e.x1 (advX e tx s) (s.p.x + -e.x0.ref + -e.x0.d * s.p.delta)
      (s.p.px + -e.x0.pref + -e.x0.dp * s.p.delta)).1 := by
    rw [u.x]; simp only [transverse, hph]; rfl
  have upx : s1.p.px = (planeMap e.x0 e.x1 (advX e tx s) (s.p.x + -e.x0.ref + -e.x0.d * s.p.delta)
      (s.p.px + -e.x0.pref + -e.x0.dp * s.p.delta)).2 := by
    rw [u.px]; simp only [transverse, hph]; rfl
  have uy : s1.p.y = (planeMap e.y0 e.y1 (advY e ty s) (s.p.y + -e.y0.ref + -e.y0.d * s.p.delta)
      (s.p.py + -e.y0.pref + -e.y0.dp * s.p.delta)).1 := by
    rw [u.y]; simp only [transverse, hph]; rfl
  have upy : s1.p.py = (planeMap e.y0 e.y1 (advY e ty s) (s.p.y + -e.y0.ref + -e.y0.d * s.p.delta)
      (s.p.py + -e.y0.pref + -e.y0.dp * s.p.delta)).2 := by
    rw [u.py]; simp only [transverse, hph]; rfl
  rw [← ux, ← upx, ← fx, ← fpx] at X
  rw [← uy, ← upy, ← fy, ← fpy] at Y
  refine ⟨?_, ?_, hp, ?_⟩
  · rw [show nx e.x1 { s2 with p := { addOrbit e (addDispersion e s2.p) with s := s2.p.s + e.length } }
        = normal e.x1 s2.p.delta (s2.p.x + e.x1.d * s2.p.delta + e.x1.ref) (s2.p.px + e.x1.dp * s2.p.delta + e.x1.pref) from rfl, X,
      turn_smul, root, smul_smul, mul_comm]
    rfl
  · rw [show ny e.y1 { s2 with p := { addOrbit e (addDispersion e s2.p) with s := s2.p.s + e.length } }
        = normal e.y1 s2.p.delta (s2.p.y + e.y1.d * s2.p.delta + e.y1.ref) (s2.p.py + e.y1.dp * s2.p.delta + e.y1.pref) from rfl, Y,
      turn_smul, root, smul_smul, mul_comm]
    rfl
  · show s2.p.s + e.length = _
    rw [fs, u.pos]
    rfl

/-- A segment with the arguments of its tunes and the deviates which it will draw. -/
structure Piece where
  e : Seg
  tx : TuneArgs
  ty : TuneArgs
  r1 : ℕ → ℝ
  r2 : ℕ → ℝ

/-- A line of segments. -/
def trackLine (k : Consts) : List Piece → St → Option St
  | [], s => some s
  | a :: l, s => match track a.e k a.r1 a.r2 s with
    | none => none
    | some t => trackLine k l t

/-- The segments are as in C79 and the optics fit, starting from the given optics. -/
def Chain : Optics → Optics → List Piece → Prop
  | _, _, [] => True
  | ox, oy, a :: l => Built a.e a.tx a.ty ∧ TunesOk a.e a.tx a.ty ∧ Plain a.e ∧ a.e.x0 = ox ∧ a.e.y0 = oy ∧ Chain a.e.x1 a.e.y1 l

/-- The optics at the end of the line. -/
def lastX (ox : Optics) (l : List Piece) : Optics := (l.map fun a => a.e.x1).getLastD ox
@[inherit_doc lastX]
def lastY (oy : Optics) (l : List Piece) : Optics := (l.map fun a => a.e.y1).getLastD oy

/-- The sum of the phase advances of the particle in the segments. -/
def sumX (k : Consts) : List Piece → St → ℝ
  | [], _ => 0
  | a :: l, s => advX a.e a.tx s + match track a.e k a.r1 a.r2 s with
    | none => 0
    | some t => sumX k l t
@[inherit_doc sumX]
def sumY (k : Consts) : List Piece → St → ℝ
  | [], _ => 0
  | a :: l, s => advY a.e a.ty s + match track a.e k a.r1 a.r2 s with
    | none => 0
    | some t => sumY k l t

theorem lastX_cons (ox : Optics) (a : Piece) (l : List Piece) : lastX ox (a :: l) = lastX a.e.x1 l := by
  unfold lastX
  rw [List.map_cons, List.getLastD_cons]

theorem lastY_cons (oy : Optics) (a : Piece) (l : List Piece) : lastY oy (a :: l) = lastY a.e.y1 l := by
  unfold lastY
  rw [List.map_cons, List.getLastD_cons]

/-- C79, lines: phase advances add up. -/
theorem C79_line_partial {k : Consts} (hm : 0 < k.mass0) : ∀ (l : List Piece) {ox oy : Optics}, Chain ox oy l → ∀ {s t : St},
    0 < betaGamma s → trackLine k l s = some t →
    Real.sqrt (betaGamma t) • nx (lastX ox l) t = turn (sumX k l s) (Real.sqrt (betaGamma s) • nx ox s)
      ∧ Real.sqrt (betaGamma t) • ny (lastY oy l) t = turn (sumY k l s) (Real.sqrt (betaGamma s) • ny oy s) ∧ 0 < betaGamma t := by
  intro l
  induction l with
  | nil =>
    intro ox oy _ s t hg h
    rw [← Option.some.inj h]
    simp only [sumX, sumY, turn_zero]
    exact ⟨rfl, rfl, hg⟩
  | cons a l ih =>
    intro ox oy c s t hg h
    obtain ⟨b, ok, pl, rfl, rfl, c⟩ := c
    cases hs : track a.e k a.r1 a.r2 s with
    | none => simp [trackLine, hs] at h
    | some s1 =>
      simp only [trackLine, hs] at h
      obtain ⟨h1, h2, h3, -⟩ := C79_segment_partial b ok pl hm hg hs
      obtain ⟨g1, g2, g3⟩ := ih c h3 h
      rw [h1, turn_turn] at g1
      rw [h2, turn_turn] at g2
      rw [lastX_cons, lastY_cons]
      refine ⟨?_, ?_, g3⟩
      · rw [g1]
        simp only [sumX, hs, add_comm]
      · rw [g2]
        simp only [sumY, hs, add_comm]

theorem action_smul (f : ℝ) (w : ℝ × ℝ) : action (f • w) = f ^ 2 * action w := by
  simp only [action, Prod.smul_fst, Prod.smul_snd, smul_eq_mul]
  ring

/-- C79, invariants: the normalised emittances (`beta0 * gamma0` times the actions) do not change along a line, whatever the longitudinal
motion, detuning and acceleration. -/
theorem C79_emittance_partial {k : Consts} (hm : 0 < k.mass0) {l : List Piece} {ox oy : Optics} (c : Chain ox oy l) {s t : St}
    (hg : 0 < betaGamma s) (h : trackLine k l s = some t) :
    betaGamma t * action (nx (lastX ox l) t) = betaGamma s * action (nx ox s)
      ∧ betaGamma t * action (ny (lastY oy l) t) = betaGamma s * action (ny oy s) := by
  obtain ⟨h1, h2, h3⟩ := C79_line_partial hm l c hg h
  have a1 := congrArg action h1
  have a2 := congrArg action h2
  rw [action_turn, action_smul, action_smul, Real.sq_sqrt h3.le, Real.sq_sqrt hg.le] at a1 a2
  exact ⟨a1, a2⟩

/-- The particle is on the orbit of its momentum. -/
def OnOrbit (o : Optics) (delta x px : ℝ) : Prop := x = o.ref + o.d * delta ∧ px = o.pref + o.dp * delta

theorem onOrbit_iff {o : Optics} (h : 0 < o.bet) (delta x px : ℝ) : OnOrbit o delta x px ↔ normal o delta x px = 0 := by
  have hr := (Real.sqrt_pos.2 h).ne'
  simp only [OnOrbit, normal, Prod.ext_iff, Prod.fst_zero, Prod.snd_zero, div_eq_zero_iff, hr, or_false]
  constructor
  · rintro ⟨h1, h2⟩
    rw [h1, h2]
    constructor <;> ring
  · rintro ⟨h1, h2⟩
    rw [h1, mul_zero, zero_add] at h2
    have h2 := (mul_eq_zero.1 h2).resolve_left h.ne'
    exact ⟨by linarith, by linarith⟩

/-- C79, orbits: a particle which enters on the orbit of its momentum leaves on it. -/
theorem C79_orbit_partial {e : Seg} {tx ty : TuneArgs} (b : Built e tx ty) (ok : TunesOk e tx ty) (pl : Plain e) {k : Consts}
    (hm : 0 < k.mass0) {r1 r2 : ℕ → ℝ} {s t : St} (hg : 0 < betaGamma s) (h : track e k r1 r2 s = some t) :
    (OnOrbit e.x0 s.p.delta s.p.x s.p.px → OnOrbit e.x1 t.p.delta t.p.x t.p.px)
      ∧ (OnOrbit e.y0 s.p.delta s.p.y s.p.py → OnOrbit e.y1 t.p.delta t.p.y t.p.py) := by
  obtain ⟨h1, h2, h3, -⟩ := C79_segment_partial b ok pl hm hg h
  have hr := (Real.sqrt_pos.2 h3).ne'
  rw [onOrbit_iff pl.x0, onOrbit_iff pl.x1, onOrbit_iff pl.y0, onOrbit_iff pl.y1]
  constructor
  · intro h
    rw [show nx e.x0 s = 0 from h, smul_zero] at h1
    have : turn (advX e tx s) 0 = 0 := by simp [turn]
    rw [this] at h1
    exact (smul_eq_zero.1 h1).resolve_left hr
  · intro h
    rw [show ny e.y0 s = 0 from h, smul_zero] at h2
    have : turn (advY e ty s) 0 = 0 := by simp [turn]
    rw [this] at h2
    exact (smul_eq_zero.1 h2).resolve_left hr

/-! ## Turns -/

/-- Neither synchrotron motion nor acceleration. -/
structure Frozen (e : Seg) : Prop where
  mode : e.mode = 0
  increment : e.energyIncrement = 0
  ref : e.energyRefIncrement = 0

/-- The phase advance of the line for given momentum and actions. -/
def totalX (l : List Piece) (delta jx jy : ℝ) : ℝ :=
  (l.map fun a => 2 * Real.pi * (a.tx.at delta + a.e.detXX * jx + a.e.detXY * jy)).sum
@[inherit_doc totalX]
def totalY (l : List Piece) (delta jx jy : ℝ) : ℝ :=
  (l.map fun a => 2 * Real.pi * (a.ty.at delta + a.e.detYX * jx + a.e.detYY * jy)).sum

/-- Frozen segments keep the energy variables and the reference. -/
theorem frozen_track {e : Seg} (pl : Plain e) (fr : Frozen e) {k : Consts} {r1 r2 : ℕ → ℝ} {s t : St} (h : track e k r1 r2 s = some t) :
    t.p.delta = s.p.delta ∧ t.p.beta0 = s.p.beta0 ∧ t.gamma0 = s.gamma0 ∧ t.p.zeta = s.p.zeta ∧ t.p.ptau = s.p.ptau := by
  obtain ⟨s1, s2, h1, h2, rfl⟩ := track_plain pl h
  have e1 : s1 = { s with p := transverse e (removeDispersion e (removeOrbit e s.p)) } := by
    simp only [longitudinal, fr.mode] at h1
    exact (Option.some.inj h1).symm
  have e2 : s2 = s1 := by
    simp only [increments, fr.increment, fr.ref, ne_eq, not_true_eq_false, if_false] at h2
    exact (Option.some.inj h2).symm
  rw [e2, e1]
  exact ⟨rfl, rfl, rfl, rfl, rfl⟩

theorem frozen_line {k : Consts} (hm : 0 < k.mass0) : ∀ (l : List Piece) {ox oy : Optics}, Chain ox oy l → (∀ a ∈ l, Frozen a.e) → ∀ {s t : St},
    0 < betaGamma s → trackLine k l s = some t →
    t.p.delta = s.p.delta ∧ betaGamma t = betaGamma s ∧ sumX k l s = totalX l s.p.delta (action (nx ox s)) (action (ny oy s))
      ∧ sumY k l s = totalY l s.p.delta (action (nx ox s)) (action (ny oy s)) := by
  intro l
  induction l with
  | nil =>
    intro ox oy _ _ s t _ h
    rw [← Option.some.inj h]
    exact ⟨rfl, rfl, rfl, rfl⟩
  | cons a l ih =>
    intro ox oy c fr s t hg h
    have c0 := c
    obtain ⟨b, ok, pl, rfl, rfl, c⟩ := c
    cases hs : track a.e k a.r1 a.r2 s with
    | none => simp [trackLine, hs] at h
    | some s1 =>
      simp only [trackLine, hs] at h
      obtain ⟨d1, d2, d3, -⟩ := frozen_track pl (fr a (by simp)) hs
      have bg : betaGamma s1 = betaGamma s := by rw [betaGamma, d2, d3]; rfl
      have em := C79_emittance_partial hm (l := [a]) ⟨b, ok, pl, rfl, rfl, trivial⟩ hg (t := s1) (by simp [trackLine, hs])
      rw [bg] at em
      have ex : action (nx a.e.x1 s1) = action (nx a.e.x0 s) := mul_left_cancel₀ hg.ne' em.1
      have ey : action (ny a.e.y1 s1) = action (ny a.e.y0 s) := mul_left_cancel₀ hg.ne' em.2
      obtain ⟨g1, g2, g3, g4⟩ := ih c (fun a ha => fr a (by simp [ha])) (s := s1) (by rw [bg]; exact hg) h
      refine ⟨g1.trans d1, g2.trans bg, ?_, ?_⟩
      · simp only [sumX, hs, totalX, List.map_cons, List.sum_cons]
        rw [g3, ex, ey, d1]
        rfl
      · simp only [sumY, hs, totalY, List.map_cons, List.sum_cons]
        rw [g4, ex, ey, d1]
        rfl

/-- Any number of turns. -/
def trackTurns (k : Consts) (l : List Piece) : ℕ → St → Option St
  | 0, s => some s
  | n + 1, s => match trackLine k l s with
    | none => none
    | some t => trackTurns k l n t

theorem smul_cancel {f : ℝ} (hf : f ≠ 0) {a : ℝ} {v w : ℝ × ℝ} (h : f • v = turn a (f • w)) : v = turn a w := by
  rw [turn_smul] at h
  exact smul_right_injective _ hf h

/-- C79, turns: in a ring of frozen segments a particle turns by the same angle in every turn, so that the fraction of turns per
revolution is the sum of the tunes of the segments for the particle's momentum and actions. -/
theorem C79_turns_partial {k : Consts} (hm : 0 < k.mass0) {l : List Piece} {ox oy : Optics} (c : Chain ox oy l)
    (cx : lastX ox l = ox) (cy : lastY oy l = oy) (fr : ∀ a ∈ l, Frozen a.e) : ∀ (n : ℕ) {s t : St}, 0 < betaGamma s →
    trackTurns k l n s = some t →
    nx ox t = turn (n * totalX l s.p.delta (action (nx ox s)) (action (ny oy s))) (nx ox s)
      ∧ ny oy t = turn (n * totalY l s.p.delta (action (nx ox s)) (action (ny oy s))) (ny oy s) ∧ t.p.delta = s.p.delta := by
  intro n
  induction n with
  | zero =>
    intro s t _ h
    rw [← Option.some.inj h]
    simp only [Nat.cast_zero, zero_mul, turn_zero]
    exact ⟨trivial, trivial, trivial⟩
  | succ n ih =>
    intro s t hg h
    cases hs : trackLine k l s with
    | none => simp [trackTurns, hs] at h
    | some s1 =>
      simp only [trackTurns, hs] at h
      obtain ⟨d, bg, e1, e2⟩ := frozen_line hm l c fr hg hs
      obtain ⟨h1, h2, -⟩ := C79_line_partial hm l c hg hs
      rw [cx, e1, bg] at h1
      rw [cy, e2, bg] at h2
      have hr := (Real.sqrt_pos.2 hg).ne'
      have h1 := smul_cancel hr h1
      have h2 := smul_cancel hr h2
      obtain ⟨g1, g2, g3⟩ := ih (s := s1) (by rw [bg]; exact hg) h
      have a1 : action (nx ox s1) = action (nx ox s) := by rw [h1, action_turn]
      have a2 : action (ny oy s1) = action (ny oy s) := by rw [h2, action_turn]
      rw [a1, a2, d, h1, turn_turn] at g1
      rw [a1, a2, d, h2, turn_turn] at g2
      rw [d] at g3
      refine ⟨?_, ?_, g3⟩
      · rw [g1]
        congr 1
        push_cast
        ring
      · rw [g2]
        congr 1
        push_cast
        ring

end

end Verif.SegMap
