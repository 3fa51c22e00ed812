import Verif.SegMap.Violations
import Mathlib.Analysis.SpecialFunctions.Trigonometric.Deriv
import Mathlib.Algebra.Order.Round

/-!
# Segments of a ring: synchrotron motion
-/

namespace Verif.SegMap

open Frames

noncomputable section

/-- The longitudinal coordinates relative to the centre `c` of a bucket, in units in which the motion is a rotation. -/
def long (bets c : ℝ) (s : St) : ℝ × ℝ := (s.p.zeta - c, bets * (s.p.ptau / s.p.beta0))

/-- Neither damping nor noise nor acceleration. -/
structure Steady (e : Seg) : Prop where
  plain : Plain e
  increment : e.energyIncrement = 0
  ref : e.energyRefIncrement = 0

theorem steady_track {e : Seg} (st : Steady e) {k : Consts} {r1 r2 : ℕ → ℝ} {s t : St} (h : track e k r1 r2 s = some t) :
    ∃ s1, longitudinal e k { s with p := transverse e (removeDispersion e (removeOrbit e s.p)) } = some s1
      ∧ t = { s1 with p := { addOrbit e (addDispersion e s1.p) with s := s1.p.s + e.length } } := by
  obtain ⟨s1, s2, h1, h2, rfl⟩ := track_plain st.plain h
  have e2 : s2 = s1 := by
    simp only [increments, st.increment, st.ref, ne_eq, not_true_eq_false, if_false] at h2
    exact (Option.some.inj h2).symm
  rw [e2]
  exact ⟨s1, h1, rfl⟩

theorem steady_some {e : Seg} (st : Steady e) {k : Consts} {r1 r2 : ℕ → ℝ} {s s1 : St}
    (h : longitudinal e k { s with p := transverse e (removeDispersion e (removeOrbit e s.p)) } = some s1) :
    track e k r1 r2 s = some { s1 with p := { addOrbit e (addDispersion e s1.p) with s := s1.p.s + e.length } } := by
  simp only [track, h, increments, st.increment, st.ref, ne_eq, not_true_eq_false, if_false, st.plain.noDamping.1,
    st.plain.noDamping.2, st.plain.noNoise.1, st.plain.noNoise.2, Bool.false_eq_true]
  rfl

/-- The nearest bucket of a particle which is closer than half a bucket to the centre of the bucket `m`. -/
theorem nearest {z L : ℝ} {m : ℤ} (hL : L ≠ 0) (h : |z - m * L| < |L| / 2) : ⌊z / L + 0.5⌋ = m := by
  have hp : 0 < |L| := abs_pos.2 hL
  have e : z / L - m = (z - m * L) / L := by field_simp
  have h1 : |z / L - m| < 1 / 2 := by
    rw [e, abs_div, div_lt_iff₀ hp]
    linarith
  rw [Int.floor_eq_iff]
  obtain ⟨a, b⟩ := abs_lt.1 h1
  constructor
  · norm_num
    linarith
  · norm_num
    linarith

/-- The particle is inside the bucket: the circle on which it turns is. Without buckets (length zero or negative) every particle is. -/
def Inside (bucket : ℝ) (m : ℤ) (w : ℝ × ℝ) : Prop := bucket ≤ 0 ∧ m = 0 ∨ 0 < bucket ∧ w.1 ^ 2 + w.2 ^ 2 < (bucket / 2) ^ 2

theorem Inside.turn {bucket : ℝ} {m : ℤ} {w : ℝ × ℝ} (h : Inside bucket m w) (a : ℝ) : Inside bucket m (turn a w) := by
  rcases h with h | ⟨h1, h2⟩
  · exact Or.inl h
  · refine Or.inr ⟨h1, ?_⟩
    have := action_turn a w
    unfold action at this
    linarith

theorem Inside.near {bucket : ℝ} {m : ℤ} {w : ℝ × ℝ} (h : Inside bucket m w) (hb : 0 < bucket) : |w.1| < bucket / 2 := by
  rcases h with h | ⟨h1, h2⟩
  · exact absurd hb (not_lt.2 h.1)
  · exact abs_lt_of_sq_lt_sq (by nlinarith [sq_nonneg w.2]) (by linarith)

theorem longRotate_turn {qs bets bucket : ℝ} (hb : bets ≠ 0) {m : ℤ} {s : St} (hs : s.p.beta0 ≠ 0)
    (i : Inside bucket m (long bets (m * bucket) s)) :
    long bets (m * bucket) { s with p := longRotate qs bets bucket false s.p } = turn (-(2 * Real.pi * qs)) (long bets (m * bucket) s) := by
  have shift : (if bucket > 0 then bucket * (⌊s.p.zeta / bucket + 0.5⌋ : ℝ) else 0) = m * bucket := by
    rcases i with ⟨h, rfl⟩ | h
    · rw [if_neg (not_lt.2 h)]
      simp
    · rw [if_pos h.1, nearest h.1.ne' (m := m) ?_, mul_comm]
      rw [abs_of_pos h.1]
      exact Inside.near (m := m) (Or.inr h) h.1
  have zeta : (if bucket > 0 then s.p.zeta + -(m * bucket) else s.p.zeta) = s.p.zeta - m * bucket := by
    split
    · ring
    · rename_i h
      rcases i with ⟨_, rfl⟩ | ⟨h1, _⟩
      · simp
      · exact absurd h1 h
  simp only [longRotate, Bool.false_eq_true, if_false, long, turn, updatePzeta, Rf.updatePtau, shift, zeta, Real.cos_neg, Real.sin_neg]
  refine Prod.ext ?_ ?_
  · simp only
    ring
  · simp only
    field_simp

/-- A segment in the mode `linear_fixed_qs`. -/
structure FixedQs (e : Seg) (bets bucketLength : ℝ) : Prop where
  steady : Steady e
  mode : e.mode = 1
  bets : e.bets = bets
  bucket : e.bucketLength = bucketLength

/-- C80, one segment with a fixed synchrotron tune. -/
theorem C80_segment {e : Seg} {bets bl : ℝ} (fq : FixedQs e bets bl) (hb : bets ≠ 0) {k : Consts} (hk : k.kill = false) (r1 r2 : ℕ → ℝ)
    {s : St} (hs : s.p.beta0 ≠ 0) {m : ℤ} (i : Inside (bl * s.p.beta0 * Rf.clight) m (long bets (m * (bl * s.p.beta0 * Rf.clight)) s)) :
    ∃ t, track e k r1 r2 s = some t ∧ t.p.beta0 = s.p.beta0
      ∧ long bets (m * (bl * s.p.beta0 * Rf.clight)) t = turn (-(2 * Real.pi * e.qs)) (long bets (m * (bl * s.p.beta0 * Rf.clight)) s) := by
  have hl : longitudinal e k { s with p := transverse e (removeDispersion e (removeOrbit e s.p)) }
      = some { s with p := longRotate e.qs bets (bl * s.p.beta0 * Rf.clight) false (transverse e (removeDispersion e (removeOrbit e s.p))) } := by
    simp only [longitudinal, fq.mode, if_true, fq.bets, hb, if_false, fq.bucket, hk]
    rfl
  refine ⟨_, steady_some fq.steady hl, (untouched_longitudinal hl).beta0, ?_⟩
  exact longRotate_turn (s := { s with p := transverse e (removeDispersion e (removeOrbit e s.p)) }) hb hs i

/-- C80, lines: in segments with fixed synchrotron tunes no particle is lost, and a particle inside a bucket stays in it and turns about
its centre by the sum of the synchrotron tunes. -/
theorem C80_line {k : Consts} (hk : k.kill = false) {bets bl : ℝ} (hb : bets ≠ 0) : ∀ (l : List Piece), (∀ a ∈ l, FixedQs a.e bets bl) →
    ∀ {s : St}, s.p.beta0 ≠ 0 → ∀ {m : ℤ}, Inside (bl * s.p.beta0 * Rf.clight) m (long bets (m * (bl * s.p.beta0 * Rf.clight)) s) →
    ∃ t, trackLine k l s = some t ∧ t.p.beta0 = s.p.beta0 ∧ long bets (m * (bl * s.p.beta0 * Rf.clight)) t
      = turn (-(2 * Real.pi * (l.map fun a => a.e.qs).sum)) (long bets (m * (bl * s.p.beta0 * Rf.clight)) s) := by
  intro l
  induction l with
  | nil =>
    intro _ s _ m _
    refine ⟨s, rfl, rfl, ?_⟩
    simp [turn_zero]
  | cons a l ih =>
    intro h s hs m i
    obtain ⟨t1, h1, b1, e1⟩ := C80_segment (h a (by simp)) hb hk a.r1 a.r2 hs i
    have i1 := i.turn (-(2 * Real.pi * a.e.qs))
    rw [← e1, ← b1] at i1
    obtain ⟨t, h2, b2, e2⟩ := ih (fun a ha => h a (by simp [ha])) (b1 ▸ hs) i1
    refine ⟨t, by simp only [trackLine, h1, h2], b2.trans b1, ?_⟩
    rw [b1, e1, turn_turn] at e2
    rw [e2]
    congr 1
    simp only [List.map_cons, List.sum_cons]
    ring

/-- C80, turns. -/
theorem C80_turns {k : Consts} (hk : k.kill = false) {bets bl : ℝ} (hb : bets ≠ 0) {l : List Piece} (h : ∀ a ∈ l, FixedQs a.e bets bl)
    (n : ℕ) {s : St} (hs : s.p.beta0 ≠ 0) {m : ℤ} (i : Inside (bl * s.p.beta0 * Rf.clight) m (long bets (m * (bl * s.p.beta0 * Rf.clight)) s)) :
    ∃ t, trackTurns k l n s = some t ∧ t.p.beta0 = s.p.beta0 ∧ long bets (m * (bl * s.p.beta0 * Rf.clight)) t
      = turn (-(n * (2 * Real.pi * (l.map fun a => a.e.qs).sum))) (long bets (m * (bl * s.p.beta0 * Rf.clight)) s) := by
  induction n generalizing s with
  | zero => exact ⟨s, rfl, rfl, by simp [turn_zero]⟩
  | succ n ih =>
    obtain ⟨t1, h1, b1, e1⟩ := C80_line hk hb l h hs i
    have i1 := i.turn (-(2 * Real.pi * (l.map fun a => a.e.qs).sum))
    rw [← e1, ← b1] at i1
    obtain ⟨t, h2, b2, e2⟩ := ih (b1 ▸ hs) i1
    refine ⟨t, by simp only [trackTurns, h1, h2], b2.trans b1, ?_⟩
    rw [b1, e1, turn_turn] at e2
    rw [e2]
    congr 1
    push_cast
    ring

/-! ## RF -/

/-- The change of `pzeta` in the RF kick of the nonlinear mode as a function of `zeta`. -/
def pzetaKick (k : Consts) (s : St) (c : ℝ × ℝ × ℝ × ℝ) (zeta : ℝ) : ℝ :=
  ((rfKick k { s with p := { s.p with zeta := zeta } } c).p.ptau - s.p.ptau) / s.p.beta0

/-- The reference variables belong together. -/
structure RefOk (k : Consts) (s : St) : Prop where
  mass0 : 0 < k.mass0
  beta0 : 0 < s.p.beta0
  gamma0 : 0 < s.gamma0
  p0c : s.p0c = s.p.beta0 * (k.mass0 * s.gamma0)

theorem pzetaKick_slope {k : Consts} {s : St} (r : RefOk k s) (hr : k.chargeRatio ≠ 0) (v : ℝ) {f : ℝ} (hf : f ≠ 0) :
    HasDerivAt (pzetaKick k s (v, f, 0, Real.pi))
      (|k.q0| * s.p.chi * v * (2 * Real.pi * f) / (Rf.clight * s.p.beta0 ^ 3 * (k.mass0 * s.gamma0))) 0 := by
  have hb := r.beta0.ne'
  have hm := r.mass0.ne'
  have hg := r.gamma0.ne'
  have e : pzetaKick k s (v, f, 0, Real.pi) = fun z => (|k.q0| * k.chargeRatio * v
      * Real.sin (Rf.deg2rad * 0 + Real.pi - 2 * Real.pi / Rf.clight * f * (z / s.p.beta0)) / s.p0c / (k.chargeRatio / s.p.chi)) / s.p.beta0 := by
    ext z
    simp [pzetaKick, rfKick, hf, addToEnergy, Rf.updatePtau]
  rw [e]
  have h1 : HasDerivAt (fun z : ℝ => Rf.deg2rad * 0 + Real.pi - 2 * Real.pi / Rf.clight * f * (z / s.p.beta0))
      (-(2 * Real.pi / Rf.clight * f * (1 / s.p.beta0))) 0 :=
    (((hasDerivAt_id' (0 : ℝ)).div_const s.p.beta0).const_mul _).const_sub _
  have h2 := (((h1.sin.const_mul (|k.q0| * k.chargeRatio * v)).div_const s.p0c).div_const (k.chargeRatio / s.p.chi)).div_const s.p.beta0
  refine h2.congr_deriv ?_
  rw [r.p0c]
  have hc : Rf.clight ≠ 0 := by norm_num [Rf.clight]
  by_cases hx : s.p.chi = 0
  · simp [hx]
  · simp only [mul_zero, zero_add, zero_div, sub_zero, Real.cos_pi]
    field_simp

/-- C80, fixed RF: for a positive reference charge the motion is a rotation about the centre of the bucket of length
`beta0 * c / f`, by the synchrotron tune `√(|eta| * slippage_length * slope) / (2 pi)` where `slope` is the slope at the stable phase of the RF
kick which the nonlinear mode applies to a particle of the reference charge. Missing: negative reference charges, see below. -/
theorem C80_fixed_rf_partial {e : Seg} (st : Steady e) (mode : e.mode = 3) {v f lag ph : ℝ} (rf : e.rf = [(v, f, lag, ph)]) (hv : 0 < v)
    (hf : 0 < f) {k : Consts} (hq : 0 < k.q0) (hr : k.chargeRatio = 1) {s : St} (ref : RefOk k s) (hchi : s.p.chi = 1)
    (hL : 0 < e.slippageLength) (heta : etaOf e s.gamma0 ≠ 0) (r1 r2 : ℕ → ℝ) {slope : ℝ}
    (hs : HasDerivAt (pzetaKick k s (v, f, 0, Real.pi)) slope 0) {m : ℤ} {qs bets : ℝ}
    (hqs : qs = Real.sqrt (|etaOf e s.gamma0| * e.slippageLength * slope) / (2 * Real.pi))
    (hbets : bets = etaOf e s.gamma0 * e.slippageLength / (2 * Real.pi * qs))
    (i : Inside (s.p.beta0 * Rf.clight / f) m (long bets (m * (s.p.beta0 * Rf.clight / f)) s)) :
    ∃ t, track e k r1 r2 s = some t ∧ t.p.beta0 = s.p.beta0
      ∧ long bets (m * (s.p.beta0 * Rf.clight / f)) t = turn (-(2 * Real.pi * qs)) (long bets (m * (s.p.beta0 * Rf.clight / f)) s)
      ∧ Inside (s.p.beta0 * Rf.clight / f) m (long bets (m * (s.p.beta0 * Rf.clight / f)) t) := by
  have hsl := hs.unique (pzetaKick_slope ref (by rw [hr]; exact one_ne_zero) v hf.ne')
  have hb := ref.beta0
  have hm := ref.mass0
  have hg := ref.gamma0
  have hc : 0 < Rf.clight := by norm_num [Rf.clight]
  have hpi := Real.pi_pos
  have ha : 0 < |etaOf e s.gamma0| := abs_pos.2 heta
  have hbk : 0 < s.p.beta0 * Rf.clight / f := by positivity
  have hrad : |etaOf e s.gamma0| * e.slippageLength * slope = (2 * Real.pi) ^ 2 * qsRadicand e k s v f := by
    rw [hsl, hchi, abs_of_pos hq, qsRadicand]
    field_simp
  have hpos : 0 < qsRadicand e k s v f := by
    unfold qsRadicand
    positivity
  have hq' : qs = Real.sqrt (qsRadicand e k s v f) := by
    rw [hqs, hrad, Real.sqrt_mul (by positivity), Real.sqrt_sq (by positivity)]
    field_simp
  have hqp : 0 < qs := by rw [hq']; exact Real.sqrt_pos.2 hpos
  have hbz : bets ≠ 0 := by
    rw [hbets]
    exact div_ne_zero (mul_ne_zero heta hL.ne') (by positivity)
  have hl : longitudinal e k { s with p := transverse e (removeDispersion e (removeOrbit e s.p)) }
      = some { s with p := longRotate qs bets (s.p.beta0 * Rf.clight / f) false (transverse e (removeDispersion e (removeOrbit e s.p))) } := by
    have hrd : qsRadicand e k { s with p := transverse e (removeDispersion e (removeOrbit e s.p)) } v f = qsRadicand e k s v f := rfl
    have hbe : (transverse e (removeDispersion e (removeOrbit e s.p))).beta0 = s.p.beta0 := rfl
    simp only [longitudinal, mode, show (3 : ℤ) ≠ 1 by decide, show (3 : ℤ) ≠ 2 by decide, if_false, if_true, rf, hf.ne', hrd, not_le.2 hpos,
      ← hq', longRotate, hbe, ← hbets, if_pos hbk, gt_iff_lt, Bool.false_eq_true]
  have hlong := longRotate_turn (qs := qs) (s := { s with p := transverse e (removeDispersion e (removeOrbit e s.p)) }) hbz hb.ne' i
  refine ⟨_, steady_some st hl, (untouched_longitudinal hl).beta0, hlong, ?_⟩
  have := i.turn (-(2 * Real.pi * qs))
  exact Eq.subst (motive := Inside (s.p.beta0 * Rf.clight / f) m) hlong.symm this

/-- C80: the tune is computed from the sign of the charge, unlike the kicks of the nonlinear mode, so that no particle with a negative
reference charge can be tracked (its coordinates become NaN), although the nonlinear mode focuses it in the same way. -/
theorem C80_negative_charge_violated {e : Seg} (mode : e.mode = 3) {v f lag ph : ℝ} (rf : e.rf = [(v, f, lag, ph)]) (hv : 0 < v)
    (hf : 0 < f) {k : Consts} (hq : k.q0 < 0) {s : St} (ref : RefOk k s) (hL : 0 < e.slippageLength) (r1 r2 : ℕ → ℝ) :
    track e k r1 r2 s = none ∧ ∀ c z, pzetaKick k s c z = pzetaKick { k with q0 := -k.q0 } s c z := by
  have hb := ref.beta0
  have hm := ref.mass0
  have hg := ref.gamma0
  have hc : 0 < Rf.clight := by norm_num [Rf.clight]
  have hpi := Real.pi_pos
  constructor
  · have hrad : qsRadicand e k { s with p := transverse e (removeDispersion e (removeOrbit e s.p)) } v f ≤ 0 := by
      show k.q0 * |etaOf e s.gamma0| * e.slippageLength * f * v
        / (2 * Real.pi * s.p.beta0 * s.p.beta0 * s.p.beta0 * (k.mass0 * s.gamma0) * Rf.clight) ≤ 0
      refine div_nonpos_of_nonpos_of_nonneg ?_ (by positivity)
      have h1 : 0 ≤ |etaOf e s.gamma0| * e.slippageLength * f * v := by positivity
      calc k.q0 * |etaOf e s.gamma0| * e.slippageLength * f * v = k.q0 * (|etaOf e s.gamma0| * e.slippageLength * f * v) := by ring
        _ ≤ 0 := mul_nonpos_of_nonpos_of_nonneg hq.le h1
    have hl : longitudinal e k { s with p := transverse e (removeDispersion e (removeOrbit e s.p)) } = none := by
      simp only [longitudinal, mode, show (3 : ℤ) ≠ 1 by decide, show (3 : ℤ) ≠ 2 by decide, if_false, if_true, rf, hf.ne', if_pos hrad]
    simp only [track, hl]
  · intro c z
    simp only [pzetaKick, rfKick, abs_neg, addToEnergy]

/-- The sum of the energy kicks of the RF systems on a particle at `zeta`. -/
def energyGain (k : Consts) (beta0 : ℝ) (l : List (ℝ × ℝ × ℝ × ℝ)) (zeta : ℝ) : ℝ :=
  (l.map fun c => if c.2.1 = 0 then 0 else
    |k.q0| * k.chargeRatio * c.1 * Real.sin (Real.pi / 180 * c.2.2.1 + c.2.2.2 - 2 * Real.pi * c.2.1 * (zeta / (beta0 * Rf.clight)))).sum

theorem rfKicks_eq (k : Consts) : ∀ (l : List (ℝ × ℝ × ℝ × ℝ)) (s : St), s.p.beta0 ≠ 0 →
    (l.foldl (rfKick k) s).p.ptau = s.p.ptau + energyGain k s.p.beta0 l s.p.zeta / s.p0c / (k.chargeRatio / s.p.chi)
      ∧ (l.foldl (rfKick k) s).p.zeta = s.p.zeta ∧ ((l = [] ∨ ∀ c ∈ l, c.2.1 = 0) ∨ (l.foldl (rfKick k) s).p.delta
        = Real.sqrt ((l.foldl (rfKick k) s).p.ptau ^ 2 + 2 * (l.foldl (rfKick k) s).p.ptau / s.p.beta0 + 1) - 1) := by
  intro l
  induction l with
  | nil =>
    intro s _
    simp [energyGain]
  | cons c l ih =>
    intro s hb
    have u := untouched_rf k s c
    obtain ⟨h1, h2, h3⟩ := ih (rfKick k s c) (by rw [u.beta0]; exact hb)
    rw [List.foldl_cons, h1, h2, u.beta0, u.p0c, u.chi]
    rw [u.beta0, h1, u.beta0, u.p0c, u.chi] at h3
    by_cases hc : c.2.1 = 0
    · have hk : rfKick k s c = s := by simp [rfKick, hc]
      rw [hk] at h3 ⊢
      have eg : energyGain k s.p.beta0 (c :: l) s.p.zeta = energyGain k s.p.beta0 l s.p.zeta := by
        simp [energyGain, hc]
      rw [eg]
      refine ⟨rfl, rfl, ?_⟩
      rcases h3 with h3 | h3
      · refine Or.inl (Or.inr ?_)
        rcases h3 with rfl | h3
        · simpa using hc
        · simpa [hc] using h3
      · exact Or.inr h3
    · have hz : (rfKick k s c).p.zeta = s.p.zeta := by simp [rfKick, hc, addToEnergy, Rf.updatePtau]
      have ht : (rfKick k s c).p.ptau = s.p.ptau + (|k.q0| * k.chargeRatio * c.1
          * Real.sin (Real.pi / 180 * c.2.2.1 + c.2.2.2 - 2 * Real.pi * c.2.1 * (s.p.zeta / (s.p.beta0 * Rf.clight)))) / s.p0c
            / (k.chargeRatio / s.p.chi) := by
        have : Rf.deg2rad * c.2.2.1 + c.2.2.2 - 2 * Real.pi / Rf.clight * c.2.1 * (s.p.zeta / s.p.beta0)
            = Real.pi / 180 * c.2.2.1 + c.2.2.2 - 2 * Real.pi * c.2.1 * (s.p.zeta / (s.p.beta0 * Rf.clight)) := by
          have hc : Rf.clight ≠ 0 := by norm_num [Rf.clight]
          rw [Rf.deg2rad]
          field_simp
        simp only [rfKick, hc, if_false, addToEnergy, Rf.updatePtau, this]
      have eg : energyGain k s.p.beta0 (c :: l) s.p.zeta = |k.q0| * k.chargeRatio * c.1
          * Real.sin (Real.pi / 180 * c.2.2.1 + c.2.2.2 - 2 * Real.pi * c.2.1 * (s.p.zeta / (s.p.beta0 * Rf.clight)))
            + energyGain k s.p.beta0 l s.p.zeta := by
        simp [energyGain, hc]
      have tot : (rfKick k s c).p.ptau + energyGain k s.p.beta0 l s.p.zeta / s.p0c / (k.chargeRatio / s.p.chi)
          = s.p.ptau + energyGain k s.p.beta0 (c :: l) s.p.zeta / s.p0c / (k.chargeRatio / s.p.chi) := by
        rw [eg, ht]
        ring
      rw [hz] at h3 ⊢
      rw [tot] at h3 ⊢
      refine ⟨rfl, rfl, Or.inr ?_⟩
      rcases h3 with h3 | h3
      · have hfold : ∀ (l' : List (ℝ × ℝ × ℝ × ℝ)), (∀ c ∈ l', c.2.1 = 0) → ∀ s', l'.foldl (rfKick k) s' = s' := by
          intro l'
          induction l' with
          | nil => intro _ s'; rfl
          | cons a l' ih' =>
            intro h s'
            rw [List.foldl_cons, show rfKick k s' a = s' by simp [rfKick, h a (by simp)]]
            exact ih' (fun c hc => h c (by simp [hc])) s'
        have hall : ∀ c ∈ l, c.2.1 = 0 := by
          rcases h3 with rfl | h3
          · simp
          · exact h3
        have e0 : energyGain k s.p.beta0 l s.p.zeta = 0 := by
          unfold energyGain
          refine List.sum_eq_zero fun x hx => ?_
          obtain ⟨c', hc', rfl⟩ := List.mem_map.1 hx
          simp [hall c' hc']
        rw [e0, zero_div, zero_div, add_zero] at tot
        rw [hfold l hall, ← tot]
        simp only [rfKick, hc, if_false, addToEnergy, Rf.updatePtau]
        ring_nf
      · exact h3

/-- C80, nonlinear mode: half of the slippage, all RF kicks at that position, half of the slippage at the new momentum. -/
theorem C80_nonlinear {e : Seg} (st : Steady e) (mode : e.mode = 2) {k : Consts} {s : St} (hb : s.p.beta0 ≠ 0) (r1 r2 : ℕ → ℝ) :
    ∃ t, track e k r1 r2 s = some t ∧ ∃ middle, middle = s.p.zeta - (e.alfp - 1 / s.gamma0 ^ 2) * e.slippageLength * s.p.delta / 2
      ∧ t.p.ptau = s.p.ptau + energyGain k s.p.beta0 e.rf middle / s.p0c / (k.chargeRatio / s.p.chi)
      ∧ t.p.zeta = middle - (e.alfp - 1 / s.gamma0 ^ 2) * e.slippageLength * t.p.delta / 2
      ∧ ((∀ c ∈ e.rf, c.2.1 = 0) ∨ t.p.delta = Real.sqrt (t.p.ptau ^ 2 + 2 * t.p.ptau / s.p.beta0 + 1) - 1) := by
  let s0 : St := { s with p := transverse e (removeDispersion e (removeOrbit e s.p)) }
  have hl : longitudinal e k s0 = some (slip e (e.rf.foldl (rfKick k) (slip e s0))) := by
    simp only [longitudinal, mode, show (2 : ℤ) ≠ 1 by decide, if_false, if_true]
  refine ⟨_, steady_some st hl, s.p.zeta - (e.alfp - 1 / s.gamma0 ^ 2) * e.slippageLength * s.p.delta / 2, rfl, ?_⟩
  have hz : (slip e s0).p.zeta = s.p.zeta - (e.alfp - 1 / s.gamma0 ^ 2) * e.slippageLength * s.p.delta / 2 := by
    show s.p.zeta + -0.5 * etaOf e s.gamma0 * e.slippageLength * s.p.delta = _
    unfold etaOf
    rw [show s.gamma0 * s.gamma0 = s.gamma0 ^ 2 by ring]
    ring
  obtain ⟨h1, h2, h3⟩ := rfKicks_eq k e.rf (slip e s0) hb
  rw [hz] at h1 h2
  have hg : (e.rf.foldl (rfKick k) (slip e s0)).gamma0 = s.gamma0 := (untouched_rfs k e.rf (slip e s0)).gamma0
  refine ⟨h1, ?_, ?_⟩
  · show (e.rf.foldl (rfKick k) (slip e s0)).p.zeta + -0.5 * etaOf e (e.rf.foldl (rfKick k) (slip e s0)).gamma0 * e.slippageLength
      * (e.rf.foldl (rfKick k) (slip e s0)).p.delta = _ - _ * (e.rf.foldl (rfKick k) (slip e s0)).p.delta / 2
    rw [h2, hg, etaOf, show s.gamma0 * s.gamma0 = s.gamma0 ^ 2 by ring]
    ring
  · rcases h3 with h3 | h3
    · left
      rcases h3 with h3 | h3
      · simp [h3]
      · exact h3
    · exact Or.inr h3

end

end Verif.SegMap
