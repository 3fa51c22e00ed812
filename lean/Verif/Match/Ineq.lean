import Mathlib.Analysis.Calculus.Deriv.Pow
import Mathlib.Analysis.Calculus.Deriv.MeanValue
import Mathlib.Analysis.SpecialFunctions.Log.Base
import Mathlib.Analysis.Real.Sqrt
import Mathlib.Tactic.Ring
import Mathlib.Tactic.NormNum
import Mathlib.Tactic.Linarith
import Mathlib.Tactic.FieldSimp
import Mathlib.Tactic.Positivity

/-!
# Inequality targets (C126)

Modelled: `_poly`, `_transition_poly`, `GreaterThan`, `LessThan` of `/repo/xtrack/match.py`, lines 90-201, and the logarithmic target and tolerance of
`TargetLuminosity`, `/repo/xtrack/targets.py`, lines 16-18.  Real numbers; `none` is not-a-number.
-/

namespace Verif.Match

noncomputable section

/-- `_poly`, lines 90-91. -/
def poly (x : ℝ) : ℝ := 3 * x ^ 3 - 2 * x ^ 4

/-- `x_cut`, line 94. -/
def xCut : ℝ := 1 / 16 + √33 / 16

/-- `_transition_poly`, lines 93-100. -/
def transition (x : ℝ) : ℝ := if x < 0 then 0 else if x < xCut then poly x else x - xCut + poly xCut

/-- `sigma` of an inequality with the default relative width, lines 118-122 and 179-183. -/
def sigmaRel (bound rel : ℝ) : ℝ := |bound| * rel

/-- `GreaterThan.auxtarget` in mode `step`, lines 132-136. -/
def gtStep (lower res : ℝ) : ℝ := if res < lower then res - lower else 0

/-- `LessThan.auxtarget` in mode `step`, lines 190-194. -/
def ltStep (upper res : ℝ) : ℝ := if res > upper then upper - res else 0

/-- `sigma * transition(d / sigma)`, lines 138 and 196.  For `sigma = 0` the quotient is an infinity of the sign of `d`, or not a number for `d = 0`; the transition of
minus infinity is 0, that of plus infinity is infinite, and zero times infinity is not a number. -/
def smooth (sigma d : ℝ) : Option ℝ :=
  if sigma = 0 then (if d < 0 then some 0 else none) else some (sigma * transition (d / sigma))

/-- `GreaterThan.auxtarget` in mode `smooth`, line 138. -/
def gtSmooth (sigma lower res : ℝ) : Option ℝ := smooth sigma (lower - res)

/-- `LessThan.auxtarget` in mode `smooth`, line 196. -/
def ltSmooth (sigma upper res : ℝ) : Option ℝ := smooth sigma (res - upper)

/-- Target and tolerance of `TargetLuminosity` with `log=True`, `/repo/xtrack/targets.py` lines 16-18. -/
def lumiTarget (lumi tol : ℝ) : ℝ × ℝ := (Real.logb 10 lumi, Real.logb 10 (tol / lumi + 1))

end

/-! ## The transition -/

theorem sqrt33 : (5 : ℝ) < √33 ∧ √33 < 6 := by
  constructor
  · rw [show (5 : ℝ) = √25 by rw [show (25 : ℝ) = 5 ^ 2 by norm_num, Real.sqrt_sq (by norm_num)]]
    exact Real.sqrt_lt_sqrt (by norm_num) (by norm_num)
  · rw [show (6 : ℝ) = √36 by rw [show (36 : ℝ) = 6 ^ 2 by norm_num, Real.sqrt_sq (by norm_num)]]
    exact Real.sqrt_lt_sqrt (by norm_num) (by norm_num)

theorem cut_pos : 0 < xCut := by unfold xCut; linarith [sqrt33.1]

theorem cut_lt : xCut < 1 := by unfold xCut; linarith [sqrt33.2]

theorem cut_root : 8 * xCut ^ 2 - xCut - 1 = 0 := by
  have h : √33 * √33 = 33 := Real.mul_self_sqrt (by norm_num)
  unfold xCut
  linear_combination (8 / 256) * h

/-- The derivative of the transition. -/
noncomputable def transition' (x : ℝ) : ℝ := if x < 0 then 0 else if x < xCut then 9 * x ^ 2 - 8 * x ^ 3 else 1

theorem poly_deriv (x : ℝ) : HasDerivAt poly (9 * x ^ 2 - 8 * x ^ 3) x := by
  have h := ((hasDerivAt_pow 3 x).const_mul (3 : ℝ)).sub ((hasDerivAt_pow 4 x).const_mul (2 : ℝ))
  refine HasDerivAt.congr_deriv (f := poly) h ?_
  norm_num
  ring

theorem slope_cut : 9 * xCut ^ 2 - 8 * xCut ^ 3 = 1 := by
  linear_combination (1 - xCut) * cut_root

theorem transition_deriv (x : ℝ) : HasDerivAt transition (transition' x) x := by
  have hlin : HasDerivAt (fun y : ℝ => y - xCut + poly xCut) 1 x := by
    have := ((hasDerivAt_id x).sub_const xCut).add_const (poly xCut)
    exact this
  rcases lt_trichotomy x 0 with h | h | h
  · have e : transition' x = 0 := if_pos h
    rw [e]
    refine (hasDerivAt_const x (0 : ℝ)).congr_of_eventuallyEq ?_
    filter_upwards [Iio_mem_nhds h] with y hy
    exact if_pos hy
  · subst h
    have e : transition' 0 = 0 := by unfold transition'; rw [if_neg (lt_irrefl _), if_pos cut_pos]; norm_num
    rw [e, ← hasDerivWithinAt_univ, ← Set.Iic_union_Ici (a := (0 : ℝ))]
    have t0 : transition 0 = 0 := by unfold transition; rw [if_neg (lt_irrefl _), if_pos cut_pos]; norm_num [poly]
    apply HasDerivWithinAt.union
    · refine (hasDerivWithinAt_const (0 : ℝ) (Set.Iic 0) (0 : ℝ)).congr (fun y hy => ?_) t0
      rcases lt_or_eq_of_le (show y ≤ 0 from hy) with h' | h'
      · exact if_pos h'
      · rw [h', t0]
    · have hp : HasDerivAt poly 0 0 := by simpa using poly_deriv 0
      refine (hp.hasDerivWithinAt (s := Set.Ici 0)).congr_of_eventuallyEq ?_ (by rw [t0]; norm_num [poly])
      have : Set.Iio xCut ∈ nhdsWithin (0 : ℝ) (Set.Ici 0) := mem_nhdsWithin_of_mem_nhds (Iio_mem_nhds cut_pos)
      filter_upwards [this, self_mem_nhdsWithin] with y hy hy0
      unfold transition
      rw [if_neg (not_lt.mpr hy0), if_pos (show y < xCut from hy)]
  · rcases lt_trichotomy x xCut with g | g | g
    · have e : transition' x = 9 * x ^ 2 - 8 * x ^ 3 := by unfold transition'; rw [if_neg h.not_gt, if_pos g]
      rw [e]
      refine (poly_deriv x).congr_of_eventuallyEq ?_
      filter_upwards [Iio_mem_nhds g, Ioi_mem_nhds h] with y hy hy0
      unfold transition
      rw [if_neg (not_lt.mpr (le_of_lt hy0)), if_pos (show y < xCut from hy)]
    · subst g
      have e : transition' xCut = 1 := by unfold transition'; rw [if_neg h.not_gt, if_neg (lt_irrefl _)]
      have tc : transition xCut = poly xCut := by unfold transition; rw [if_neg h.not_gt, if_neg (lt_irrefl _)]; ring
      rw [e, ← hasDerivWithinAt_univ, ← Set.Iic_union_Ici (a := xCut)]
      apply HasDerivWithinAt.union
      · have hp : HasDerivAt poly 1 xCut := by have := poly_deriv xCut; rwa [slope_cut] at this
        refine (hp.hasDerivWithinAt (s := Set.Iic xCut)).congr_of_eventuallyEq ?_ tc
        have : Set.Ioi (0 : ℝ) ∈ nhdsWithin xCut (Set.Iic xCut) := mem_nhdsWithin_of_mem_nhds (Ioi_mem_nhds h)
        filter_upwards [this, self_mem_nhdsWithin] with y hy hyc
        rcases lt_or_eq_of_le (show y ≤ xCut from hyc) with h' | h'
        · unfold transition
          rw [if_neg (not_lt.mpr (le_of_lt hy)), if_pos h']
        · rw [h', tc]
      · refine (hlin.hasDerivWithinAt (s := Set.Ici xCut)).congr (fun y hy => ?_) (by rw [tc]; ring)
        unfold transition
        rw [if_neg (not_lt.mpr (le_trans h.le hy)), if_neg (not_lt.mpr hy)]
    · have e : transition' x = 1 := by unfold transition'; rw [if_neg h.not_gt, if_neg g.not_gt]
      rw [e]
      refine hlin.congr_of_eventuallyEq ?_
      filter_upwards [Ioi_mem_nhds g] with y hy
      unfold transition
      rw [if_neg (not_lt.mpr (le_trans cut_pos.le (le_of_lt hy))), if_neg (not_lt.mpr (le_of_lt hy))]

theorem slope_bounds (x : ℝ) : 0 ≤ transition' x ∧ transition' x ≤ 1 := by
  unfold transition'
  split_ifs with h1 h2
  · norm_num
  · have h0 : 0 ≤ x := not_lt.mp h1
    have hx1 : x < 1 := lt_trans h2 cut_lt
    have key : 8 * x ^ 2 - x - 1 ≤ 0 := by nlinarith [cut_root, cut_pos, mul_nonneg h0 cut_pos.le, mul_nonneg h0 (sub_nonneg.mpr h2.le)]
    constructor
    · have : 0 ≤ x ^ 2 * (9 - 8 * x) := mul_nonneg (sq_nonneg x) (by linarith)
      linarith
    · nlinarith [mul_nonneg (sub_nonneg.mpr hx1.le) (neg_nonneg.mpr key)]
  · norm_num

theorem transition_mono : Monotone transition :=
  monotone_of_deriv_nonneg (fun x => (transition_deriv x).differentiableAt) fun x => by
    rw [(transition_deriv x).deriv]; exact (slope_bounds x).1

theorem rest_mono : Monotone fun x => x - transition x :=
  monotone_of_deriv_nonneg (fun x => ((hasDerivAt_id x).sub (transition_deriv x)).differentiableAt) fun x => by
    have : HasDerivAt (fun x => x - transition x) (1 - transition' x) x := (hasDerivAt_id x).sub (transition_deriv x)
    rw [this.deriv]
    linarith [(slope_bounds x).2]

/-- The largest difference between the violation of the inequality and what the smooth mode reports, in units of sigma. -/
noncomputable def slack : ℝ := xCut - poly xCut

theorem transition_zero : transition 0 = 0 := by unfold transition; rw [if_neg (lt_irrefl _), if_pos cut_pos]; norm_num [poly]

theorem transition_pos {x : ℝ} (h : 0 < x) : 0 < transition x := by
  unfold transition
  rw [if_neg h.not_gt]
  have hp : ∀ y : ℝ, 0 < y → y < 1 → 0 < poly y := fun y h1 h2 => by
    unfold poly
    have : 0 < y ^ 3 * (3 - 2 * y) := mul_pos (pow_pos h1 3) (by linarith)
    linarith
  split_ifs with h2
  · exact hp x h (lt_trans h2 cut_lt)
  · have := hp xCut cut_pos cut_lt
    linarith [not_lt.mp h2]

theorem transition_le {x : ℝ} (h : 0 ≤ x) : transition x ≤ x ∧ x - slack ≤ transition x := by
  have h1 := rest_mono h
  have h2 := rest_mono (le_max_left x xCut)
  simp only [transition_zero, sub_zero] at h1
  have e : max x xCut - transition (max x xCut) = slack := by
    unfold transition slack
    rw [if_neg (not_lt.mpr (le_trans h (le_max_left _ _))), if_neg (not_lt.mpr (le_max_right _ _))]
    ring
  simp only [e] at h2
  exact ⟨by linarith, by linarith⟩

/-! ## The property -/

/-- **C126, steps.**  An inequality in mode `step` reports zero exactly when it holds, and otherwise, up to the sign, by how much it is violated. -/
theorem C126_step (bound res : ℝ) :
    (gtStep bound res = 0 ↔ bound ≤ res) ∧ |gtStep bound res| = max 0 (bound - res) ∧ (ltStep bound res = 0 ↔ res ≤ bound) ∧ |ltStep bound res| = max 0 (res - bound) := by
  unfold gtStep ltStep
  refine ⟨?_, ?_, ?_, ?_⟩
  · split_ifs with h
    · exact ⟨fun e => by linarith, fun e => by linarith⟩
    · exact ⟨fun _ => not_lt.mp h, fun _ => rfl⟩
  · split_ifs with h
    · rw [max_eq_right (by linarith), abs_of_neg (by linarith)]; ring
    · rw [max_eq_left (by linarith [not_lt.mp h]), abs_zero]
  · split_ifs with h
    · exact ⟨fun e => by linarith, fun e => by linarith⟩
    · exact ⟨fun _ => not_lt.mp h, fun _ => rfl⟩
  · split_ifs with h
    · rw [max_eq_right (by linarith), abs_of_neg (by linarith)]; ring
    · rw [max_eq_left (by linarith [not_lt.mp h]), abs_zero]

theorem smooth_spec {sigma : ℝ} (hs : 0 < sigma) (d : ℝ) : ∃ r, smooth sigma d = some r ∧ 0 ≤ r ∧ (r = 0 ↔ d ≤ 0) ∧ r ≤ max 0 d ∧ d - sigma * slack ≤ r := by
  have hne : sigma ≠ 0 := hs.ne'
  refine ⟨sigma * transition (d / sigma), by rw [smooth, if_neg hne], ?_⟩
  have hsl : 0 ≤ slack := by
    have h1 := (transition_le cut_pos.le).1
    have e : transition xCut = poly xCut := by unfold transition; rw [if_neg cut_pos.not_gt, if_neg (lt_irrefl _)]; ring
    rw [e] at h1
    unfold slack
    linarith
  by_cases hd : d ≤ 0
  · have hz : transition (d / sigma) = 0 := by
      rcases lt_or_eq_of_le hd with h | h
      · exact if_pos (div_neg_of_neg_of_pos h hs)
      · rw [h, zero_div, transition_zero]
    rw [hz, mul_zero]
    have : 0 ≤ sigma * slack := mul_nonneg hs.le hsl
    exact ⟨le_rfl, ⟨fun _ => hd, fun _ => rfl⟩, le_max_left _ _, by linarith⟩
  · have hd' : 0 < d := not_le.mp hd
    have hx : 0 < d / sigma := div_pos hd' hs
    have hp := mul_pos hs (transition_pos hx)
    obtain ⟨h1, h2⟩ := transition_le hx.le
    have e : sigma * (d / sigma) = d := by field_simp
    refine ⟨hp.le, ⟨fun h => absurd h hp.ne', fun h => absurd h hd⟩, ?_, ?_⟩
    · rw [max_eq_right hd'.le]
      calc sigma * transition (d / sigma) ≤ sigma * (d / sigma) := mul_le_mul_of_nonneg_left h1 hs.le
        _ = d := e
    · calc d - sigma * slack = sigma * (d / sigma - slack) := by rw [mul_sub, e]
        _ ≤ _ := mul_le_mul_of_nonneg_left h2 hs.le

/-- **C126, smooth inequalities.**  With a positive width, the smooth mode reports zero exactly when the inequality holds, never more than the violation, and at most
`slack * sigma` less. -/
theorem C126_smooth_partial {sigma : ℝ} (hs : 0 < sigma) (bound res : ℝ) :
    (∃ r, gtSmooth sigma bound res = some r ∧ 0 ≤ r ∧ (r = 0 ↔ bound ≤ res) ∧ r ≤ max 0 (bound - res) ∧ (bound - res) - sigma * slack ≤ r)
      ∧ ∃ r, ltSmooth sigma bound res = some r ∧ 0 ≤ r ∧ (r = 0 ↔ res ≤ bound) ∧ r ≤ max 0 (res - bound) ∧ (res - bound) - sigma * slack ≤ r := by
  obtain ⟨r, h1, h2, h3, h4, h5⟩ := smooth_spec hs (bound - res)
  obtain ⟨q, g1, g2, g3, g4, g5⟩ := smooth_spec hs (res - bound)
  exact ⟨⟨r, h1, h2, by rw [h3, sub_nonpos], h4, h5⟩, ⟨q, g1, g2, by rw [g3, sub_nonpos], g4, g5⟩⟩

/-- The reported value has a derivative everywhere, between zero and minus one (for a lower bound) with respect to the quantity: the solver never sees a step. -/
theorem C126_derivative {sigma : ℝ} (hs : 0 < sigma) (bound res : ℝ) :
    ∃ g, HasDerivAt (fun r => sigma * transition ((bound - r) / sigma)) g res ∧ -1 ≤ g ∧ g ≤ 0 := by
  have h1 : HasDerivAt (fun r : ℝ => (bound - r) / sigma) (-1 / sigma) res := by
    have := ((hasDerivAt_const res bound).sub (hasDerivAt_id res)).div_const sigma
    simpa using this
  have h2 := ((transition_deriv ((bound - res) / sigma)).comp res h1).const_mul sigma
  refine ⟨_, h2, ?_, ?_⟩
  · have e : sigma * (transition' ((bound - res) / sigma) * (-1 / sigma)) = -transition' ((bound - res) / sigma) := by field_simp
    rw [e]
    linarith [(slope_bounds ((bound - res) / sigma)).2]
  · have e : sigma * (transition' ((bound - res) / sigma) * (-1 / sigma)) = -transition' ((bound - res) / sigma) := by field_simp
    rw [e]
    linarith [(slope_bounds ((bound - res) / sigma)).1]

/-- **C126, violated: smooth inequality with bound zero.**  With the default relative width, the width for a bound of zero is zero: as soon as the inequality does
not hold, or holds with equality, the reported value is not a number. -/
theorem C126_zero_violated (rel res : ℝ) :
    (res ≤ 0 → gtSmooth (sigmaRel 0 rel) 0 res = none) ∧ (0 ≤ res → ltSmooth (sigmaRel 0 rel) 0 res = none) := by
  have e : sigmaRel 0 rel = 0 := by simp [sigmaRel]
  refine ⟨fun h => ?_, fun h => ?_⟩
  · unfold gtSmooth smooth
    rw [e, if_pos rfl, if_neg (by linarith)]
  · unfold ltSmooth smooth
    rw [e, if_pos rfl, if_neg (by linarith)]

/-- **C126, luminosity.**  A luminosity which meets the logarithmic target within the logarithmic tolerance meets the target within the tolerance which the user gave,
and above the target the two are equivalent. -/
theorem C126_luminosity {lumi tol x : ℝ} (hl : 0 < lumi) (ht : 0 < tol) (hx : 0 < x) :
    (|Real.logb 10 x - (lumiTarget lumi tol).1| < (lumiTarget lumi tol).2 → |x - lumi| < tol)
      ∧ (lumi ≤ x → |x - lumi| < tol → |Real.logb 10 x - (lumiTarget lumi tol).1| < (lumiTarget lumi tol).2) := by
  have hq : 0 < tol / lumi := div_pos ht hl
  have e : Real.logb 10 x - Real.logb 10 lumi = Real.logb 10 (x / lumi) := (Real.logb_div hx.ne' hl.ne').symm
  unfold lumiTarget
  simp only
  rw [e]
  have hr : 0 < x / lumi := div_pos hx hl
  have hten : (1 : ℝ) < 10 := by norm_num
  constructor
  · intro h
    rw [abs_lt] at h
    have h2 : x / lumi < tol / lumi + 1 := (Real.logb_lt_logb_iff hten hr (by linarith)).mp h.2
    have h1 : (tol / lumi + 1)⁻¹ < x / lumi := by
      have := h.1
      rw [← Real.logb_inv] at this
      exact (Real.logb_lt_logb_iff hten (by positivity) hr).mp this
    rw [abs_lt]
    constructor
    · have h3 : 1 - tol / lumi ≤ (tol / lumi + 1)⁻¹ := by
        rw [inv_eq_one_div, le_div_iff₀ (by positivity)]
        nlinarith [sq_nonneg (tol / lumi)]
      have h4 : 1 - tol / lumi < x / lumi := lt_of_le_of_lt h3 h1
      have h5 : (1 - tol / lumi) * lumi < x / lumi * lumi := mul_lt_mul_of_pos_right h4 hl
      rw [div_mul_cancel₀ _ hl.ne', sub_mul, div_mul_cancel₀ _ hl.ne'] at h5
      linarith
    · have h5 : x / lumi * lumi < (tol / lumi + 1) * lumi := mul_lt_mul_of_pos_right h2 hl
      rw [div_mul_cancel₀ _ hl.ne', add_mul, div_mul_cancel₀ _ hl.ne'] at h5
      linarith
  · intro hge h
    have h1 : 1 ≤ x / lumi := by rwa [one_le_div hl]
    rw [abs_of_nonneg (Real.logb_nonneg hten h1)]
    rw [abs_of_nonneg (by linarith)] at h
    apply (Real.logb_lt_logb_iff hten hr (by linarith)).mpr
    rw [div_add_one hl.ne', div_lt_div_iff_of_pos_right hl]
    linarith

/-- A bound, a width and a value which violate the inequality by half of the width. -/
example : ∃ r, gtSmooth 1 2 (3 / 2) = some r ∧ 0 < r ∧ r ≤ 1 / 2 := by
  obtain ⟨⟨r, h1, h2, h3, h4, -⟩, -⟩ := C126_smooth_partial (sigma := 1) one_pos 2 (3 / 2)
  refine ⟨r, h1, lt_of_le_of_ne h2 fun he => ?_, ?_⟩
  · have := h3.mp he.symm
    norm_num at this
  · rw [max_eq_right (by norm_num)] at h4
    linarith

end Verif.Match
