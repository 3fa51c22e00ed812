import Verif.Steer.Model
import Mathlib.Analysis.SpecificLimits.Basic

/-!
# Trajectory correction: properties (C128, C129, C130)
-/

namespace Verif.Steer

open Matrix Classical

/-! ## C128: limits and end of the iterations -/

section loop

variable {ι O : Type}

/-- A solver respects limits between which there is something. -/
def Respects (solve : O → Limits ι → ι → ℝ) : Prop := ∀ o lo hi, (∀ i, lo i ≤ hi i) → ∀ i, lo i ≤ solve o (some (lo, hi)) i ∧ solve o (some (lo, hi)) i ≤ hi i

/-- Kicks within the limits. -/
def Within (l : Limits ι) (k : ι → ℝ) : Prop := ∀ lo hi, l = some (lo, hi) → ∀ i, lo i ≤ k i ∧ k i ≤ hi i

theorem within_step {solve : O → Limits ι → ι → ℝ} (hs : Respects solve) {l : Limits ι} {k : ι → ℝ} (hk : Within l k) (o : O) :
    Within l fun i => k i + solve o (relative l k) i := by
  rintro lo hi rfl i
  have h := hk lo hi rfl
  have := hs o (fun i => lo i - k i) (fun i => hi i - k i) (fun i => by linarith [(h i).1, (h i).2]) i
  simp only [relative, Option.map_some]
  exact ⟨by linarith [this.1], by linarith [this.2]⟩

/-- **C128, limits.**  Starting without corrections and with `verbose=True`, the kicks stay within the limits for any number of iterations, on any machine. -/
theorem C128_limits_partial (c : Config ι O) (hx : Respects c.solveX) (hy : Respects c.solveY) (hv : c.verbose = true)
    (h0x : Within c.limX fun _ => 0) (h0y : Within c.limY fun _ => 0) (n : ℕ) :
    Within c.limX ((body c)^[n] (start c (fun _ => 0) fun _ => 0)).kx ∧ Within c.limY ((body c)^[n] (start c (fun _ => 0) fun _ => 0)).ky := by
  have rel0 : ∀ l : Limits ι, relative l (fun _ => 0) = l := by
    intro l
    cases l with
    | none => rfl
    | some p => simp [relative]
  suffices h : ∀ n, let s := (body c)^[n] (start c (fun _ => 0) fun _ => 0)
      Within c.limX s.kx ∧ Within c.limY s.ky ∧ s.rlx = relative c.limX s.kx ∧ s.rly = relative c.limY s.ky from ⟨(h n).1, (h n).2.1⟩
  intro n
  induction n with
  | zero => exact ⟨h0x, h0y, (rel0 _).symm, (rel0 _).symm⟩
  | succ n ih =>
    rw [Function.iterate_succ_apply']
    set s := (body c)^[n] (start c (fun _ => 0) fun _ => 0)
    obtain ⟨i1, i2, i3, i4⟩ := ih
    have wx : Within c.limX (body c s).kx := by
      show Within c.limX (if c.useX then fun i => s.kx i + c.solveX s.orbit s.rlx i else s.kx)
      split
      · rw [i3]; exact within_step hx i1 _
      · exact i1
    have wy : Within c.limY (body c s).ky := by
      show Within c.limY (if c.useY then fun i => s.ky i + c.solveY s.orbit s.rly i else s.ky)
      split
      · rw [i4]; exact within_step hy i2 _
      · exact i2
    refine ⟨wx, wy, ?_, ?_⟩
    · show (if c.verbose ∧ c.useX ∧ c.limX.isSome then relative c.limX (if c.useX then fun i => s.kx i + c.solveX s.orbit s.rlx i else s.kx) else s.rlx)
        = relative c.limX (if c.useX then fun i => s.kx i + c.solveX s.orbit s.rlx i else s.kx)
      by_cases hu : c.useX = true
      · cases hl : c.limX with
        | none => simp [relative, i3, hl]
        | some p => simp [hv, hu]
      · simp [hu, i3]
    · show (if c.verbose ∧ c.useY ∧ c.limY.isSome then relative c.limY (if c.useY then fun i => s.ky i + c.solveY s.orbit s.rly i else s.ky) else s.rly)
        = relative c.limY (if c.useY then fun i => s.ky i + c.solveY s.orbit s.rly i else s.ky)
      by_cases hu : c.useY = true
      · cases hl : c.limY with
        | none => simp [relative, i4, hl]
        | some p => simp [hv, hu]
      · simp [hu, i4]

/-- A machine with one corrector and one monitor which reads 10 minus the kick; the solver takes the best value within the limits. -/
noncomputable def oneCorrector (verbose : Bool) : Config Unit ℝ where
  machine kx _ := 10 - kx ()
  useX := true
  useY := false
  limX := some (fun _ => -1, fun _ => 1)
  limY := none
  solveX o l _ := match l with | none => o | some p => max (p.1 ()) (min (p.2 ()) o)
  solveY _ _ _ := 0
  stdX o := |o|
  stdY _ := 0
  nIter := some 2
  verbose := verbose
  stopFactor := 1 / 10
  tol := 0

theorem oneCorrector_respects (v : Bool) : Respects (oneCorrector v).solveX := fun o lo hi h i => by
  refine ⟨le_max_left _ _, max_le (h _) (min_le_left _ _)⟩

/-- **C128, violated: limits without printing.**  The limits left for the next iteration are computed only when messages are printed.  With `verbose=False`, two
iterations, and limits of one on both sides, the kick ends at two. -/
theorem C128_quiet_violated : Respects (oneCorrector false).solveX
    ∧ ((body (oneCorrector false))^[2] (start (oneCorrector false) (fun _ => 0) fun _ => 0)).kx () = 2
    ∧ done (oneCorrector false) ((body (oneCorrector false))^[2] (start (oneCorrector false) (fun _ => 0) fun _ => 0))
    ∧ ¬Within (oneCorrector false).limX ((body (oneCorrector false))^[2] (start (oneCorrector false) (fun _ => 0) fun _ => 0)).kx := by
  have e : ((body (oneCorrector false))^[2] (start (oneCorrector false) (fun _ => 0) fun _ => 0)).kx () = 2 := by
    rw [Function.iterate_succ_apply', Function.iterate_succ_apply', Function.iterate_zero_apply]
    norm_num [body, start, oneCorrector]
  refine ⟨oneCorrector_respects _, e, Or.inr ⟨2, rfl, le_of_eq rfl⟩, fun h => ?_⟩
  have := (h _ _ rfl ()).2
  rw [e] at this
  norm_num at this

/-- **C128, violated: second call.**  A call which starts from kicks which are there already takes the full limits as limits of the change: from one, at the limit, the
kick goes to two, also with `verbose=True`. -/
theorem C128_again_violated : Within (oneCorrector true).limX (fun _ => 1)
    ∧ ((body (oneCorrector true))^[1] (start (oneCorrector true) (fun _ => 1) fun _ => 0)).kx () = 2
    ∧ ¬Within (oneCorrector true).limX ((body (oneCorrector true))^[1] (start (oneCorrector true) (fun _ => 1) fun _ => 0)).kx := by
  have e : ((body (oneCorrector true))^[1] (start (oneCorrector true) (fun _ => 1) fun _ => 0)).kx () = 2 := by
    rw [Function.iterate_succ_apply', Function.iterate_zero_apply]
    norm_num [body, start, oneCorrector]
  refine ⟨?_, e, fun h => ?_⟩
  · rintro lo hi h i
    simp only [oneCorrector, Option.some.injEq, Prod.mk.injEq] at h
    obtain ⟨rfl, rfl⟩ := h
    norm_num
  · have := (h _ _ rfl ()).2
    rw [e] at this
    norm_num at this

/-- **C128, end.**  With `n_iter='auto'` and one plane the loop ends, on any machine. -/
theorem C128_ends_partial (c : Config ι O) (hn : c.nIter = none) (hx : c.useX = true) (hy : c.useY = false) (ht : 0 < c.tol) (hf : 0 < c.stopFactor)
    (hf1 : c.stopFactor < 1) (s : St ι O) (hs : s.stopY = true) : ∃ n, done c ((body c)^[n + 1] s) := by
  by_contra hnot
  have hnot : ∀ n, ¬done c ((body c)^[n + 1] s) := fun n h => hnot ⟨n, h⟩
  have hY : ∀ n, ((body c)^[n] s).stopY = true := by
    intro n
    induction n with
    | zero => exact hs
    | succ n ih =>
      rw [Function.iterate_succ_apply']
      show (if c.nIter = none ∧ c.useY then stopCond c c.stdY _ _ else ((body c)^[n] s).stopY) = true
      rw [if_neg (by simp [hy])]
      exact ih
  have hX : ∀ n, c.tol ≤ c.stdX ((body c)^[n + 1] s).orbit ∧ c.stdX ((body c)^[n + 1] s).orbit ≤ (1 - c.stopFactor) * c.stdX ((body c)^[n] s).orbit := by
    intro n
    have h : ((body c)^[n + 1] s).stopX ≠ true := fun h => hnot n (Or.inl ⟨h, hY _⟩)
    have e : ((body c)^[n + 1] s).stopX = stopCond c c.stdX ((body c)^[n + 1] s).orbit ((body c)^[n] s).orbit := by
      rw [Function.iterate_succ_apply']
      show (if c.nIter = none ∧ c.useX then stopCond c c.stdX (body c ((body c)^[n] s)).orbit ((body c)^[n] s).orbit else _) = _
      rw [if_pos ⟨hn, hx⟩]
    rw [e] at h
    simp only [stopCond, decide_eq_true_eq, ne_eq, not_or, not_lt] at h
    exact h
  have hq0 : 0 ≤ 1 - c.stopFactor := by linarith
  have hq1 : 1 - c.stopFactor < 1 := by linarith
  have hgeo : ∀ n, c.stdX ((body c)^[n] s).orbit ≤ (1 - c.stopFactor) ^ n * c.stdX s.orbit := by
    intro n
    induction n with
    | zero => simp
    | succ n ih =>
      calc c.stdX ((body c)^[n + 1] s).orbit ≤ (1 - c.stopFactor) * c.stdX ((body c)^[n] s).orbit := (hX n).2
        _ ≤ (1 - c.stopFactor) * ((1 - c.stopFactor) ^ n * c.stdX s.orbit) := mul_le_mul_of_nonneg_left ih hq0
        _ = _ := by ring
  have hlim := (tendsto_pow_atTop_nhds_zero_of_lt_one hq0 hq1).mul_const (c.stdX s.orbit)
  rw [zero_mul] at hlim
  obtain ⟨n, hn'⟩ := (hlim.eventually (gt_mem_nhds ht)).exists
  have h1 : (1 - c.stopFactor) ^ (n + 1) * c.stdX s.orbit < c.tol := by
    have hpos : 0 ≤ (1 - c.stopFactor) ^ n * c.stdX s.orbit ∨ (1 - c.stopFactor) ^ n * c.stdX s.orbit < 0 := le_or_gt _ _
    rw [pow_succ, mul_assoc, mul_comm (1 - c.stopFactor), ← mul_assoc]
    rcases hpos with hp | hp
    · nlinarith
    · nlinarith
  linarith [(hX n).1, hgeo (n + 1)]

/-- A machine with a corrector in each plane on which the correction of one plane disturbs the other: the standard deviations are (1, 2) and (2, 1) in turn. -/
noncomputable def seesaw : Config Unit (ℝ × ℝ) where
  machine kx _ := (1 + kx (), 2 - kx ())
  useX := true
  useY := true
  limX := none
  limY := none
  solveX o _ _ := if o.1 = 1 then 1 else -1
  solveY _ _ _ := 0
  stdX o := o.1
  stdY o := o.2
  nIter := none
  verbose := false
  stopFactor := 1 / 10
  tol := 1 / 10 ^ 10

/-- **C128, violated: end with two planes.**  The loop ends only when both planes stop in the same iteration.  When the corrections of one plane disturb the other, each
iteration improves one of them by more than the factor, and the loop never ends. -/
theorem C128_ends_violated (n : ℕ) : ¬done seesaw ((body seesaw)^[n + 1] (start seesaw (fun _ => 0) fun _ => 0)) := by
  have key : ∀ n, let s := (body seesaw)^[n] (start seesaw (fun _ => 0) fun _ => 0)
      (s.kx () = 0 ∧ s.orbit = (1, 2)) ∨ (s.kx () = 1 ∧ s.orbit = (2, 1)) := by
    intro n
    induction n with
    | zero => left; norm_num [start, seesaw]
    | succ n ih =>
      rw [Function.iterate_succ_apply']
      set s := (body seesaw)^[n] (start seesaw (fun _ => 0) fun _ => 0)
      rcases ih with ⟨h1, h2⟩ | ⟨h1, h2⟩
      · right; norm_num [body, seesaw, h1, h2]
      · left; norm_num [body, seesaw, h1, h2]
  have hk := key n
  rw [Function.iterate_succ_apply']
  set s := (body seesaw)^[n] (start seesaw (fun _ => 0) fun _ => 0)
  rintro (⟨h1, h2⟩ | ⟨m, hm, -⟩)
  · rcases hk with ⟨g1, g2⟩ | ⟨g1, g2⟩
    · norm_num [body, seesaw, stopCond, g1, g2] at h2
    · norm_num [body, seesaw, stopCond, g1, g2] at h1
  · simp [seesaw] at hm

/-- Root mean square of the positions. -/
noncomputable def rms (p : List ℝ) : ℝ := √((p.map fun x => x ^ 2).sum / p.length)

/-- **C128, violated: tolerance.**  The standard deviation around the mean is taken for the root mean square.  A trajectory with the same offset `d` at all monitors
counts as corrected to any tolerance. -/
theorem C128_rms_violated (d : ℝ) (n : ℕ) : std (List.replicate (n + 1) d) = 0 ∧ rms (List.replicate (n + 1) d) = |d| := by
  have hn : (n : ℝ) + 1 ≠ 0 := by positivity
  constructor
  · unfold std
    simp only [List.sum_replicate, List.length_replicate, nsmul_eq_mul, Nat.cast_add, Nat.cast_one, List.map_replicate]
    rw [mul_div_cancel_left₀ d hn]
    simp
  · unfold rms
    simp only [List.sum_replicate, List.length_replicate, nsmul_eq_mul, Nat.cast_add, Nat.cast_one, List.map_replicate]
    rw [mul_div_cancel_left₀ _ hn, Real.sqrt_sq_eq_abs]

/-- The hypotheses of `C128_limits_partial` hold for the machine with one corrector. -/
example : Respects (oneCorrector true).solveX ∧ Within (oneCorrector true).limX fun _ => 0 := by
  refine ⟨oneCorrector_respects _, ?_⟩
  rintro lo hi h i
  simp only [oneCorrector, Option.some.injEq, Prod.mk.injEq] at h
  obtain ⟨rfl, rfl⟩ := h
  norm_num

end loop

/-! ## C129: the response matrix is the response -/

section response

/-- Position after a part of a line with given optics at its ends and a given phase advance. -/
noncomputable def posAfter (b1 a1 b2 φ x p : ℝ) : ℝ := √(b2 / b1) * (Real.cos φ + a1 * Real.sin φ) * x + √(b1 * b2) * Real.sin φ * p

/-- Slope after it. -/
noncomputable def slopeAfter (b1 a1 b2 a2 φ x p : ℝ) : ℝ :=
  -((1 + a1 * a2) * Real.sin φ + (a2 - a1) * Real.cos φ) / √(b1 * b2) * x + √(b1 / b2) * (Real.cos φ - a2 * Real.sin φ) * p

/-- **C129, trajectories.**  On an open line, a kick at a corrector gives at a monitor the position of the response matrix times the kick: zero for monitors upstream. -/
theorem C129_open (bM bC muM muC a : ℝ) (θ : ℝ) :
    (muC ≤ muM → posAfter bC a bM (2 * Real.pi * (muM - muC)) 0 θ = responseOpen bM bC muM muC * θ) ∧ (muM < muC → responseOpen bM bC muM muC = 0) := by
  constructor
  · intro h
    unfold posAfter responseOpen
    simp only
    rw [if_neg (by linarith), abs_of_nonneg (by linarith), mul_comm bC bM]
    ring
  · intro h
    unfold responseOpen
    simp only
    rw [if_pos (by linarith)]
    simp

/-- **C129, closed orbit.**  A kick `θ` at a corrector of a ring: whatever the position and slope at a monitor are, if the particle comes back to them after the rest of
the turn (phase `φ2`), the kick and the part from the corrector to the monitor (phase `φ1`), then the position is the response times the kick.  The monitor is after
the corrector in the table (first case) or before it (second case). -/
theorem C129_closed {bM bC aM aC tune φ1 φ2 : ℝ} (hM : 0 < bM) (hC : 0 < bC) (hq : Real.sin (Real.pi * tune) ≠ 0) (hφ : φ1 + φ2 = 2 * Real.pi * tune)
    {x p θ : ℝ} (hx : posAfter bC aC bM φ1 (posAfter bM aM bC φ2 x p) (slopeAfter bM aM bC aC φ2 x p + θ) = x)
    (hp : slopeAfter bC aC bM aM φ1 (posAfter bM aM bC φ2 x p) (slopeAfter bM aM bC aC φ2 x p + θ) = p) {muM muC : ℝ} :
    (0 ≤ muM - muC → φ1 = 2 * Real.pi * (muM - muC) → x = responseClosed bM bC muM muC tune * θ)
      ∧ (0 ≤ muC - muM → φ2 = 2 * Real.pi * (muC - muM) → x = responseClosed bM bC muM muC tune * θ) := by
  obtain ⟨u, hu, hu2⟩ : ∃ u, 0 < u ∧ u ^ 2 = bM := ⟨√bM, Real.sqrt_pos.mpr hM, Real.sq_sqrt hM.le⟩
  obtain ⟨v, hv, hv2⟩ : ∃ v, 0 < v ∧ v ^ 2 = bC := ⟨√bC, Real.sqrt_pos.mpr hC, Real.sq_sqrt hC.le⟩
  have e1 : √(bM / bC) = u / v := by rw [← hu2, ← hv2, ← div_pow, Real.sqrt_sq (by positivity)]
  have e2 : √(bC / bM) = v / u := by rw [← hu2, ← hv2, ← div_pow, Real.sqrt_sq (by positivity)]
  have e3 : √(bM * bC) = u * v := by rw [← hu2, ← hv2, ← mul_pow, Real.sqrt_sq (by positivity)]
  have e4 : √(bC * bM) = u * v := by rw [mul_comm, e3]
  unfold posAfter slopeAfter at hx hp
  rw [e1, e2, e3, e4] at hx hp
  -- normalized coordinates at the monitor: X = x / u, P = (aM x + bM p) / u; the kick becomes v θ
  set X := x / u with hX
  set P := (aM * x + u ^ 2 * p) / u with hP
  have hxX : x = u * X := by rw [hX]; field_simp
  have hpP : p = (P - aM * X) / u := by rw [hP, hX]; field_simp; ring
  set s1 := Real.sin φ1
  set c1 := Real.cos φ1
  set s2 := Real.sin φ2
  set c2 := Real.cos φ2
  have t1 : s1 ^ 2 + c1 ^ 2 = 1 := Real.sin_sq_add_cos_sq φ1
  have t2 : s2 ^ 2 + c2 ^ 2 = 1 := Real.sin_sq_add_cos_sq φ2
  have cT : Real.cos (2 * Real.pi * tune) = c1 * c2 - s1 * s2 := by rw [← hφ, Real.cos_add]
  have sT : Real.sin (2 * Real.pi * tune) = s1 * c2 + c1 * s2 := by rw [← hφ, Real.sin_add]
  have hxn : (c1 * c2 - s1 * s2) * X + (s1 * c2 + c1 * s2) * P + s1 * (v * θ) = X := by
    rw [hxX, hpP] at hx
    field_simp at hx
    field_simp
    linear_combination hx
  have hpn : -(s1 * c2 + c1 * s2) * X + (c1 * c2 - s1 * s2) * P + c1 * (v * θ) = P := by
    have hx' := hx
    rw [hxX, hpP] at hp hx'
    field_simp at hp hx'
    field_simp
    linear_combination hp + aM * hx'
  -- solve the linear system with the half angle
  have half : Real.cos (2 * Real.pi * tune) = 1 - 2 * Real.sin (Real.pi * tune) ^ 2 := by
    rw [show 2 * Real.pi * tune = 2 * (Real.pi * tune) by ring, Real.cos_two_mul, Real.sin_sq]; ring
  have halfs : Real.sin (2 * Real.pi * tune) = 2 * Real.sin (Real.pi * tune) * Real.cos (Real.pi * tune) := by
    rw [show 2 * Real.pi * tune = 2 * (Real.pi * tune) by ring, Real.sin_two_mul]
  set S := Real.sin (Real.pi * tune)
  set C := Real.cos (Real.pi * tune)
  have tS : S ^ 2 + C ^ 2 = 1 := Real.sin_sq_add_cos_sq _
  rw [← cT, ← sT, half, halfs] at hxn
  rw [← cT, ← sT, half, halfs] at hpn
  have k1 : -2 * S ^ 2 * X + 2 * S * C * P = -(s1 * (v * θ)) := by linear_combination hxn
  have k2 : -2 * S * C * X - 2 * S ^ 2 * P = -(c1 * (v * θ)) := by linear_combination hpn
  have hXs : 2 * S * X = (C * c1 + S * s1) * (v * θ) := by
    have : S * (2 * S * X) = S * ((C * c1 + S * s1) * (v * θ)) := by
      linear_combination (-S * S) * k1 - (C * S) * k2 - 2 * S ^ 2 * X * tS + 0
    exact mul_left_cancel₀ hq this
  have hcd : C * c1 + S * s1 = Real.cos (Real.pi * tune - φ1) := by rw [Real.cos_sub]
  have hfin : x = u * v / 2 / S * Real.cos (Real.pi * tune - φ1) * θ := by
    rw [hxX, ← hcd]
    field_simp
    linear_combination hXs
  constructor
  · intro h0 h1
    unfold responseClosed
    rw [e3, abs_of_nonneg h0, ← h1]
    exact hfin
  · intro h0 h2
    unfold responseClosed
    rw [e3, abs_sub_comm, abs_of_nonneg h0, ← h2, hfin]
    congr 2
    rw [← Real.cos_neg]
    congr 1
    linarith [hφ]

end response

/-! ## C130: the correction is the best one -/

section best

variable {m n k : ℕ}

/-- The singular values which are kept. -/
noncomputable def kept (S : Fin (k + 1) → ℝ) (rcond : Option ℝ) (i : Fin (k + 1)) : ℝ := if 0 < S i ∧ ∀ r, rcond = some r → r * S 0 ≤ S i then S i else 0

/-- The response matrix without the singular values which are not kept. -/
noncomputable def reduced (U : Matrix (Fin m) (Fin (k + 1)) ℝ) (S : Fin (k + 1) → ℝ) (Vh : Matrix (Fin (k + 1)) (Fin n) ℝ) (rcond : Option ℝ) : Matrix (Fin m) (Fin n) ℝ :=
  U * diagonal (kept S rcond) * Vh

theorem sInv_eq (S : Fin (k + 1) → ℝ) (rcond : Option ℝ) (i : Fin (k + 1)) : sInv S rcond i = if kept S rcond i = 0 then 0 else 1 / kept S rcond i := by
  unfold sInv kept
  cases rcond with
  | none =>
    by_cases h : 0 < S i
    · simp [h, h.ne']
    · simp [h]
  | some r =>
    by_cases h : 0 < S i
    · by_cases h2 : S i < r * S 0
      · simp [h2]
      · simp [h, h2, h.ne', not_lt.mp h2]
    · by_cases h2 : S i < r * S 0 <;> simp [h, h2]

/-- Squared length. -/
def len2 {d : ℕ} (x : Fin d → ℝ) : ℝ := x ⬝ᵥ x

theorem len2_nonneg {d : ℕ} (x : Fin d → ℝ) : 0 ≤ len2 x := by
  unfold len2 dotProduct
  exact Finset.sum_nonneg fun i _ => mul_self_nonneg (x i)

theorem len2_add {d : ℕ} (x y : Fin d → ℝ) : len2 (x + y) = len2 x + 2 * (x ⬝ᵥ y) + len2 y := by
  unfold len2
  rw [add_dotProduct, dotProduct_add, dotProduct_add, dotProduct_comm y x]
  ring

variable {U : Matrix (Fin m) (Fin (k + 1)) ℝ} {S : Fin (k + 1) → ℝ} {Vh : Matrix (Fin (k + 1)) (Fin n) ℝ}

/-- The residual is orthogonal to everything which the correctors can reach. -/
theorem normal_eq (hU : Uᵀ * U = 1) (hV : Vh * Vhᵀ = 1) (rcond : Option ℝ) (x : Fin m → ℝ) :
    (reduced U S Vh rcond)ᵀ *ᵥ (x + reduced U S Vh rcond *ᵥ correction U S Vh rcond x) = 0 := by
  set K := diagonal (kept S rcond) with hK
  set D := diagonal (sInv S rcond) with hD
  have hKD : K * K * D = K := by
    rw [hK, hD, diagonal_mul_diagonal, diagonal_mul_diagonal]
    congr 1
    funext i
    rw [sInv_eq]
    split_ifs with h
    · rw [h]; ring
    · field_simp
  have hKT : Kᵀ = K := diagonal_transpose _
  have hRc : reduced U S Vh rcond *ᵥ correction U S Vh rcond x = -((U * K * D * Uᵀ) *ᵥ x) := by
    unfold reduced correction
    rw [mulVec_mulVec, mulVec_mulVec, mulVec_mulVec, mulVec_neg]
    congr 2
    calc U * diagonal (kept S rcond) * Vh * Vhᵀ * diagonal (sInv S rcond) * Uᵀ = U * K * (Vh * Vhᵀ) * D * Uᵀ := by simp only [Matrix.mul_assoc, ← hK, ← hD]
      _ = U * K * D * Uᵀ := by rw [hV, Matrix.mul_one]
  rw [hRc, mulVec_add, mulVec_neg, mulVec_mulVec]
  unfold reduced
  rw [← hK, transpose_mul, transpose_mul, hKT]
  have : Vhᵀ * (K * Uᵀ) * (U * K * D * Uᵀ) = Vhᵀ * (K * Uᵀ) := by
    calc Vhᵀ * (K * Uᵀ) * (U * K * D * Uᵀ) = Vhᵀ * (K * (Uᵀ * U) * K * D) * Uᵀ := by simp only [Matrix.mul_assoc]
      _ = Vhᵀ * (K * Uᵀ) := by rw [hU, Matrix.mul_one, hKD, Matrix.mul_assoc]
  rw [this, add_neg_cancel]

/-- **C130, best correction.**  On a machine with the response given by the kept singular values, no other kicks bring the monitors closer to zero. -/
theorem C130_best (hU : Uᵀ * U = 1) (hV : Vh * Vhᵀ = 1) (rcond : Option ℝ) (x : Fin m → ℝ) (c : Fin n → ℝ) :
    len2 (x + reduced U S Vh rcond *ᵥ correction U S Vh rcond x) ≤ len2 (x + reduced U S Vh rcond *ᵥ c) := by
  set R := reduced U S Vh rcond
  set c0 := correction U S Vh rcond x
  have e : x + R *ᵥ c = (x + R *ᵥ c0) + R *ᵥ (c - c0) := by rw [mulVec_sub]; abel
  have h0 : (x + R *ᵥ c0) ⬝ᵥ (R *ᵥ (c - c0)) = 0 := by
    rw [dotProduct_mulVec, ← mulVec_transpose, normal_eq hU hV rcond x, zero_dotProduct]
  rw [e, len2_add (x + R *ᵥ c0), h0]
  linarith [len2_nonneg (R *ᵥ (c - c0))]

/-- **C130, smallest kicks.**  Among all kicks which are as good, the correction is the smallest. -/
theorem C130_smallest (hU : Uᵀ * U = 1) (hV : Vh * Vhᵀ = 1) (rcond : Option ℝ) (x : Fin m → ℝ) (c : Fin n → ℝ)
    (hc : len2 (x + reduced U S Vh rcond *ᵥ c) = len2 (x + reduced U S Vh rcond *ᵥ correction U S Vh rcond x)) : len2 (correction U S Vh rcond x) ≤ len2 c := by
  set R := reduced U S Vh rcond with hR
  set c0 := correction U S Vh rcond x with hc0
  have e : x + R *ᵥ c = (x + R *ᵥ c0) + R *ᵥ (c - c0) := by rw [mulVec_sub]; abel
  have h0 : (x + R *ᵥ c0) ⬝ᵥ (R *ᵥ (c - c0)) = 0 := by
    rw [dotProduct_mulVec, ← mulVec_transpose, normal_eq hU hV rcond x, zero_dotProduct]
  rw [e, len2_add (x + R *ᵥ c0) (R *ᵥ (c - c0)), h0] at hc
  have hz : R *ᵥ (c - c0) = 0 := by
    have : len2 (R *ᵥ (c - c0)) = 0 := by linarith
    funext i
    unfold len2 dotProduct at this
    have hi := (Finset.sum_eq_zero_iff_of_nonneg fun i _ => mul_self_nonneg ((R *ᵥ (c - c0)) i)).mp this i (Finset.mem_univ i)
    exact mul_self_eq_zero.mp hi
  -- the kept part of the difference vanishes
  have hk : diagonal (kept S rcond) *ᵥ (Vh *ᵥ (c - c0)) = 0 := by
    have : Uᵀ *ᵥ (R *ᵥ (c - c0)) = 0 := by rw [hz, mulVec_zero]
    rw [hR] at this
    unfold reduced at this
    rw [mulVec_mulVec, ← Matrix.mul_assoc, ← Matrix.mul_assoc, hU, Matrix.one_mul, ← mulVec_mulVec] at this
    exact this
  have ho : c0 ⬝ᵥ (c - c0) = 0 := by
    generalize c - c0 = d at hk
    rw [hc0]
    unfold correction
    rw [mulVec_transpose, ← dotProduct_mulVec]
    apply Finset.sum_eq_zero
    intro i _
    have hi : kept S rcond i * (Vh *ᵥ d) i = 0 := by
      have := congrFun hk i
      rwa [mulVec_diagonal] at this
    rw [mulVec_diagonal, sInv_eq]
    split_ifs with h
    · rw [zero_mul, zero_mul]
    · rcases mul_eq_zero.mp hi with h' | h'
      · exact absurd h' h
      · rw [h', mul_zero]
  have e2 : c = c0 + (c - c0) := by abel
  rw [e2, len2_add c0 (c - c0), ho]
  linarith [len2_nonneg (c - c0)]

/-- Without a cutoff and with positive singular values all of the response matrix is kept. -/
theorem C130_all (hS : ∀ i, 0 < S i) : reduced U S Vh none = U * diagonal S * Vh := by
  unfold reduced
  congr 3
  funext i
  simp [kept, hS i]

/-- **C130, exact correction.**  If some kicks bring all monitors to zero, the correction does. -/
theorem C130_exact (hU : Uᵀ * U = 1) (hV : Vh * Vhᵀ = 1) (rcond : Option ℝ) (x : Fin m → ℝ) (c : Fin n → ℝ) (hc : x + reduced U S Vh rcond *ᵥ c = 0) :
    x + reduced U S Vh rcond *ᵥ correction U S Vh rcond x = 0 := by
  have h := C130_best (S := S) hU hV rcond x c
  rw [hc] at h
  have h0 : len2 (x + reduced U S Vh rcond *ᵥ correction U S Vh rcond x) = 0 :=
    le_antisymm (h.trans (by simp [len2])) (len2_nonneg _)
  funext i
  unfold len2 dotProduct at h0
  exact mul_self_eq_zero.mp ((Finset.sum_eq_zero_iff_of_nonneg fun i _ => mul_self_nonneg _).mp h0 i (Finset.mem_univ i))

/-- The first `k' + 1` singular values with their vectors, `n_singular_values`: the columns stay orthonormal, so that all of the above holds for them. -/
theorem C130_truncated {k' : ℕ} (h : k' + 1 ≤ k + 1) (hU : Uᵀ * U = 1) (hV : Vh * Vhᵀ = 1) (S : Fin (k + 1) → ℝ) (rcond : Option ℝ) (x : Fin m → ℝ) (c : Fin n → ℝ) :
    len2 (x + reduced (firstU h U) (firstS h S) (firstV h Vh) rcond *ᵥ correction (firstU h U) (firstS h S) (firstV h Vh) rcond x)
      ≤ len2 (x + reduced (firstU h U) (firstS h S) (firstV h Vh) rcond *ᵥ c) := by
  apply C130_best
  · ext i j
    have := congrFun (congrFun hU (Fin.castLE h i)) (Fin.castLE h j)
    simp only [mul_apply, transpose_apply, one_apply, firstU, submatrix_apply, id] at this ⊢
    rw [this]
    simp
  · ext i j
    have := congrFun (congrFun hV (Fin.castLE h i)) (Fin.castLE h j)
    simp only [mul_apply, transpose_apply, one_apply, firstV, submatrix_apply, id] at this ⊢
    rw [this]
    simp

/-- The singular values which are kept are the largest ones (the decomposition gives them in decreasing order), each with its own
two vectors. -/
theorem C130_largest {k' : ℕ} (h : k' + 1 ≤ k + 1) (S : Fin (k + 1) → ℝ) (hS : Antitone S) (i : Fin (k' + 1)) :
    (∀ j : Fin (k + 1), k' < j.1 → S j ≤ firstS h S i) ∧
    ∃ a : Fin (k + 1), a.1 = i.1 ∧ firstS h S i = S a ∧ (∀ r, firstU h U r i = U r a) ∧ ∀ c, firstV h Vh i c = Vh a c := by
  constructor
  · intro j hj
    have hi := i.2
    exact hS (by rw [Fin.le_def, Fin.val_castLE]; omega)
  · exact ⟨Fin.castLE h i, rfl, rfl, fun _ => rfl, fun _ => rfl⟩

example : Antitone (fun i : Fin 3 => (3 - (i.1 : ℝ))) := fun i j h => by
  have : (i.1 : ℝ) ≤ j.1 := by exact_mod_cast h
  simp only; linarith

/-- **C130, violated: correctors after the last monitor.**  On an open line, choosing the best correctors fails as soon as a corrector is at or after the last monitor:
it cannot move the trajectory, its least squares problem has no full rank, and numpy returns no residual for it. -/
theorem C130_micado_violated (betM muM : Fin m → ℝ) (betC muC : Fin n → ℝ) (pick : Finset (Fin n) → Fin n) (j : Fin n) (hj : ∀ i, muM i ≤ muC j) (nm : ℕ) :
    micado (Matrix.of fun i j => responseOpen (betM i) (betC j) (muM i) (muC j)) pick (nm + 1) = .error .indexError := by
  have h0 : ¬hasResidual (Matrix.of fun i j => responseOpen (betM i) (betC j) (muM i) (muC j)) {j} := by
    rintro ⟨hr, -⟩
    rw [Finset.card_singleton] at hr
    have hz : (Matrix.of fun i j => responseOpen (betM i) (betC j) (muM i) (muC j)).submatrix id (fun a : ({j} : Finset (Fin n)) => a.1) = 0 := by
      ext i ⟨a, ha⟩
      rw [Finset.mem_singleton] at ha
      subst ha
      simp only [submatrix_apply, of_apply, Matrix.zero_apply, id]
      unfold responseOpen
      simp only
      rcases lt_or_eq_of_le (hj i) with h | h
      · rw [if_pos (by linarith)]; simp
      · rw [if_neg (by linarith), h]; simp
    rw [hz, rank_zero] at hr
    exact absurd hr (by norm_num)
  induction nm with
  | zero =>
    show micadoStep _ pick ∅ = _
    unfold micadoStep
    rw [if_neg]
    intro h
    exact h0 (h j (Finset.notMem_empty j))
  | succ nm ih =>
    unfold micado
    rw [ih]

/-- **C130, choice of correctors.**  With independent columns, more monitors than correctors to be chosen, and a choice among those not used, the given number of
correctors is chosen. -/
theorem C130_micado_partial (R : Matrix (Fin m) (Fin n) ℝ) (pick : Finset (Fin n) → Fin n) (hp : ∀ used, used ≠ Finset.univ → pick used ∉ used)
    (hR : LinearIndependent ℝ R.col) (nm : ℕ) (hm : nm < m) (hn : nm ≤ n) : ∃ used, micado R pick nm = .ok used ∧ used.card = nm := by
  have hres : ∀ act : Finset (Fin n), act.card < m → hasResidual R act := by
    intro act ha
    refine ⟨?_, ha⟩
    have hli : LinearIndependent ℝ (R.submatrix id (fun a : act => a.1))ᵀ.row := hR.comp (fun a : act => a.1) Subtype.val_injective
    have := hli.rank_matrix
    rw [rank_transpose, Fintype.card_coe] at this
    exact this
  induction nm with
  | zero => exact ⟨∅, rfl, rfl⟩
  | succ nm ih =>
    obtain ⟨used, h1, h2⟩ := ih (by omega) (by omega)
    unfold micado
    rw [h1]
    have hu : used ≠ Finset.univ := by
      rintro rfl
      rw [Finset.card_univ, Fintype.card_fin] at h2
      omega
    refine ⟨insert (pick used) used, ?_, by rw [Finset.card_insert_of_notMem (hp used hu), h2]⟩
    show micadoStep R pick used = _
    unfold micadoStep
    rw [if_pos, if_neg hu]
    · intro j hj
      apply hres
      rw [Finset.card_insert_of_notMem hj]
      omega

/-- Orthonormal factors exist: one monitor and one corrector. -/
example : ∃ (U : Matrix (Fin 1) (Fin (0 + 1)) ℝ) (S : Fin (0 + 1) → ℝ) (Vh : Matrix (Fin (0 + 1)) (Fin 1) ℝ), Uᵀ * U = 1 ∧ Vh * Vhᵀ = 1 ∧ ∀ i, 0 < S i :=
  ⟨1, fun _ => 2, 1, by simp, by simp, fun _ => by norm_num⟩

end best

end Verif.Steer
