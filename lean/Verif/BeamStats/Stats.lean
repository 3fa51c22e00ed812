import Verif.BeamStats.Coasting
import Mathlib.Algebra.QuadraticDiscriminant
import Mathlib.Analysis.SpecialFunctions.Sqrt
import Mathlib.Algebra.Order.BigOperators.Group.List
import Mathlib.Tactic.LinearCombination

/-!
# C176: statistics computed from the stored sums; C177: every sum which is needed is stored

Model of `_mean_from_moments`, `_cov_from_moments`, `_compute_stat_from_moments`,
`_projected_gemitt_from_moments`, `_moments_for_stat` and of the choice of arrays in the
constructor of `BeamStatsMonitor`.
-/

namespace Verif.BeamStats

/-! ## Model of the statistics -/

/-- beam_stats_monitor.py:1108-1115 `_mean_from_moments` (for one entry). -/
noncomputable def meanOf (W S : ℝ) : ℝ := if 0 < W then S / W else 0

/-- beam_stats_monitor.py:1117-1129 `_cov_from_moments`. -/
noncomputable def covOf (W S1 S2 S12 : ℝ) : ℝ :=
  (if 0 < W then S12 / W else 0) - meanOf W S1 * meanOf W S2

/-- beam_stats_monitor.py:1087-1089: `sigma_<coord>`. -/
noncomputable def sigmaOf (W S SS : ℝ) : ℝ := Real.sqrt (max (covOf W S S SS) 0)

/-- beam_stats_monitor.py:1131-1142 `_projected_gemitt_from_moments`. -/
noncomputable def gemittOf (W S1 S2 S11 S22 S12 : ℝ) : ℝ :=
  Real.sqrt (max (covOf W S1 S1 S11 * covOf W S2 S2 S22 - covOf W S1 S2 S12 ^ 2) 0)

/-- beam_stats_monitor.py:1093-1103: `nemitt_<plane>_projected`. -/
noncomputable def nemittOf (W SB S1 S2 S11 S22 S12 : ℝ) : ℝ :=
  gemittOf W S1 S2 S11 S22 S12 * (if 0 < W then SB / W else 0)

/-! ## Specification: statistics of weighted samples -/

/-- A weighted sum over the particles. -/
def wsum (f : Part ℝ → ℝ) (ps : List (Part ℝ)) : ℝ := (ps.map (fun p => p.weight * f p)).sum

/-- The weighted covariance about the mean values `a` and `b`. -/
noncomputable def spread (f g : Part ℝ → ℝ) (a b : ℝ) (ps : List (Part ℝ)) : ℝ :=
  wsum (fun p => (f p - a) * (g p - b)) ps / wsum (fun _ => 1) ps

/-- The weighted mean value. -/
noncomputable def average (f : Part ℝ → ℝ) (ps : List (Part ℝ)) : ℝ :=
  wsum f ps / wsum (fun _ => 1) ps

/-! ## Lemmas -/

theorem wsum_add (f g : Part ℝ → ℝ) (ps : List (Part ℝ)) :
    wsum (fun p => f p + g p) ps = wsum f ps + wsum g ps := by
  induction ps with
  | nil => simp [wsum]
  | cons p ps ih => simp only [wsum, List.map_cons, List.sum_cons] at *; rw [ih]; ring

theorem wsum_mul (a : ℝ) (f : Part ℝ → ℝ) (ps : List (Part ℝ)) :
    wsum (fun p => a * f p) ps = a * wsum f ps := by
  induction ps with
  | nil => simp [wsum]
  | cons p ps ih => simp only [wsum, List.map_cons, List.sum_cons] at *; rw [ih]; ring

theorem wsum_nonneg (f : Part ℝ → ℝ) (ps : List (Part ℝ)) (hw : ∀ p ∈ ps, 0 ≤ p.weight)
    (hf : ∀ p, 0 ≤ f p) : 0 ≤ wsum f ps := by
  unfold wsum
  apply List.sum_nonneg
  intro x hx
  obtain ⟨p, hp, rfl⟩ := List.mem_map.1 hx
  exact mul_nonneg (hw p hp) (hf p)

theorem wsum_expand (f g : Part ℝ → ℝ) (a b : ℝ) (ps : List (Part ℝ)) :
    wsum (fun p => (f p - a) * (g p - b)) ps =
      wsum (fun p => f p * g p) ps - b * wsum f ps - a * wsum g ps + a * b * wsum (fun _ => 1) ps := by
  have e : (fun p => (f p - a) * (g p - b)) =
      fun p => ((f p * g p + (-b) * f p) + (-a) * g p) + (a * b) * (fun _ => (1 : ℝ)) p := by
    funext p; ring
  rw [e, wsum_add, wsum_add, wsum_add, wsum_mul, wsum_mul, wsum_mul]
  ring

/-- The inequality of Cauchy and Schwarz for weighted sums. -/
theorem cauchy (f g : Part ℝ → ℝ) (ps : List (Part ℝ)) (hw : ∀ p ∈ ps, 0 ≤ p.weight) :
    wsum (fun p => f p * g p) ps ^ 2 ≤ wsum (fun p => f p * f p) ps * wsum (fun p => g p * g p) ps := by
  have h : ∀ t : ℝ, 0 ≤ wsum (fun p => g p * g p) ps * (t * t) +
      (2 * wsum (fun p => f p * g p) ps) * t + wsum (fun p => f p * f p) ps := by
    intro t
    have h1 := wsum_nonneg (fun p => (f p + t * g p) * (f p + t * g p)) ps hw
      (fun p => mul_self_nonneg _)
    have e : (fun p => (f p + t * g p) * (f p + t * g p)) =
        fun p => (f p * f p + (2 * t) * (f p * g p)) + (t * t) * (g p * g p) := by
      funext p; ring
    rw [e, wsum_add, wsum_add, wsum_mul (2 * t) (fun p => f p * g p),
      wsum_mul (t * t) (fun p => g p * g p)] at h1
    linarith
  have := discrim_le_zero h
  unfold discrim at this
  nlinarith

/-! ## C176 -/

/-- C176 (mean): the mean value is the one about which the weighted deviations cancel. -/
theorem C176_mean (f : Part ℝ → ℝ) (ps : List (Part ℝ)) (hW : 0 < wsum (fun _ => 1) ps) :
    meanOf (wsum (fun _ => 1) ps) (wsum f ps) = average f ps ∧
      wsum (fun p => f p - meanOf (wsum (fun _ => 1) ps) (wsum f ps)) ps = 0 := by
  have e : meanOf (wsum (fun _ => 1) ps) (wsum f ps) = average f ps := if_pos hW
  refine ⟨e, ?_⟩
  rw [e]
  have e2 : (fun p => f p - average f ps) = fun p => f p + (-average f ps) * (fun _ => (1 : ℝ)) p := by
    funext p; ring
  rw [e2, wsum_add, wsum_mul]
  unfold average
  field_simp
  ring

/-- C176 (covariance): the covariance computed from the sums is the weighted mean of the product
of the deviations from the mean values. -/
theorem C176_cov (f g : Part ℝ → ℝ) (ps : List (Part ℝ)) (hW : 0 < wsum (fun _ => 1) ps) :
    covOf (wsum (fun _ => 1) ps) (wsum f ps) (wsum g ps) (wsum (fun p => f p * g p) ps) =
      spread f g (average f ps) (average g ps) ps := by
  unfold covOf spread meanOf
  rw [if_pos hW, if_pos hW, if_pos hW, wsum_expand]
  unfold average
  field_simp
  ring

/-- C176 (sigma): with weights which are not negative, the variance is not negative, so that the
cut at zero does nothing, and sigma is its root. -/
theorem C176_sigma (f : Part ℝ → ℝ) (ps : List (Part ℝ)) (hW : 0 < wsum (fun _ => 1) ps)
    (hw : ∀ p ∈ ps, 0 ≤ p.weight) :
    0 ≤ spread f f (average f ps) (average f ps) ps ∧
    0 ≤ sigmaOf (wsum (fun _ => 1) ps) (wsum f ps) (wsum (fun p => f p * f p) ps) ∧
    sigmaOf (wsum (fun _ => 1) ps) (wsum f ps) (wsum (fun p => f p * f p) ps) ^ 2 =
      spread f f (average f ps) (average f ps) ps := by
  have h0 : 0 ≤ spread f f (average f ps) (average f ps) ps :=
    div_nonneg (wsum_nonneg _ ps hw (fun p => mul_self_nonneg _)) hW.le
  refine ⟨h0, Real.sqrt_nonneg _, ?_⟩
  unfold sigmaOf
  rw [C176_cov f f ps hW, max_eq_left h0, Real.sq_sqrt h0]

/-- C176 (emittance): with weights which are not negative, the projected emittance is the root of
the determinant of the covariance matrix of the plane, which is not negative. -/
theorem C176_emittance (f g : Part ℝ → ℝ) (ps : List (Part ℝ)) (hW : 0 < wsum (fun _ => 1) ps)
    (hw : ∀ p ∈ ps, 0 ≤ p.weight) :
    0 ≤ gemittOf (wsum (fun _ => 1) ps) (wsum f ps) (wsum g ps) (wsum (fun p => f p * f p) ps)
      (wsum (fun p => g p * g p) ps) (wsum (fun p => f p * g p) ps) ∧
    gemittOf (wsum (fun _ => 1) ps) (wsum f ps) (wsum g ps) (wsum (fun p => f p * f p) ps)
      (wsum (fun p => g p * g p) ps) (wsum (fun p => f p * g p) ps) ^ 2 =
      spread f f (average f ps) (average f ps) ps * spread g g (average g ps) (average g ps) ps
        - spread f g (average f ps) (average g ps) ps ^ 2 := by
  refine ⟨Real.sqrt_nonneg _, ?_⟩
  have h0 : 0 ≤ spread f f (average f ps) (average f ps) ps *
      spread g g (average g ps) (average g ps) ps - spread f g (average f ps) (average g ps) ps ^ 2 := by
    have := cauchy (fun p => f p - average f ps) (fun p => g p - average g ps) ps hw
    unfold spread
    rw [div_mul_div_comm, div_pow, ← sq, ← sub_div]
    exact div_nonneg (by linarith) (sq_nonneg _)
  unfold gemittOf
  rw [C176_cov f f ps hW, C176_cov g g ps hW, C176_cov f g ps hW, max_eq_left h0, Real.sq_sqrt h0]

/-- C176 (no particles): without weight everything is zero. -/
theorem C176_empty (S1 S2 S11 S22 S12 SB : ℝ) : meanOf 0 S1 = 0 ∧ covOf 0 S1 S2 S12 = 0 ∧
    sigmaOf 0 S1 S11 = 0 ∧ gemittOf 0 S1 S2 S11 S22 S12 = 0 ∧ nemittOf 0 SB S1 S2 S11 S22 S12 = 0 := by
  have e : ∀ a b c, covOf 0 a b c = 0 := by intro a b c; simp [covOf, meanOf]
  refine ⟨by simp [meanOf], e _ _ _, ?_, ?_, ?_⟩
  · simp [sigmaOf, e]
  · simp [gemittOf, e]
  · simp [nemittOf]

theorem average_lin (a b : ℝ) (f g : Part ℝ → ℝ) (ps : List (Part ℝ)) :
    average (fun p => a * f p + b * g p) ps = a * average f ps + b * average g ps := by
  unfold average
  rw [wsum_add (fun p => a * f p) (fun p => b * g p), wsum_mul, wsum_mul]
  ring

theorem spread_lin (a b c d : ℝ) (f g : Part ℝ → ℝ) (ps : List (Part ℝ)) :
    spread (fun p => a * f p + b * g p) (fun p => c * f p + d * g p)
      (average (fun p => a * f p + b * g p) ps) (average (fun p => c * f p + d * g p) ps) ps =
      a * c * spread f f (average f ps) (average f ps) ps
        + (a * d + b * c) * spread f g (average f ps) (average g ps) ps
        + b * d * spread g g (average g ps) (average g ps) ps := by
  rw [average_lin, average_lin]
  set x := average f ps
  set y := average g ps
  unfold spread
  have e : (fun p => (a * f p + b * g p - (a * x + b * y)) * (c * f p + d * g p - (c * x + d * y))) =
      fun p => ((a * c) * ((f p - x) * (f p - x)) + (a * d + b * c) * ((f p - x) * (g p - y)))
        + (b * d) * ((g p - y) * (g p - y)) := by
    funext p; ring
  rw [e, wsum_add, wsum_add, wsum_mul (a * c) (fun p => (f p - x) * (f p - x)),
    wsum_mul (a * d + b * c) (fun p => (f p - x) * (g p - y)),
    wsum_mul (b * d) (fun p => (g p - y) * (g p - y))]
  ring

/-- C176 (invariance): a linear map of the plane with determinant one does not change the
projected emittance reported. -/
theorem C176_invariant (a b c d : ℝ) (hdet : a * d - b * c = 1) (f g : Part ℝ → ℝ)
    (ps : List (Part ℝ)) (hW : 0 < wsum (fun _ => 1) ps) (hw : ∀ p ∈ ps, 0 ≤ p.weight) :
    let f' := fun p => a * f p + b * g p
    let g' := fun p => c * f p + d * g p
    gemittOf (wsum (fun _ => 1) ps) (wsum f' ps) (wsum g' ps) (wsum (fun p => f' p * f' p) ps)
      (wsum (fun p => g' p * g' p) ps) (wsum (fun p => f' p * g' p) ps) =
    gemittOf (wsum (fun _ => 1) ps) (wsum f ps) (wsum g ps) (wsum (fun p => f p * f p) ps)
      (wsum (fun p => g p * g p) ps) (wsum (fun p => f p * g p) ps) := by
  intro f' g'
  obtain ⟨h1, h2⟩ := C176_emittance f' g' ps hW hw
  obtain ⟨h3, h4⟩ := C176_emittance f g ps hW hw
  refine (sq_eq_sq₀ h1 h3).1 ?_
  rw [h2, h4]
  have e1 := spread_lin a b a b f g ps
  have e2 := spread_lin c d c d f g ps
  have e3 := spread_lin a b c d f g ps
  show spread f' f' _ _ ps * spread g' g' _ _ ps - spread f' g' _ _ ps ^ 2 = _
  rw [e1, e2, e3]
  set X := spread f f (average f ps) (average f ps) ps
  set Y := spread g g (average g ps) (average g ps) ps
  set Z := spread f g (average f ps) (average g ps) ps
  linear_combination (X * Y - Z ^ 2) * (a * d - b * c + 1) * hdet

open Classical in
/-- C176 (of the monitor): where an entry holds totals over the particles with property `P`, as by
C172, C173 and C174, the covariance reported for it is the weighted covariance of just those
particles. -/
theorem C176_entry (P : Part ℝ → Prop) (z : Part ℝ → ℝ) (ps : List (Part ℝ)) (a b : Coord)
    (hW : 0 < total P (weighted .one z) ps) :
    let qs := ps.filter (fun p => decide (P p))
    let val := fun (a : Coord) (p : Part ℝ) => if a = .zeta then z p else p.q a
    meanOf (total P (weighted .one z) ps) (total P (weighted (.first a) z) ps) = average (val a) qs ∧
    covOf (total P (weighted .one z) ps) (total P (weighted (.first a) z) ps)
      (total P (weighted (.first b) z) ps) (total P (weighted (.second a b) z) ps) =
      spread (val a) (val b) (average (val a) qs) (average (val b) qs) qs := by
  intro qs val
  have e1 : total P (weighted .one z) ps = wsum (fun _ => 1) qs := rfl
  have e2 : ∀ a, total P (weighted (.first a) z) ps = wsum (val a) qs := fun a => rfl
  have e3 : total P (weighted (.second a b) z) ps = wsum (fun p => val a p * val b p) qs := rfl
  rw [e1] at hW
  rw [e1, e2, e2, e3]
  exact ⟨(C176_mean (val a) qs hW).1, C176_cov (val a) (val b) qs hW⟩

example : 0 < wsum (fun _ => 1) [⟨1, 0, 0, 2, 0, fun _ => 3⟩, ⟨1, 0, 0, 1, 0, fun _ => 6⟩] ∧
    average (fun p => p.q .x) [⟨1, 0, 0, 2, 0, fun _ => 3⟩, ⟨1, 0, 0, 1, 0, fun _ => 6⟩] = 4 := by
  constructor
  · simp [wsum]; norm_num
  · simp [average, wsum]; norm_num

/-! ## C177: which sums are stored -/

/-- The planes of the emittances, `_PLANES`: beam_stats_monitor.py:8-17 (imported from
covariance.py). -/
inductive Plane | x | y | zeta
  deriving DecidableEq, Repr

/-- The names of the statistics, by their form: beam_stats_monitor.py:1288-1330, 1078-1106. -/
inductive Stat
  | num | mean (a : Coord) | sumOf (a : Coord) | sigma (a : Coord) | cov (a b : Coord)
  | projected (normalised : Bool) (p : Plane) | coupled (normalised : Bool) (p : Plane) | optics
  deriving DecidableEq, Repr

/-- `_COORDS.index`: beam_stats_monitor.py:19-21; `none` is the exception of `_check_coord`. -/
def rank : Coord → Option ℕ
  | .x => some 0 | .px => some 1 | .y => some 2 | .py => some 3 | .zeta => some 4
  | .delta => some 5 | .pzeta => some 6 | .charge => none | .mass => none

/-- beam_stats_monitor.py:1450-1462 `_moment_name`. -/
def momentName (a b : Coord) : Option Moment :=
  match rank a, rank b with
  | some i, some j => if i ≤ j then some (.second a b) else some (.second b a)
  | _, _ => none

/-- `_SECOND_MOMENTS`: beam_stats_monitor.py:37-46; the product of delta and pzeta is missing. -/
def secondMoments : List Moment :=
  [.second .x .x, .second .x .px, .second .x .y, .second .x .py, .second .x .zeta,
   .second .x .delta, .second .x .pzeta,
   .second .px .px, .second .px .y, .second .px .py, .second .px .zeta, .second .px .delta,
   .second .px .pzeta,
   .second .y .y, .second .y .py, .second .y .zeta, .second .y .delta, .second .y .pzeta,
   .second .py .py, .second .py .zeta, .second .py .delta, .second .py .pzeta,
   .second .zeta .zeta, .second .zeta .delta, .second .zeta .pzeta,
   .second .delta .delta,
   .second .pzeta .pzeta]

/-- `_CANONICAL_COORDS`: x, px, y, py, zeta, pzeta. -/
def canonical : List Coord := [.x, .px, .y, .py, .zeta, .pzeta]

/-- `_FULL_COVARIANCE_MOMENTS`: beam_stats_monitor.py:53-58. -/
def fullMoments : List Moment :=
  canonical.map .first ++
    (canonical.zipIdx.flatMap (fun a => (canonical.drop a.2).map (fun b => .second a.1 b)))

/-- Coordinate and momentum of a plane. -/
def planeCoords : Plane → Coord × Coord
  | .x => (.x, .px) | .y => (.y, .py) | .zeta => (.zeta, .pzeta)

/-- beam_stats_monitor.py:1288-1330 `_moments_for_stat`; `none` is an exception. -/
def momentsFor : Stat → Option (List Moment)
  | .num => some []
  | .optics => some fullMoments
  | .mean a => some [.first a]
  | .sumOf a => if a = .charge ∨ a = .mass then some [.first a] else none
  | .sigma a => (momentName a a).map (fun m => [.first a, m])
  | .cov a b =>
    match momentName a b with
    | none => none
    | some m => if m ∈ secondMoments then some [.first a, .first b, m] else none
  | .coupled _ _ => some fullMoments
  | .projected _ p =>
    let (a, b) := planeCoords p
    match momentName a a, momentName b b, momentName a b with
    | some m1, some m2, some m3 => some [.first a, .first b, m1, m2, m3]
    | _, _, _ => none

/-- The sums which are read when the statistic is computed: beam_stats_monitor.py:1078-1160. -/
def reads : Stat → List (Option Moment)
  | .num => [some .one]
  | .optics => some .one :: some .bg :: canonical.flatMap (fun a => canonical.flatMap (fun b =>
      [some (.first a), some (.first b), momentName a b]))
  | .mean a => [some .one, some (.first a)]
  | .sumOf a => [some (.first a)]
  | .sigma a => [some .one, some (.first a), momentName a a]
  | .cov a b => [some .one, some (.first a), some (.first b), momentName a b]
  | .coupled _ _ => some .one :: some .bg :: canonical.flatMap (fun a => canonical.flatMap (fun b =>
      [some (.first a), some (.first b), momentName a b]))
  | .projected _ p =>
    let (a, b) := planeCoords p
    [some .one, some .bg, some (.first a), some (.first b), momentName a a, momentName b b,
      momentName a b]

/-- Which arrays get a length: beam_stats_monitor.py:478-488 (`num_particles` and
`sum_beta0_gamma0` always). -/
def stored (stats : List Stat) (m : Moment) : Bool :=
  m = .one || m = .bg || stats.any (fun s => ((momentsFor s).getD []).contains m)

/-- Whether the constructor accepts the statistics: `_moments_for_stats` and
`_field_name_from_moment` raise nothing: beam_stats_monitor.py:1278-1286, 1465-1471. -/
def accepted (stats : List Stat) : Prop :=
  ∀ s ∈ stats, ∃ l, momentsFor s = some l ∧ ∀ m ∈ l, (∃ a, m = .first a) ∨ m ∈ secondMoments

theorem reads_momentsFor (s : Stat) (l : List Moment) (h : momentsFor s = some l) :
    ∀ m ∈ reads s, ∃ k, m = some k ∧ (k = .one ∨ k = .bg ∨ k ∈ l) := by
  cases s with
  | num => intro m hm; simp [reads] at hm; exact ⟨.one, hm, Or.inl rfl⟩
  | mean a =>
    obtain rfl := Option.some.inj h
    intro m hm
    simp only [reads, List.mem_cons, List.not_mem_nil, or_false] at hm
    rcases hm with rfl | rfl
    · exact ⟨_, rfl, Or.inl rfl⟩
    · exact ⟨_, rfl, Or.inr (Or.inr (by simp))⟩
  | sumOf a =>
    simp only [momentsFor] at h
    split at h
    · obtain rfl := Option.some.inj h
      intro m hm
      simp only [reads, List.mem_cons, List.not_mem_nil, or_false] at hm
      exact ⟨_, hm, Or.inr (Or.inr (by simp))⟩
    · simp at h
  | sigma a =>
    simp only [momentsFor, Option.map_eq_some_iff] at h
    obtain ⟨k, hk, rfl⟩ := h
    intro m hm
    simp only [reads, hk, List.mem_cons, List.not_mem_nil, or_false] at hm
    rcases hm with rfl | rfl | rfl
    · exact ⟨_, rfl, Or.inl rfl⟩
    · exact ⟨_, rfl, Or.inr (Or.inr (by simp))⟩
    · exact ⟨_, rfl, Or.inr (Or.inr (by simp))⟩
  | cov a b =>
    simp only [momentsFor] at h
    split at h
    · simp at h
    · rename_i k hk
      split at h
      · obtain rfl := Option.some.inj h
        intro m hm
        simp only [reads, hk, List.mem_cons, List.not_mem_nil, or_false] at hm
        rcases hm with rfl | rfl | rfl | rfl
        · exact ⟨_, rfl, Or.inl rfl⟩
        · exact ⟨_, rfl, Or.inr (Or.inr (by simp))⟩
        · exact ⟨_, rfl, Or.inr (Or.inr (by simp))⟩
        · exact ⟨_, rfl, Or.inr (Or.inr (by simp))⟩
      · simp at h
  | projected n p =>
    cases p <;> cases n <;> (obtain rfl := Option.some.inj h; decide +kernel)
  | coupled n p =>
    obtain rfl := Option.some.inj h
    show ∀ m ∈ reads .optics, _
    decide +kernel
  | optics =>
    obtain rfl := Option.some.inj h
    decide +kernel

/-- C177: whatever statistics the constructor accepts, every sum which is read when one of them is
computed later has been stored. -/
theorem C177_stored (stats : List Stat) (h : accepted stats) (s : Stat) (hs : s ∈ stats) :
    ∀ m ∈ reads s, ∃ k, m = some k ∧ stored stats k = true := by
  obtain ⟨l, hl, -⟩ := h s hs
  intro m hm
  obtain ⟨k, hk, hq⟩ := reads_momentsFor s l hl m hm
  refine ⟨k, hk, ?_⟩
  unfold stored
  rcases hq with rfl | rfl | hq
  · simp
  · simp
  · have : stats.any (fun s => ((momentsFor s).getD []).contains k) = true := by
      rw [List.any_eq_true]
      exact ⟨s, hs, by rw [hl]; simpa using hq⟩
    rw [this, Bool.or_true]

/-- C177 (what is accepted): all statistics of coordinates are accepted except the covariance of
delta and pzeta, and those of second order in the charge and mass ratio. -/
theorem C177_accepted (s : Stat) : accepted [s] ↔ (match s with
    | .sumOf a => a = .charge ∨ a = .mass
    | .sigma a => a ≠ .charge ∧ a ≠ .mass
    | .cov a b => a ≠ .charge ∧ a ≠ .mass ∧ b ≠ .charge ∧ b ≠ .mass ∧
        ¬ (a = .delta ∧ b = .pzeta) ∧ ¬ (a = .pzeta ∧ b = .delta)
    | _ => True) := by
  have one : accepted [s] ↔ ∃ l, momentsFor s = some l ∧
      ∀ m ∈ l, (∃ a, m = .first a) ∨ m ∈ secondMoments := by
    unfold accepted; simp
  have full : ∀ m ∈ fullMoments, (∃ a, m = .first a) ∨ m ∈ secondMoments := by
    intro m hm
    have : ∀ m ∈ fullMoments, (m ∈ canonical.map Moment.first) ∨ m ∈ secondMoments := by
      decide +kernel
    rcases this m hm with h | h
    · obtain ⟨a, -, rfl⟩ := List.mem_map.1 h; exact Or.inl ⟨a, rfl⟩
    · exact Or.inr h
  have all : ∀ l : List Moment, (∀ m ∈ l, (m ∈ canonical.map Moment.first) ∨ m ∈ secondMoments) →
      ∀ m ∈ l, (∃ a, m = .first a) ∨ m ∈ secondMoments := by
    intro l hl m hm
    rcases hl m hm with h | h
    · obtain ⟨a, -, rfl⟩ := List.mem_map.1 h; exact Or.inl ⟨a, rfl⟩
    · exact Or.inr h
  rw [one]
  cases s with
  | num => exact ⟨fun _ => trivial, fun _ => ⟨[], rfl, by simp⟩⟩
  | mean a => exact ⟨fun _ => trivial, fun _ => ⟨_, rfl, by simp⟩⟩
  | sumOf a => cases a <;> simp [momentsFor]
  | sigma a => cases a <;> simp [momentsFor, momentName, rank, secondMoments]
  | cov a b => cases a <;> cases b <;> simp [momentsFor, momentName, rank, secondMoments]
  | projected n p =>
    refine ⟨fun _ => trivial, fun _ => ?_⟩
    cases p
    · exact ⟨_, rfl, all _ (by decide +kernel)⟩
    · exact ⟨_, rfl, all _ (by decide +kernel)⟩
    · exact ⟨_, rfl, fun m hm => by
        simp [planeCoords] at hm
        rcases hm with rfl | rfl | rfl | rfl | rfl
        · exact Or.inl ⟨_, rfl⟩
        · exact Or.inl ⟨_, rfl⟩
        · exact Or.inr (by decide +kernel)
        · exact Or.inr (by decide +kernel)
        · exact Or.inr (by decide +kernel)⟩
  | coupled n p => exact ⟨fun _ => trivial, fun _ => ⟨_, rfl, full⟩⟩
  | optics => exact ⟨fun _ => trivial, fun _ => ⟨_, rfl, full⟩⟩

example : accepted [.mean .x, .sigma .y] ∧ stored [.mean .x, .sigma .y] (.second .y .y) = true ∧
    stored [.mean .x, .sigma .y] (.second .x .x) = false := by
  refine ⟨?_, by decide +kernel, by decide +kernel⟩
  intro s hs
  simp at hs
  rcases hs with rfl | rfl
  · exact ⟨_, rfl, by simp⟩
  · exact ⟨_, rfl, by simp [secondMoments]⟩

end Verif.BeamStats
