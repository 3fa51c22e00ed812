import Verif.Magnets.DriftLemmas
import Verif.Magnets.DriftSpec
import Mathlib.Analysis.SpecialFunctions.Trigonometric.InverseDeriv
import Mathlib.Analysis.SpecialFunctions.Trigonometric.DerivHyp
import Mathlib.Analysis.SpecialFunctions.Sqrt

/-!
# The drift maps solve the equations of motion
-/

namespace Verif.Magnets

open Frames Filter Topology

noncomputable section

theorem solves_exact (p : Part) (l : ℝ) : Solves (bendRates 0 0) (fun t => driftExact p t) l := by
  have lin : ∀ a b : ℝ, HasDerivAt (fun t => a + b * t) b l := fun a b => by
    simpa using ((hasDerivAt_id' l).const_mul b).const_add a
  refine ⟨?_, ?_, ?_, ?_, ?_, ?_⟩
  · simp only [driftExact, pz_mul]
    refine HasDerivAt.congr_deriv (lin p.x (p.px * (1 / p.pz))) ?_
    simp only [bendRates, Part.pz]
    ring
  · simp only [driftExact, bendRates]
    refine HasDerivAt.congr_deriv (hasDerivAt_const l p.px) ?_
    ring
  · simp only [driftExact, pz_mul]
    refine HasDerivAt.congr_deriv (lin p.y (p.py * (1 / p.pz))) ?_
    simp only [bendRates, Part.pz]
    ring
  · exact hasDerivAt_const l p.py
  · simp only [driftExact, pz_mul]
    refine HasDerivAt.congr_deriv (lin p.zeta (1 - 1 / p.rvv * (1 + p.delta) * (1 / p.pz))) ?_
    simp only [bendRates, Part.pz]
    ring
  · simp only [driftExact]
    simpa using lin p.s 1

theorem solves_expanded {p : Part} (k : p.rpp * (1 + p.delta) = 1) (l : ℝ) :
    Solves (expandedRates 0 0 0) (fun t => driftExpanded p t) l := by
  have lin : ∀ a b : ℝ, HasDerivAt (fun t => a + b * t) b l := fun a b => by
    simpa using ((hasDerivAt_id' l).const_mul b).const_add a
  have hd : 1 + p.delta ≠ 0 := fun h => by rw [h, mul_zero] at k; exact zero_ne_one k
  have hr : p.rpp = 1 / (1 + p.delta) := by rw [eq_div_iff hd]; exact k
  refine ⟨?_, ?_, ?_, ?_, ?_, ?_⟩
  · simp only [driftExpanded]
    refine HasDerivAt.congr_deriv (lin p.x (p.px * p.rpp)) ?_
    simp only [expandedRates, hr]
    ring
  · simp only [driftExpanded, expandedRates]
    refine HasDerivAt.congr_deriv (hasDerivAt_const l p.px) ?_
    ring
  · simp only [driftExpanded]
    refine HasDerivAt.congr_deriv (lin p.y (p.py * p.rpp)) ?_
    simp only [expandedRates, hr]
    ring
  · simp only [driftExpanded, expandedRates]
    refine HasDerivAt.congr_deriv (hasDerivAt_const l p.py) ?_
    ring
  · simp only [driftExpanded]
    have e : (fun t => p.zeta + t * (1 - 1 / p.rvv * (1 + (p.px * p.rpp * (p.px * p.rpp) + p.py * p.rpp * (p.py * p.rpp)) / 2)))
        = fun t => p.zeta + (1 - 1 / p.rvv * (1 + (p.px * p.rpp * (p.px * p.rpp) + p.py * p.rpp * (p.py * p.rpp)) / 2)) * t := by
      funext t
      ring
    rw [e]
    refine HasDerivAt.congr_deriv (lin _ _) ?_
    simp only [expandedRates, hr]
    ring
  · simp only [driftExpanded]
    simpa using lin p.s 1

theorem hasDerivAt_focC (K l : ℝ) : HasDerivAt (focC K) (-K * focS K l) l := by
  unfold focS
  have hfun : ∀ {g : ℝ → ℝ}, (∀ t, focC K t = g t) → focC K = g := fun h => funext h
  split_ifs with h1 h2
  · have hs : Real.sqrt K ≠ 0 := (Real.sqrt_pos.2 h1).ne'
    rw [hfun (g := fun t => Real.cos (Real.sqrt K * t)) (fun t => by unfold focC; rw [if_pos h1])]
    have := ((hasDerivAt_id' l).const_mul (Real.sqrt K)).cos
    refine HasDerivAt.congr_deriv (this) ?_
    have := Real.mul_self_sqrt h1.le
    field_simp
    rw [sq, this]
    ring
  · have h3 : 0 < -K := by linarith
    have hs : Real.sqrt (-K) ≠ 0 := (Real.sqrt_pos.2 h3).ne'
    rw [hfun (g := fun t => Real.cosh (Real.sqrt (-K) * t)) (fun t => by unfold focC; rw [if_neg h1, if_pos h2])]
    have := ((hasDerivAt_id' l).const_mul (Real.sqrt (-K))).cosh
    refine HasDerivAt.congr_deriv (this) ?_
    have := Real.mul_self_sqrt h3.le
    field_simp
    rw [sq, this]
    ring
  · have hK : K = 0 := le_antisymm (not_lt.1 h1) (not_lt.1 h2)
    rw [hfun (g := fun _ => 1) (fun t => by rw [hK, focC_K0])]
    refine HasDerivAt.congr_deriv (hasDerivAt_const l (1 : ℝ)) ?_
    rw [hK]
    ring

theorem hasDerivAt_focS (K l : ℝ) : HasDerivAt (focS K) (focC K l) l := by
  unfold focC
  have hfun : ∀ {g : ℝ → ℝ}, (∀ t, focS K t = g t) → focS K = g := fun h => funext h
  split_ifs with h1 h2
  · have hs : Real.sqrt K ≠ 0 := (Real.sqrt_pos.2 h1).ne'
    rw [hfun (g := fun t => Real.sin (Real.sqrt K * t) / Real.sqrt K) (fun t => by unfold focS; rw [if_pos h1])]
    have := (((hasDerivAt_id' l).const_mul (Real.sqrt K)).sin).div_const (Real.sqrt K)
    refine HasDerivAt.congr_deriv (this) ?_
    field_simp
  · have h3 : 0 < -K := by linarith
    have hs : Real.sqrt (-K) ≠ 0 := (Real.sqrt_pos.2 h3).ne'
    rw [hfun (g := fun t => Real.sinh (Real.sqrt (-K) * t) / Real.sqrt (-K)) (fun t => by unfold focS; rw [if_neg h1, if_pos h2])]
    have := (((hasDerivAt_id' l).const_mul (Real.sqrt (-K))).sinh).div_const (Real.sqrt (-K))
    refine HasDerivAt.congr_deriv (this) ?_
    field_simp
  · have hK : K = 0 := le_antisymm (not_lt.1 h1) (not_lt.1 h2)
    rw [hfun (g := fun t => t) (fun t => by rw [hK, focS_K0])]
    exact hasDerivAt_id' l

theorem hasDerivAt_planeX (K g x b l : ℝ) : HasDerivAt (fun t => planeX K g t x b) (planeB K g l x b) l := by
  have hC := hasDerivAt_focC K l
  have hS := hasDerivAt_focS K l
  by_cases hK : K = 0
  · have e : (fun t => planeX K g t x b) = fun t => x * focC K t + b * focS K t - g * 0.5 * t ^ 2 := by
      funext t
      simp [planeX, hK]
    rw [e]
    have := ((hC.const_mul x).add (hS.const_mul b)).sub (((hasDerivAt_id' l).pow 2).const_mul (g * 0.5))
    refine HasDerivAt.congr_deriv (this) ?_
    subst hK
    simp only [planeB, focC_K0, focS_K0]
    ring
  · have e : (fun t => planeX K g t x b) = fun t => x * focC K t + b * focS K t + g * (focC K t - 1) / K := by
      funext t
      simp [planeX, hK]
    rw [e]
    have := ((hC.const_mul x).add (hS.const_mul b)).add ((((hC.sub_const 1).const_mul g)).div_const K)
    refine HasDerivAt.congr_deriv (this) ?_
    simp only [planeB]
    field_simp
    ring

theorem hasDerivAt_planeB (K g x b l : ℝ) : HasDerivAt (fun t => planeB K g t x b) (-K * planeX K g l x b - g) l := by
  have hC := hasDerivAt_focC K l
  have hS := hasDerivAt_focS K l
  rw [planeA]
  have := (hS.const_mul (-K * x - g)).add (hC.const_mul b)
  refine HasDerivAt.congr_deriv (this) ?_
  ring

theorem hasDerivAt_planeL (K g h x b l : ℝ) (ok : K ≠ 0 ∨ g = 0) :
    HasDerivAt (fun t => planeL K g h t x b) (h * planeX K g l x b + planeB K g l x b ^ 2 / 2) l := by
  have hC := hasDerivAt_focC K l
  have hS := hasDerivAt_focS K l
  have sq := foc_sq K l
  by_cases hK : K = 0
  · have hg : g = 0 := by simpa [hK] using ok
    have e : (fun t => planeL K g h t x b) = fun t => h * t * (3 * t * b + 6 * x - g * t ^ 2) / 6 + 0.5 * b ^ 2 * t := by
      funext t
      simp [planeL, hK]
    rw [e]
    have := ((((hasDerivAt_id' l).const_mul h).mul (((((hasDerivAt_id' l).const_mul 3).mul_const b).add_const (6 * x)).sub
      (((hasDerivAt_id' l).pow 2).const_mul g))).div_const 6).add ((hasDerivAt_id' l).const_mul (0.5 * b ^ 2))
    refine HasDerivAt.congr_deriv (this) ?_
    subst hK hg
    simp only [planeX, planeB, focC_K0, focS_K0, ne_eq, not_true_eq_false, if_false, Pi.sub_apply, Pi.pow_apply]
    ring
  · have e : (fun t => planeL K g h t x b) = fun t =>
        -(h * ((focC K t - 1) * b + focS K t * (-K * x - g) + t * g)) / K
          + ((K * b ^ 2 - (-K * x - g) ^ 2) * (focC K t * focS K t) + ((-K * x - g) ^ 2 + K * b ^ 2) * t
            + 2 * (-K * x - g) * b * (1 - focC K t ^ 2)) / (4 * K) := by
      funext t
      simp only [planeL, ne_eq, hK, not_false_eq_true, if_true, pathQuad_eq hK]
      ring
    rw [e]
    have d1 := (((((hC.sub_const 1).mul_const b).add (hS.mul_const (-K * x - g))).add
      ((hasDerivAt_id' l).mul_const g)).const_mul h).neg.div_const K
    have d2 := ((((hC.mul hS).const_mul (K * b ^ 2 - (-K * x - g) ^ 2)).add
      ((hasDerivAt_id' l).const_mul ((-K * x - g) ^ 2 + K * b ^ 2))).add
      (((hC.pow 2).const_sub 1).const_mul (2 * (-K * x - g) * b))).div_const (4 * K)
    refine HasDerivAt.congr_deriv (d1.add d2) ?_
    simp only [planeX, planeB, ne_eq, hK, not_false_eq_true, if_true]
    generalize focC K l = c at *
    generalize focS K l = s at *
    field_simp
    have e2 : s ^ 2 * K = 1 - c ^ 2 := by linarith
    grind

theorem solves_combined {p : Part} (k0 k1 h l : ℝ) (hd : 1 + p.delta ≠ 0)
    (ok : p.chi * (k0 * h + k1) ≠ 0 ∨ p.chi * k0 = h * (1 + p.delta)) :
    Solves (expandedRates k0 k1 h) (fun t => combined t k0 k1 h p) l := by
  have hd' : p.delta + 1 ≠ 0 := by rwa [add_comm]
  have ok' : p.chi * k0 / (p.delta + 1) * h + p.chi * k1 / (p.delta + 1) ≠ 0 ∨ p.chi * k0 / (p.delta + 1) - h = 0 := by
    rcases ok with ok | ok
    · left
      have : p.chi * k0 / (p.delta + 1) * h + p.chi * k1 / (p.delta + 1) = p.chi * (k0 * h + k1) / (p.delta + 1) := by
        field_simp
      rw [this]
      exact div_ne_zero ok hd'
    · right
      rw [ok]
      field_simp
      ring
  have e : (fun t => combined t k0 k1 h p) = _ := funext fun t => combined_eq t k0 k1 h p
  obtain ⟨K, hK⟩ : ∃ K, K = p.chi * k0 / (p.delta + 1) * h + p.chi * k1 / (p.delta + 1) := ⟨_, rfl⟩
  obtain ⟨g, hg⟩ : ∃ g, g = p.chi * k0 / (p.delta + 1) - h := ⟨_, rfl⟩
  obtain ⟨a1, ha1⟩ : ∃ a1, a1 = p.chi * k1 / (p.delta + 1) := ⟨_, rfl⟩
  rw [e, ← hK, ← hg, ← ha1]
  rw [← hK, ← hg] at ok'
  have hX := hasDerivAt_planeX K g p.x (p.px / (p.delta + 1)) l
  have hB := hasDerivAt_planeB K g p.x (p.px / (p.delta + 1)) l
  have hL := hasDerivAt_planeL K g h p.x (p.px / (p.delta + 1)) l ok'
  have hY := hasDerivAt_planeX (-a1) 0 p.y (p.py / (p.delta + 1)) l
  have hD := hasDerivAt_planeB (-a1) 0 p.y (p.py / (p.delta + 1)) l
  have hM := hasDerivAt_planeL (-a1) 0 0 p.y (p.py / (p.delta + 1)) l (Or.inr rfl)
  refine ⟨?_, ?_, ?_, ?_, ?_, ?_⟩
  · refine HasDerivAt.congr_deriv hX ?_
    simp only [expandedRates]
    rw [add_comm 1, mul_div_cancel_right₀ _ hd']
  · refine HasDerivAt.congr_deriv (hB.mul_const (p.delta + 1)) ?_
    simp only [expandedRates]
    generalize planeX K g l p.x (p.px / (p.delta + 1)) = X
    rw [hK, hg]
    field_simp
    ring
  · refine HasDerivAt.congr_deriv hY ?_
    simp only [expandedRates]
    rw [add_comm 1, mul_div_cancel_right₀ _ hd']
  · refine HasDerivAt.congr_deriv (hD.mul_const (p.delta + 1)) ?_
    simp only [expandedRates]
    rw [ha1]
    field_simp
    ring
  · refine HasDerivAt.congr_deriv (((hasDerivAt_id' l).sub
      ((((hasDerivAt_id' l).add hL).add hM).div_const p.rvv)).const_add p.zeta) ?_
    simp only [expandedRates]
    rw [add_comm 1 p.delta, mul_div_cancel_right₀ _ hd', mul_div_cancel_right₀ _ hd']
    ring
  · exact (hasDerivAt_id' l).const_add p.s

theorem hasDerivAt_pzOf {opd py : ℝ} {f : ℝ → ℝ} {f' l : ℝ} (hf : HasDerivAt f f' l) (h : 0 < opd ^ 2 - f l ^ 2 - py ^ 2) :
    HasDerivAt (fun t => pzOf opd py (f t)) (-(f l * f') / pzOf opd py (f l)) l := by
  have := (((hf.pow 2).const_sub (opd ^ 2)).sub_const (py ^ 2)).sqrt h.ne'
  refine HasDerivAt.congr_deriv this ?_
  have hz := (pzOf_pos h).ne'
  unfold pzOf at *
  simp only [Pi.pow_apply]
  field_simp
  ring

theorem hasDerivAt_ang {opd py : ℝ} {f : ℝ → ℝ} {f' l : ℝ} (hf : HasDerivAt f f' l) (h : 0 < opd ^ 2 - f l ^ 2 - py ^ 2) :
    HasDerivAt (fun t => ang opd py (f t)) (f' / pzOf opd py (f l)) l := by
  obtain ⟨h1, h2, h3, h4⟩ := ang_spec h
  have hz := pzOf_pos h
  have hr : 0 < Real.sqrt (opd ^ 2 - py ^ 2) := Real.sqrt_pos.2 (by nlinarith [sq_nonneg (f l)])
  have hne1 : 1 / Real.sqrt (opd ^ 2 - py ^ 2) * f l ≠ -1 := by
    intro hh
    have : ang opd py (f l) = -(Real.pi / 2) := by unfold ang; rw [hh, Real.arcsin_neg_one]
    linarith
  have hne2 : 1 / Real.sqrt (opd ^ 2 - py ^ 2) * f l ≠ 1 := by
    intro hh
    have : ang opd py (f l) = Real.pi / 2 := by unfold ang; rw [hh, Real.arcsin_one]
    linarith
  have := (Real.hasDerivAt_arcsin hne1 hne2).comp l (hf.const_mul (1 / Real.sqrt (opd ^ 2 - py ^ 2)))
  refine HasDerivAt.congr_deriv this ?_
  have hcos : Real.sqrt (1 - (1 / Real.sqrt (opd ^ 2 - py ^ 2) * f l) ^ 2) = Real.cos (ang opd py (f l)) := by
    unfold ang
    rw [Real.cos_arcsin]
  rw [hcos, ← h2]
  have : Real.cos (ang opd py (f l)) ≠ 0 := by
    intro hh
    rw [hh, mul_zero] at h2
    exact hz.ne h2
  field_simp

theorem hasDerivAt_bendPx (k h l : ℝ) (p : Part) :
    HasDerivAt (fun t => bendPx k h t p) (h * (bendC k h p * Real.cos (h * l) - p.px * Real.sin (h * l))) l := by
  have hc := ((hasDerivAt_id' l).const_mul h).cos
  have hs := ((hasDerivAt_id' l).const_mul h).sin
  refine HasDerivAt.congr_deriv ((hc.const_mul p.px).add (hs.const_mul (bendC k h p))) ?_
  ring

theorem solves_curvedBend {p : Part} {k0 h l : ℝ} (hh : h ≠ 0) (ok : BendOk (k0 * p.chi) h l p) :
    Solves (bendRates k0 h) (fun t => curvedBend t k0 h p) l := by
  have hk := ne_of_not_small ok.big
  have hk1 : k0 ≠ 0 := left_ne_zero_of_mul hk
  have hk2 : p.chi ≠ 0 := right_ne_zero_of_mul hk
  have hP := hasDerivAt_bendPx (k0 * p.chi) h l p
  have hev : ∀ᶠ t in 𝓝 l, BendOk (k0 * p.chi) h t p := by
    have hc : ContinuousAt (fun t => (p.delta + 1) ^ 2 - bendPx (k0 * p.chi) h t p ^ 2 - p.py ^ 2) l :=
      ((hP.continuousAt.pow 2).const_sub _).sub_const _
    filter_upwards [hc.eventually (lt_mem_nhds ok.at1)] with t ht
    exact ⟨ok.big, ok.at0, ht⟩
  have heq := fun (t : ℝ) (ht : BendOk (k0 * p.chi) h t p) => curvedBend_eq ht
  have hC := bendC_curvedBend ok
  have e1 := heq l ok
  obtain ⟨q, hq⟩ : ∃ q, q = curvedBend l k0 h p := ⟨_, rfl⟩
  rw [← hq] at hC e1
  have hpz : q.pz = pzOf (p.delta + 1) p.py (bendPx (k0 * p.chi) h l p) := by
    rw [e1, Part.pz, pzOf, add_comm 1]
  have hchi : q.chi = p.chi := by rw [e1]
  have hpx : q.px = bendPx (k0 * p.chi) h l p := by rw [e1]
  have hpy : q.py = p.py := by rw [e1]
  have hde : q.delta = p.delta := by rw [e1]
  have hrv : q.rvv = p.rvv := by rw [e1]
  have hz := pzOf_pos ok.at1
  rw [← hpz] at hz
  have hCq : bendC (k0 * p.chi) h q = q.pz - k0 * p.chi * (1 / h + q.x) := by
    rw [bendC, pzOf, Part.pz, add_comm 1]
  rw [hC] at hCq
  have hPz := hasDerivAt_pzOf hP ok.at1
  have hA := hasDerivAt_ang hP ok.at1
  rw [← hpz, ← hpx] at hPz
  rw [← hpz] at hA
  have hx' : h * (bendC (k0 * p.chi) h p * Real.cos (h * l) - p.px * Real.sin (h * l)) = h * q.pz - k0 * p.chi * (1 + h * q.x) := by
    rw [hCq]
    field_simp
  rw [hx'] at hP hPz hA
  have hc := ((hasDerivAt_id' l).const_mul h).cos
  have hs := ((hasDerivAt_id' l).const_mul h).sin
  have hI : HasDerivAt (fun t => (h * t + (ang (p.delta + 1) p.py p.px - ang (p.delta + 1) p.py (bendPx (k0 * p.chi) h t p))) / (k0 * p.chi))
      ((1 + h * q.x) / q.pz) l := by
    refine HasDerivAt.congr_deriv ((((hasDerivAt_id' l).const_mul h).add (hA.const_sub (ang (p.delta + 1) p.py p.px))).div_const (k0 * p.chi)) ?_
    field_simp
    ring
  refine ⟨?_, ?_, ?_, ?_, ?_, ?_⟩
  · have hx : HasDerivAt (fun t => p.x + (pzOf (p.delta + 1) p.py (bendPx (k0 * p.chi) h t p) - pzOf (p.delta + 1) p.py p.px
        - (bendC (k0 * p.chi) h p * Real.cos (h * t) - p.px * Real.sin (h * t) - bendC (k0 * p.chi) h p)) / (k0 * p.chi))
        ((1 + h * q.x) * q.px / q.pz) l := by
      refine HasDerivAt.congr_deriv ((((hPz.sub_const (pzOf (p.delta + 1) p.py p.px)).sub
        (((hc.const_mul (bendC (k0 * p.chi) h p)).sub (hs.const_mul p.px)).sub_const (bendC (k0 * p.chi) h p))).div_const (k0 * p.chi)).const_add p.x) ?_
      have hpx' := hpx
      unfold bendPx at hpx'
      have e : bendC (k0 * p.chi) h p * (-Real.sin (h * l) * (h * 1)) - p.px * (Real.cos (h * l) * (h * 1)) = -(h * q.px) := by
        rw [hpx']
        ring
      rw [e]
      field_simp
      ring
    rw [← hq]
    exact hx.congr_of_eventuallyEq (by
      filter_upwards [hev] with t ht
      rw [heq t ht])
  · simp only [← hq]
    simp only [bendRates]
    rw [hchi]
    refine HasDerivAt.congr_deriv (hP.congr_of_eventuallyEq (by
      filter_upwards [hev] with t ht
      rw [heq t ht])) ?_
    ring
  · simp only [← hq]
    simp only [bendRates]
    rw [hpy]
    refine HasDerivAt.congr_deriv (((hI.const_mul p.py).const_add p.y).congr_of_eventuallyEq (by
      filter_upwards [hev] with t ht
      rw [heq t ht])) ?_
    ring
  · refine (hasDerivAt_const l p.py).congr_of_eventuallyEq (by
      filter_upwards [hev] with t ht
      rw [heq t ht])
  · simp only [← hq]
    simp only [bendRates]
    rw [hde, hrv]
    refine HasDerivAt.congr_deriv ((((hasDerivAt_id' l).sub ((hI.const_mul (p.delta + 1)).div_const p.rvv)).const_add p.zeta).congr_of_eventuallyEq (by
      filter_upwards [hev] with t ht
      rw [heq t ht]
      rfl)) ?_
    ring
  · refine ((hasDerivAt_id' l).const_add p.s).congr_of_eventuallyEq (by
      filter_upwards [hev] with t ht
      rw [heq t ht])

theorem solves_straightBend {p : Part} {k0 l : ℝ} (hk : ¬ |k0 * p.chi| < 1e-8) (ok : StraightOk (k0 * p.chi) l p) :
    Solves (bendRates k0 0) (fun t => straightBend t k0 p) l := by
  have hk0 := ne_of_not_small hk
  have hk1 : k0 ≠ 0 := left_ne_zero_of_mul hk0
  have hk2 : p.chi ≠ 0 := right_ne_zero_of_mul hk0
  have hP : HasDerivAt (fun t => p.px - k0 * p.chi * t) (-(k0 * p.chi)) l := by
    simpa using ((hasDerivAt_id' l).const_mul (k0 * p.chi)).const_sub p.px
  have hPz := hasDerivAt_pzOf hP ok.at1
  have hA := hasDerivAt_ang hP ok.at1
  have hz := pzOf_pos ok.at1
  have e : (fun t => straightBend t k0 p) = fun t => { p with
      x := p.x + (pzOf (p.delta + 1) p.py (p.px - k0 * p.chi * t) - pzOf (p.delta + 1) p.py p.px) / (k0 * p.chi)
      px := p.px - k0 * p.chi * t
      y := p.y + p.py / (k0 * p.chi) * (ang (p.delta + 1) p.py p.px - ang (p.delta + 1) p.py (p.px - k0 * p.chi * t))
      zeta := p.zeta + (t - (p.delta + 1) / (k0 * p.chi) * (ang (p.delta + 1) p.py p.px - ang (p.delta + 1) p.py (p.px - k0 * p.chi * t)) / p.rvv)
      s := p.s + t } := by
    funext t
    unfold straightBend
    simp only [if_neg hk]
    rfl
  rw [e]
  have hpz : ∀ x y z s, Part.pz { p with x := x, px := p.px - k0 * p.chi * l, y := y, zeta := z, s := s }
      = pzOf (p.delta + 1) p.py (p.px - k0 * p.chi * l) := by
    intro x y z s
    rw [Part.pz, pzOf, add_comm 1]
  refine ⟨?_, ?_, ?_, ?_, ?_, ?_⟩
  · refine HasDerivAt.congr_deriv (((hPz.sub_const _).div_const (k0 * p.chi)).const_add p.x) ?_
    simp only [bendRates, hpz]
    field_simp
    ring
  · refine HasDerivAt.congr_deriv hP ?_
    simp only [bendRates, hpz]
    ring
  · refine HasDerivAt.congr_deriv (((hA.const_sub _).const_mul (p.py / (k0 * p.chi))).const_add p.y) ?_
    simp only [bendRates, hpz]
    field_simp
    ring
  · exact hasDerivAt_const l p.py
  · refine HasDerivAt.congr_deriv (((hasDerivAt_id' l).sub (((hA.const_sub _).const_mul ((p.delta + 1) / (k0 * p.chi))).div_const p.rvv)).const_add p.zeta) ?_
    simp only [bendRates, hpz]
    field_simp
    ring
  · exact (hasDerivAt_id' l).const_add p.s

/-! ## Polar drifts -/

theorem Reaches.pos {h l : ℝ} {p : Part} (ok : Reaches h l p) :
    0 < Real.cos (h * l) * p.pz - Real.sin (h * l) * p.px := by
  have := ok.crosses
  unfold Crosses Frame.arc at this
  simp only at this
  linarith

theorem Reaches.of {h l : ℝ} {p : Part} (kin : p.Kin) (forward : p.Forward) (curved : h ≠ 0) (cos : Real.cos (h * l) ≠ 0)
    (pos : 0 < Real.cos (h * l) * p.pz - Real.sin (h * l) * p.px) : Reaches h l p := by
  refine ⟨kin, forward, curved, cos, ?_⟩
  unfold Crosses Frame.arc
  simp only
  linarith

theorem polarDrift_zero (q : Part) (h : ℝ) : polarDrift q 0 h = q := by
  ext <;> simp [polarDrift]

theorem polarDrift_kin {q : Part} (l h : ℝ) (k : q.Kin) : (polarDrift q l h).Kin := ⟨k.1, k.2, k.3, k.4, k.5, k.6⟩

theorem polarDrift_pz {p : Part} {h l : ℝ} (ok : Reaches h l p) :
    (polarDrift p l h).pz = Real.cos (h * l) * p.pz - Real.sin (h * l) * p.px ∧ (polarDrift p l h).Forward := by
  have hz := ok.forward.pz_pos
  have hsq := ok.forward.pz_sq
  have e : (1 + p.delta) ^ 2 - (Real.cos (h * l) * p.px + Real.sin (h * l) * p.pz) ^ 2 - p.py ^ 2
      = (Real.cos (h * l) * p.pz - Real.sin (h * l) * p.px) ^ 2 := by
    have := Real.sin_sq_add_cos_sq (h * l)
    generalize Real.cos (h * l) = c at *
    generalize Real.sin (h * l) = s at *
    grind
  have hpx : (polarDrift p l h).px = Real.cos (h * l) * p.px + Real.sin (h * l) * p.pz := by
    simp only [polarDrift, Part.pz]
    rw [add_comm p.delta]
  have e1 : (1 + (polarDrift p l h).delta) ^ 2 - (polarDrift p l h).px ^ 2 - (polarDrift p l h).py ^ 2
      = (Real.cos (h * l) * p.pz - Real.sin (h * l) * p.px) ^ 2 := by
    rw [hpx]
    exact e
  constructor
  · rw [Part.pz, e1, Real.sqrt_sq ok.pos.le]
  · rw [Part.Forward, e1]
    exact pow_pos ok.pos 2

theorem polar_at0 {q : Part} {h : ℝ} (hf : q.Forward) (hh : h ≠ 0) : Solves (bendRates 0 h) (fun t => polarDrift q t h) 0 := by
  have hz := hf.pz_pos
  have hc : HasDerivAt (fun t : ℝ => Real.cos (h * t)) 0 0 := by
    simpa using ((hasDerivAt_id' (0 : ℝ)).const_mul h).cos
  have hs : HasDerivAt (fun t : ℝ => Real.sin (h * t)) h 0 := by
    simpa using ((hasDerivAt_id' (0 : ℝ)).const_mul h).sin
  have hs2 : HasDerivAt (fun t : ℝ => Real.sin (0.5 * h * t)) (0.5 * h) 0 := by
    simpa using ((hasDerivAt_id' (0 : ℝ)).const_mul (0.5 * h)).sin
  have hpz : Real.sqrt ((q.delta + 1) ^ 2 - q.px ^ 2 - q.py ^ 2) = q.pz := by
    rw [Part.pz, add_comm]
  have hden : HasDerivAt (fun t : ℝ => Real.cos (h * t) - Real.sin (h * t) * (q.px * (1 / q.pz))) (0 - h * (q.px * (1 / q.pz))) 0 :=
    hc.sub (hs.mul_const _)
  have hden0 : Real.cos (h * 0) - Real.sin (h * 0) * (q.px * (1 / q.pz)) ≠ 0 := by simp
  have hinv : HasDerivAt (fun t : ℝ => 1 / (Real.cos (h * t) - Real.sin (h * t) * (q.px * (1 / q.pz)))) (h * (q.px / q.pz)) 0 := by
    refine HasDerivAt.congr_deriv ((hasDerivAt_const (0 : ℝ) (1 : ℝ)).div hden hden0) ?_
    simp only [mul_zero, Real.cos_zero, Real.sin_zero]
    ring
  have h0 : ∀ r : Part → Rates, r (polarDrift q 0 h) = r q := fun r => by rw [polarDrift_zero]
  refine ⟨?_, ?_, ?_, ?_, ?_, ?_⟩
  · simp only [polarDrift_zero]
    simp only [polarDrift, hpz, bendRates]
    refine HasDerivAt.congr_deriv (((((((hs2.const_mul 2).mul hs2).add (hs.mul_const (q.px * (1 / q.pz)))).const_mul (1 / h)).const_add q.x).mul hinv)) ?_
    simp
    field_simp
  · simp only [polarDrift_zero]
    simp only [polarDrift, hpz, bendRates]
    refine HasDerivAt.congr_deriv ((hc.mul_const q.px).add (hs.mul_const q.pz)) ?_
    ring
  · simp only [polarDrift_zero]
    simp only [polarDrift, hpz, bendRates]
    refine HasDerivAt.congr_deriv (((((hs.const_mul (q.x + 1 / h)).mul_const (1 / q.pz)).mul hinv).mul_const q.py).const_add q.y) ?_
    simp
    field_simp
    ring
  · simp only [polarDrift_zero]
    exact hasDerivAt_const (0 : ℝ) q.py
  · simp only [polarDrift_zero]
    simp only [polarDrift, hpz, bendRates]
    have hcos0 : Real.cos (h * 0) ≠ 0 := by simp
    have e1 := (((hs.const_mul ((q.delta + 1) * (q.x + 1 / h))).div hc hcos0).div_const q.pz)
    have e2 := (((hs.const_mul q.px).div hc hcos0).div_const q.pz).const_sub 1
    have hne : 1 - q.px * Real.sin (h * 0) / Real.cos (h * 0) / q.pz ≠ 0 := by simp
    refine HasDerivAt.congr_deriv (((hasDerivAt_id' (0 : ℝ)).sub ((e1.div e2 hne).div_const q.rvv)).const_add q.zeta) ?_
    simp
    field_simp
    ring
  · simp only [polarDrift]
    exact (hasDerivAt_id' (0 : ℝ)).const_add q.s

/-- What holds at the start of every particle holds all along, when lengths compose. -/
theorem solves_of_flow {r : Part → Rates} {F : ℝ → Part → Part} {p : Part} {l : ℝ}
    (hflow : ∀ᶠ t in 𝓝 (0 : ℝ), F (l + t) p = F t (F l p)) (hz : F 0 (F l p) = F l p)
    (h0 : Solves r (fun t => F t (F l p)) 0) : Solves r (fun t => F t p) l := by
  have ev : ∀ᶠ u in 𝓝 l, F u p = F (u - l) (F l p) := by
    have ht : Tendsto (fun u : ℝ => u - l) (𝓝 l) (𝓝 0) := by
      have : Continuous fun u : ℝ => u - l := by fun_prop
      simpa using this.tendsto l
    filter_upwards [ht.eventually hflow] with u hu
    rw [← hu]
    congr 1
    ring
  have tr : ∀ (c : Part → ℝ) (d : ℝ), HasDerivAt (fun t => c (F t (F l p))) d 0 → HasDerivAt (fun t => c (F t p)) d l := by
    intro c d hd
    have : HasDerivAt (fun u => c (F (u - l) (F l p))) d l := by
      refine HasDerivAt.comp_sub_const (f := fun t => c (F t (F l p))) l l ?_
      rwa [sub_self]
    exact this.congr_of_eventuallyEq (by
      filter_upwards [ev] with u hu
      rw [hu])
  obtain ⟨h1, h2, h3, h4, h5, h6⟩ := h0
  simp only [hz] at h1 h2 h3 h4 h5 h6
  exact ⟨tr Part.x _ h1, tr Part.px _ h2, tr Part.y _ h3, tr Part.py _ h4, tr Part.zeta _ h5, tr Part.s _ h6⟩

theorem solves_polar {p : Part} {h l : ℝ} (ok : Reaches h l p) : Solves (bendRates 0 h) (fun t => polarDrift p t h) l := by
  refine solves_of_flow (F := fun t p => polarDrift p t h) ?_ (polarDrift_zero _ _) (polar_at0 (polarDrift_pz ok).2 ok.curved)
  have c1 : ContinuousAt (fun t : ℝ => Real.cos (h * t)) 0 := by fun_prop
  have c2 : ContinuousAt (fun t : ℝ => Real.cos (h * (l + t))) 0 := by fun_prop
  have c3 : ContinuousAt (fun t : ℝ => Real.cos (h * (l + t)) * p.pz - Real.sin (h * (l + t)) * p.px) 0 := by fun_prop
  filter_upwards [c1.eventually_ne (y := 0) (by simp), c2.eventually_ne (y := 0) (by simpa using ok.cos),
    c3.eventually (lt_mem_nhds (a := 0) (by simpa using ok.pos))] with t h1 h2 h3
  have ok2 : Reaches h (l + t) p := Reaches.of ok.kin ok.forward ok.curved h2 h3
  exact (C50_polar ok.kin ok.forward ok.curved ok.cos h1 h2 ok.crosses ok2.crosses).1.symm

/-! ## Solenoids -/

/-- The longitudinal kinetic momentum in a solenoid. -/
def solPz (ks x0 y0 : ℝ) (p : Part) : ℝ :=
  Real.sqrt ((1 + p.delta) ^ 2 - (p.px + ks / 2 * (p.y - y0)) ^ 2 - (p.py - ks / 2 * (p.x - x0)) ^ 2)

/-- The solenoid without the shortcuts for small arguments. -/
def solCore (length ks x0 y0 : ℝ) (p : Part) : Part :=
  let sk := ks / 2
  let x := p.x - x0
  let y := p.y - y0
  let pz := solPz ks x0 y0 p
  let c := Real.cos (sk * length / pz)
  let s := Real.sin (sk * length / pz)
  { p with
    x := c * (c * x + s * y) + s / sk * (c * p.px + s * p.py) + x0
    px := c * (c * p.px + s * p.py) - sk * s * (c * x + s * y)
    y := c * (c * y - s * x) + s / sk * (c * p.py - s * p.px) + y0
    py := c * (c * p.py - s * p.px) - sk * s * (c * y - s * x)
    zeta := p.zeta + length * (1 - (1 + p.delta) / (pz * p.rvv))
    s := p.s + length }

theorem solenoid_core {length ks x0 y0 : ℝ} {p : Part} (h1 : ¬ |ks / 2| < 1e-9) (h2 : ¬ |length| < 1e-9) :
    solenoid length ks x0 y0 p = solCore length ks x0 y0 p := by
  have e : ∀ a b c : ℝ, a * a - (b * b + c * c) = a ^ 2 - b ^ 2 - c ^ 2 := fun a b c => by ring
  unfold solenoid solCore solPz
  simp only [if_neg h1, if_neg h2, e]

/-- The transverse momentum squared does not change in the field. -/
theorem solCore_pz {length ks x0 y0 : ℝ} {p : Part} (hk : ks / 2 ≠ 0) :
    solPz ks x0 y0 (solCore length ks x0 y0 p) = solPz ks x0 y0 p := by
  rw [solPz, solPz]
  congr 1
  simp only [solCore, add_sub_cancel_right]
  generalize solPz ks x0 y0 p = pz
  generalize ks / 2 = sk at *
  have := Real.sin_sq_add_cos_sq (sk * length / pz)
  generalize Real.sin (sk * length / pz) = s at *
  generalize Real.cos (sk * length / pz) = c at *
  have e1 : c * (c * p.px + s * p.py) - sk * s * (c * (p.x - x0) + s * (p.y - y0))
      + sk * (c * (c * (p.y - y0) - s * (p.x - x0)) + s / sk * (c * p.py - s * p.px))
      = (c ^ 2 - s ^ 2) * (p.px + sk * (p.y - y0)) + 2 * s * c * (p.py - sk * (p.x - x0)) := by
    field_simp
    ring
  have e2 : c * (c * p.py - s * p.px) - sk * s * (c * (p.y - y0) - s * (p.x - x0))
      - sk * (c * (c * (p.x - x0) + s * (p.y - y0)) + s / sk * (c * p.px + s * p.py))
      = (c ^ 2 - s ^ 2) * (p.py - sk * (p.x - x0)) - 2 * s * c * (p.px + sk * (p.y - y0)) := by
    field_simp
    ring
  rw [e1, e2]
  generalize p.px + sk * (p.y - y0) = u
  generalize p.py - sk * (p.x - x0) = v
  have : (c ^ 2 - s ^ 2) ^ 2 + (2 * s * c) ^ 2 = 1 := by
    have : (c ^ 2 - s ^ 2) ^ 2 + (2 * s * c) ^ 2 = (s ^ 2 + c ^ 2) ^ 2 := by ring
    rw [this]
    simp [*]
  linear_combination (-(u ^ 2 + v ^ 2)) * this

theorem solCore_add (l1 l2 ks x0 y0 : ℝ) (p : Part) (hk : ks / 2 ≠ 0) :
    solCore l2 ks x0 y0 (solCore l1 ks x0 y0 p) = solCore (l1 + l2) ks x0 y0 p := by
  have hpz := solCore_pz (length := l1) (x0 := x0) (y0 := y0) (p := p) hk
  rw [solCore, hpz]
  simp only [solCore, add_sub_cancel_right]
  generalize solPz ks x0 y0 p = pz
  generalize ks / 2 = sk at *
  rw [show sk * (l1 + l2) / pz = sk * l1 / pz + sk * l2 / pz by ring]
  rw [Real.cos_add, Real.sin_add]
  generalize Real.sin (sk * l1 / pz) = s1
  generalize Real.cos (sk * l1 / pz) = c1
  generalize Real.sin (sk * l2 / pz) = s2
  generalize Real.cos (sk * l2 / pz) = c2
  ext
  · field_simp
    ring
  · field_simp
    ring
  · field_simp
    ring
  · field_simp
    ring
  · ring
  · ring
  all_goals rfl

theorem solves_solCore {p : Part} {ks x0 y0 l : ℝ} (hk : ks / 2 ≠ 0)
    (hz : 0 < solPz ks x0 y0 p) : Solves (solenoidRates ks x0 y0) (fun t => solCore t ks x0 y0 p) l := by
  have hpz := solCore_pz (length := l) (x0 := x0) (y0 := y0) (p := p) hk
  have er : ∀ q, solenoidRates ks x0 y0 q = Rates.mk ((q.px + ks / 2 * (q.y - y0)) / solPz ks x0 y0 q)
      (ks / 2 * (q.py - ks / 2 * (q.x - x0)) / solPz ks x0 y0 q) ((q.py - ks / 2 * (q.x - x0)) / solPz ks x0 y0 q)
      (-(ks / 2 * (q.px + ks / 2 * (q.y - y0)) / solPz ks x0 y0 q)) (1 - (1 + q.delta) / solPz ks x0 y0 q / q.rvv) := fun q => rfl
  refine ⟨?_, ?_, ?_, ?_, ?_, ?_⟩ <;> (try simp only [er, hpz]) <;> simp only [solCore, add_sub_cancel_right] <;>
    (generalize solPz ks x0 y0 p = pz at *) <;> (generalize ks / 2 = sk at *)
  all_goals
    have hθ : HasDerivAt (fun t : ℝ => sk * t / pz) (sk / pz) l := by
      simpa using ((hasDerivAt_id' l).const_mul sk).div_const pz
    have hc := hθ.cos
    have hs := hθ.sin
    have sq := Real.sin_sq_add_cos_sq (sk * l / pz)
  · refine HasDerivAt.congr_deriv (((hc.mul ((hc.mul_const (p.x - x0)).add (hs.mul_const (p.y - y0)))).add
      ((hs.div_const sk).mul ((hc.mul_const p.px).add (hs.mul_const p.py)))).add_const x0) ?_
    simp only [Pi.add_apply]
    field_simp
    ring
  · refine HasDerivAt.congr_deriv ((hc.mul ((hc.mul_const p.px).add (hs.mul_const p.py))).sub
      ((hs.const_mul sk).mul ((hc.mul_const (p.x - x0)).add (hs.mul_const (p.y - y0))))) ?_
    simp only [Pi.add_apply]
    field_simp
    ring
  · refine HasDerivAt.congr_deriv (((hc.mul ((hc.mul_const (p.y - y0)).sub (hs.mul_const (p.x - x0)))).add
      ((hs.div_const sk).mul ((hc.mul_const p.py).sub (hs.mul_const p.px)))).add_const y0) ?_
    simp only [Pi.sub_apply]
    field_simp
    ring
  · refine HasDerivAt.congr_deriv ((hc.mul ((hc.mul_const p.py).sub (hs.mul_const p.px))).sub
      ((hs.const_mul sk).mul ((hc.mul_const (p.y - y0)).sub (hs.mul_const (p.x - x0))))) ?_
    simp only [Pi.sub_apply]
    field_simp
    ring
  · refine HasDerivAt.congr_deriv (((hasDerivAt_id' l).mul_const (1 - (1 + p.delta) / (pz * p.rvv))).const_add p.zeta) ?_
    rw [div_div, one_mul]
  · exact (hasDerivAt_id' l).const_add p.s

end

end Verif.Magnets
