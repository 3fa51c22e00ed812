import Verif.Symplectic.Spec
import Mathlib.Analysis.Calculus.FDeriv.Symmetric
import Mathlib.Analysis.Calculus.MeanValue
import Mathlib.Analysis.Calculus.ContDiff.Operations
import Mathlib.Analysis.Calculus.Deriv.Pi
import Mathlib.Analysis.Calculus.Deriv.Prod
import Mathlib.Tactic.Ring
import Mathlib.Tactic.LinearCombination
import Mathlib.Tactic.FinCases

/-!
# Symplectic maps: composition, generating functions, Hamiltonian flows
-/

namespace Verif.Symplectic

open Filter Topology

noncomputable section

theorem Canonical.id (z : Z) : Canonical (fun z => z) z := ⟨ContinuousLinearMap.id ℝ Z, hasFDerivAt_id z, fun _ _ => rfl⟩

theorem Canonical.comp {f g : Z → Z} {z : Z} (hg : Canonical g (f z)) (hf : Canonical f z) : Canonical (fun z => g (f z)) z := by
  obtain ⟨M, hM, sM⟩ := hf
  obtain ⟨N, hN, sN⟩ := hg
  exact ⟨N.comp M, hN.comp z hM, fun v w => by simp [sN, sM]⟩

theorem Canonical.congr {f g : Z → Z} {z : Z} (hf : Canonical f z) (h : g =ᶠ[𝓝 z] f) : Canonical g z := by
  obtain ⟨M, hM, sM⟩ := hf
  exact ⟨M, hM.congr_of_eventuallyEq h, sM⟩

theorem Canonical.differentiableAt {f : Z → Z} {z : Z} (hf : Canonical f z) : DifferentiableAt ℝ f z :=
  let ⟨_, hM, _⟩ := hf
  hM.differentiableAt

theorem Canonical.continuousAt {f : Z → Z} {z : Z} (hf : Canonical f z) : ContinuousAt f z := hf.differentiableAt.continuousAt

/-- The derivative along a line. -/
theorem fderiv_line {U : Type*} [NormedAddCommGroup U] [NormedSpace ℝ U] {f : U → ℝ} {u : U} (hf : DifferentiableAt ℝ f u) {v : U}
    {c : ℝ} (h : HasDerivAt (fun t : ℝ => f (u + t • v)) c 0) : fderiv ℝ f u v = c := by
  have h1 : HasDerivAt (fun t : ℝ => u + t • v) v 0 := by
    simpa using ((hasDerivAt_id' (0 : ℝ)).smul_const v).const_add u
  have h2 : HasFDerivAt f (fderiv ℝ f u) (u + (0 : ℝ) • v) := by simpa using hf.hasFDerivAt
  exact (h2.comp_hasDerivAt (0 : ℝ) h1).unique h

/-- The arguments `a` and the derivatives `b` of a function pair to zero. -/
theorem lagrangian {S : Z → ℝ} {a b : Z → Z} {z : Z} (hS : ContDiffAt ℝ 2 S (a z)) (ha : DifferentiableAt ℝ a z)
    (hb : DifferentiableAt ℝ b z) (h : ∀ᶠ y in 𝓝 z, ∀ u, fderiv ℝ S (a y) u = ∑ i, b y i * u i) (v w : Z) :
    ∑ i, fderiv ℝ b z v i * fderiv ℝ a z w i = ∑ i, fderiv ℝ b z w i * fderiv ℝ a z v i := by
  have sym := hS.isSymmSndFDerivAt (by simp)
  have hd : DifferentiableAt ℝ (fderiv ℝ S) (a z) := (hS.fderiv_right (m := 1) (by norm_num)).differentiableAt (by simp)
  have key : ∀ v u : Z, fderiv ℝ (fderiv ℝ S) (a z) (fderiv ℝ a z v) u = ∑ i, fderiv ℝ b z v i * u i := by
    intro v u
    have e : (fun y => fderiv ℝ S (a y) u) =ᶠ[𝓝 z] fun y => ∑ i, b y i * u i := h.mono fun y hy => hy u
    have h1 : HasFDerivAt (fun y => fderiv ℝ S (a y) u)
        ((ContinuousLinearMap.apply ℝ ℝ u).comp ((fderiv ℝ (fderiv ℝ S) (a z)).comp (fderiv ℝ a z))) z :=
      (ContinuousLinearMap.apply ℝ ℝ u).hasFDerivAt.comp z (hd.hasFDerivAt.comp z ha.hasFDerivAt)
    have h2 : HasFDerivAt (fun y => ∑ i, b y i * u i)
        (∑ i, (u i) • ((ContinuousLinearMap.proj (R := ℝ) (φ := fun _ : Fin 6 => ℝ) i).comp (fderiv ℝ b z))) z := by
      refine HasFDerivAt.fun_sum fun i _ => ?_
      exact ((hasFDerivAt_pi'.1 hb.hasFDerivAt i).mul_const (u i))
    have := congrArg (fun L : Z →L[ℝ] ℝ => L v) (h1.unique (h2.congr_of_eventuallyEq e))
    simp only [ContinuousLinearMap.comp_apply, ContinuousLinearMap.apply_apply, sum_apply,
      smul_apply, ContinuousLinearMap.proj_apply, smul_eq_mul] at this
    rw [this]
    exact Finset.sum_congr rfl fun i _ => mul_comm _ _
  rw [← key, ← key]
  exact sym _ _

/-- The time-`L` map of a Hamiltonian flow is symplectic. -/
theorem flow {φ : ℝ → Z → Z} {H : Z → ℝ} {z : Z} {L : ℝ} (h0 : ∀ᶠ y in 𝓝 z, φ 0 y = y)
    (smooth : ∀ t ∈ Set.uIcc 0 L, ContDiffAt ℝ 2 (fun a : ℝ × Z => φ a.1 a.2) (t, z))
    (ham : ∀ t ∈ Set.uIcc 0 L, ContDiffAt ℝ 2 H (φ t z))
    (ode : ∀ t ∈ Set.uIcc 0 L, ∀ᶠ y in 𝓝 z, ∃ X, HasDerivAt (fun t => φ t y) X t ∧ ∀ u, fderiv ℝ H (φ t y) u = omega X u) :
    Canonical (φ L) z := by
  have hPhi : ∀ t ∈ Set.uIcc 0 L, HasFDerivAt (fun y => φ t y)
      ((fderiv ℝ (fun a : ℝ × Z => φ a.1 a.2) (t, z)).comp (ContinuousLinearMap.inr ℝ ℝ Z)) z := fun t ht =>
    ((smooth t ht).differentiableAt (by norm_num)).hasFDerivAt.comp z (hasFDerivAt_prodMk_right t z)
  refine ⟨_, hPhi L Set.right_mem_uIcc, fun v w => ?_⟩
  -- the pairing of two displacements does not change
  let D : ℝ → Z → Z := fun t v => fderiv ℝ (fun a : ℝ × Z => φ a.1 a.2) (t, z) (0, v)
  have der : ∀ t ∈ Set.uIcc 0 L, HasDerivAt (fun t => omega (D t v) (D t w)) 0 t := by
    intro t ht
    have sm := smooth t ht
    have sym := sm.isSymmSndFDerivAt (by simp)
    have hd : DifferentiableAt ℝ (fderiv ℝ (fun a : ℝ × Z => φ a.1 a.2)) (t, z) :=
      (sm.fderiv_right (m := 1) (by norm_num)).differentiableAt (by simp)
    have hH := ham t ht
    have symH := hH.isSymmSndFDerivAt (by simp)
    have hdH : DifferentiableAt ℝ (fderiv ℝ H) (φ t z) := (hH.fderiv_right (m := 1) (by norm_num)).differentiableAt (by simp)
    have sym' : ∀ v, fderiv ℝ (fderiv ℝ (fun a : ℝ × Z => φ a.1 a.2)) (t, z) (1, 0) (0, v)
      = fderiv ℝ (fderiv ℝ (fun a : ℝ × Z => φ a.1 a.2)) (t, z) (0, v) (1, 0) := fun v => sym (1, 0) (0, v)
    generalize hB : fderiv ℝ (fderiv ℝ (fun a : ℝ × Z => φ a.1 a.2)) (t, z) = B at *
    have dD : ∀ v, HasDerivAt (fun t => D t v) (B (1, 0) (0, v)) t := by
      intro v
      have h1 : HasDerivAt (fun t : ℝ => ((t, z) : ℝ × Z)) (1, 0) t := (hasDerivAt_id' t).prodMk (hasDerivAt_const t z)
      have h2 := hd.hasFDerivAt.comp_hasDerivAt t h1
      rw [hB] at h2
      exact h2.clm_apply (hasDerivAt_const t ((0 : ℝ), v)) |>.congr_deriv (by simp)
    have mixed : ∀ v u, omega (B (1, 0) (0, v)) u = fderiv ℝ (fderiv ℝ H) (φ t z) (D t v) u := by
      intro v u
      have e : (fun y => omega (fderiv ℝ (fun a : ℝ × Z => φ a.1 a.2) (t, y) (1, 0)) u) =ᶠ[𝓝 z] fun y => fderiv ℝ H (φ t y) u := by
        have ev : ∀ᶠ y in 𝓝 z, DifferentiableAt ℝ (fun a : ℝ × Z => φ a.1 a.2) (t, y) := by
          have h1 := (sm.eventually (by simp)).mono fun a h => h.differentiableAt (by norm_num)
          have h2 : Tendsto (fun y : Z => (t, y)) (𝓝 z) (𝓝 (t, z)) := (Continuous.prodMk_right t).tendsto z
          exact h2.eventually h1
        filter_upwards [ode t ht, ev] with y ⟨X, hX, hu⟩ hy
        rw [hu u]
        have h1 : HasDerivAt (fun t : ℝ => ((t, y) : ℝ × Z)) (1, 0) t := (hasDerivAt_id' t).prodMk (hasDerivAt_const t y)
        have h2 : HasDerivAt (fun t => φ t y) (fderiv ℝ (fun a : ℝ × Z => φ a.1 a.2) (t, y) (1, 0)) t :=
          HasFDerivAt.comp_hasDerivAt (l := fun a : ℝ × Z => φ a.1 a.2) t hy.hasFDerivAt h1
        rw [h2.unique hX]
      have h1 : HasFDerivAt (fun y => fderiv ℝ H (φ t y) u)
          ((ContinuousLinearMap.apply ℝ ℝ u).comp ((fderiv ℝ (fderiv ℝ H) (φ t z)).comp
            ((fderiv ℝ (fun a : ℝ × Z => φ a.1 a.2) (t, z)).comp (ContinuousLinearMap.inr ℝ ℝ Z)))) z :=
        (ContinuousLinearMap.apply ℝ ℝ u).hasFDerivAt.comp z (hdH.hasFDerivAt.comp z (hPhi t ht))
      have h2 : HasFDerivAt (fun y => fderiv ℝ (fun a : ℝ × Z => φ a.1 a.2) (t, y) (1, 0))
          ((ContinuousLinearMap.apply ℝ Z ((1 : ℝ), (0 : Z))).comp (B.comp (ContinuousLinearMap.inr ℝ ℝ Z))) z := by
        have := hd.hasFDerivAt
        rw [hB] at this
        exact (ContinuousLinearMap.apply ℝ Z ((1 : ℝ), (0 : Z))).hasFDerivAt.comp z (this.comp z (hasFDerivAt_prodMk_right t z))
      have c := fun i => hasFDerivAt_pi'.1 h2 i
      have h3 := ((((c 0).mul_const (u 1)).sub ((c 1).mul_const (u 0))).add (((c 2).mul_const (u 3)).sub ((c 3).mul_const (u 2)))).add
        (((c 4).mul_const (u 5)).sub ((c 5).mul_const (u 4)))
      have := congrArg (fun L : Z →L[ℝ] ℝ => L v) ((h1.congr_of_eventuallyEq e).unique h3)
      simp only [ContinuousLinearMap.comp_apply, ContinuousLinearMap.apply_apply, add_apply,
        sub_apply, smul_apply, ContinuousLinearMap.proj_apply, smul_eq_mul,
        ContinuousLinearMap.inr_apply] at this
      rw [show D t v = fderiv ℝ (fun a : ℝ × Z => φ a.1 a.2) (t, z) (0, v) from rfl, this, sym' v]
      unfold omega
      ring
    have a := fun i => hasDerivAt_pi.1 (dD v) i
    have b := fun i => hasDerivAt_pi.1 (dD w) i
    have h4 := ((((a 0).mul (b 1)).sub ((a 1).mul (b 0))).add (((a 2).mul (b 3)).sub ((a 3).mul (b 2)))).add
      (((a 4).mul (b 5)).sub ((a 5).mul (b 4)))
    refine h4.congr_deriv ?_
    have m1 := mixed v (D t w)
    have m2 := mixed w (D t v)
    have m3 := symH (D t v) (D t w)
    unfold omega at m1 m2
    linear_combination m1 - m2 + m3
  have conv := (convex_uIcc (0 : ℝ) L).norm_image_sub_le_of_norm_hasDerivWithin_le
    (f := fun t => omega (D t v) (D t w)) (f' := fun _ => 0) (C := 0) (fun t ht => (der t ht).hasDerivWithinAt) (by simp)
    Set.left_mem_uIcc Set.right_mem_uIcc
  have e : omega (D L v) (D L w) = omega (D 0 v) (D 0 w) := by
    simpa [sub_eq_zero] using conv
  have d0 : ∀ v, D 0 v = v := by
    intro v
    have h1 := hPhi 0 Set.left_mem_uIcc
    have h2 : HasFDerivAt (fun y : Z => φ 0 y) (ContinuousLinearMap.id ℝ Z) z := (hasFDerivAt_id z).congr_of_eventuallyEq h0
    have := congrArg (fun L : Z →L[ℝ] Z => L v) (h1.unique h2)
    simpa using this
  rw [d0, d0] at e
  exact e

end

end Verif.Symplectic
