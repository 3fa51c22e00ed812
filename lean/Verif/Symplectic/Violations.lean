import Verif.Symplectic.Line

/-!
# Elements which are not symplectic
-/

namespace Verif.Symplectic

open Frames hiding curvature
open Magnets Rf Filter Topology

noncomputable section

/-- The Jacobian matrix of a symplectic map, and its entries as derivatives along lines. -/
theorem Canonical.lines {f : Z → Z} {z : Z} (h : Canonical f z) :
    ∃ M : Z → Z, (∀ v i a, HasDerivAt (fun t : ℝ => f (z + t • v) i) a 0 → M v i = a) ∧ ∀ v w, omega (M v) (M w) = omega v w := by
  obtain ⟨M, hM, o⟩ := h
  refine ⟨M, fun v i a ha => ?_, o⟩
  have h1 : HasDerivAt (fun t : ℝ => z + t • v) v 0 := by
    simpa using ((hasDerivAt_id' (0 : ℝ)).smul_const v).const_add z
  have h2 : HasFDerivAt f M (z + (0 : ℝ) • v) := by simpa using hM
  have h3 : HasDerivAt (fun t : ℝ => f (z + t • v)) (M v) 0 := h2.comp_hasDerivAt (0 : ℝ) h1
  exact (hasDerivAt_pi.1 h3 i).unique ha

theorem coords_combined_flat {p : Part} {k0 k1 h L : ℝ} (flat : p.chi * (k0 * h + k1) = 0) (z : Z) :
    (coords (combined L k0 k1 h (place p z))) 0
        = z 0 + z 1 / opdOf p.beta0 (z 5) * L - (p.chi * k0 / opdOf p.beta0 (z 5) - h) * 0.5 * L ^ 2
    ∧ (coords (combined L k0 k1 h (place p z))) 1
        = (((-(p.chi * k0 / opdOf p.beta0 (z 5)) + h) * L + z 1 / opdOf p.beta0 (z 5)) * opdOf p.beta0 (z 5)) := by
  have e : p.chi * k0 / opdOf p.beta0 (z 5) * h + p.chi * k1 / opdOf p.beta0 (z 5) = 0 := by
    rw [show p.chi * k0 / opdOf p.beta0 (z 5) * h + p.chi * k1 / opdOf p.beta0 (z 5)
      = p.chi * (k0 * h + k1) / opdOf p.beta0 (z 5) by ring, flat, zero_div]
  have e1 : opdOf p.beta0 (z 5) - 1 + 1 = opdOf p.beta0 (z 5) := by ring
  constructor <;> simp [combined, coords, place, e, focS, focC, e1]

theorem zeta_combined_flat {p : Part} {k0 k1 h L : ℝ} (flat : p.chi * (k0 * h + k1) = 0) (z : Z) : ∃ Y : ℝ, ∀ a : ℝ,
    (coords (combined L k0 k1 h (place p (Function.update z 1 a)))) 4
      = Y - (h * L * (3 * L * (a / opdOf p.beta0 (z 5))) / 6 + 0.5 * (a / opdOf p.beta0 (z 5)) ^ 2 * L) / (place p z).rvv := by
  have e : p.chi * k0 / opdOf p.beta0 (z 5) * h + p.chi * k1 / opdOf p.beta0 (z 5) = 0 := by
    rw [show p.chi * k0 / opdOf p.beta0 (z 5) * h + p.chi * k1 / opdOf p.beta0 (z 5)
      = p.chi * (k0 * h + k1) / opdOf p.beta0 (z 5) by ring, flat, zero_div]
  have e1 : opdOf p.beta0 (z 5) - 1 + 1 = opdOf p.beta0 (z 5) := by ring
  refine ⟨(coords (combined L k0 k1 h (place p (Function.update z 1 0)))) 4, fun a => ?_⟩
  simp only [combined, coords, place, Function.update_self, Function.update_of_ne, ne_eq, Fin.reduceEq, not_false_eq_true, e1, e,
    not_true_eq_false, if_false, Matrix.cons_val]
  split_ifs <;> ring

/-- The direction of the `i`-th coordinate. -/
def dir (i : Fin 6) : Z := Pi.single i 1

theorem combined_violated {p : Part} (k : p.Kin) {k0 k1 h L : ℝ} (flat : p.chi * (k0 * h + k1) = 0) (off : p.chi * k0 ≠ h * (1 + p.delta))
    (hL : L ≠ 0) : ¬SymplecticAt (fun q => combined L k0 k1 h q) p := by
  intro hs
  obtain ⟨M, hM, o⟩ := Canonical.lines hs
  have fine := fine_coords k
  have hR := opdOf_pos fine.rad
  have hb := k.beta0
  have c5 : coords p 5 = p.ptau / p.beta0 := rfl
  have c1 : coords p 1 = p.px := rfl
  have c0 : coords p 0 = p.x := rfl
  have r := opd_coords k
  have hr := k.rvv
  have hd := k.delta
  have rv : (1 + p.beta0 ^ 2 * coords p 5) / opdOf p.beta0 (coords p 5) = 1 / p.rvv := by
    rw [c5, r, k.energy]
    have : 0 < 1 + p.beta0 * p.ptau := by
      have := k.energy
      by_contra hn
      nlinarith
    field_simp
  have prv : (place p (coords p)).rvv = p.rvv := by
    show opdOf p.beta0 (coords p 5) / (1 + p.beta0 ^ 2 * coords p 5) = p.rvv
    rw [div_eq_iff (fine.energy.ne')]
    rw [div_eq_div_iff hR.ne' hr.ne'] at rv
    linarith
  have up : ∀ t : ℝ, coords p + t • dir 1 = Function.update (coords p) 1 (p.px + t) := by
    intro t
    ext i
    fin_cases i <;> simp [dir, coords]
  have d0 : HasDerivAt (fun t : ℝ => p.px + t) 1 0 := (hasDerivAt_id' (0 : ℝ)).const_add _
  -- along `px`
  have m10 : M (dir 1) 0 = L / (1 + p.delta) := by
    refine hM _ _ _ ?_
    simp only [(coords_combined_flat flat _).1, up, Function.update_self, Function.update_of_ne, ne_eq, Fin.reduceEq, not_false_eq_true]
    refine ((((d0.div_const _).mul_const L).const_add _).sub_const _).congr_deriv ?_
    rw [c5, r]
    ring
  have m11 : M (dir 1) 1 = 1 := by
    refine hM _ _ _ ?_
    simp only [(coords_combined_flat flat _).2, up, Function.update_self, Function.update_of_ne, ne_eq, Fin.reduceEq, not_false_eq_true]
    refine (((d0.div_const _).const_add _).mul_const _).congr_deriv ?_
    field_simp
  have m14 : M (dir 1) 4 = -(h * L ^ 2 / 2 / (1 + p.delta) + p.px / (1 + p.delta) ^ 2 * L) / p.rvv := by
    refine hM _ _ _ ?_
    obtain ⟨Y, hY⟩ := zeta_combined_flat (p := p) (L := L) flat (coords p)
    simp only [up, hY, prv]
    have d := d0.div_const (opdOf p.beta0 (coords p 5))
    refine (((((d.const_mul (3 * L)).const_mul (h * L)).div_const 6).add (((d.pow 2).const_mul 0.5).mul_const L)).div_const
      p.rvv |>.const_sub Y).congr_deriv ?_
    rw [c5, r]
    simp
    field_simp
    ring
  have m1 : M (dir 1) 2 = 0 ∧ M (dir 1) 3 = 0 ∧ M (dir 1) 5 = 0 := by
    refine ⟨hM _ _ _ ?_, hM _ _ _ ?_, hM _ _ _ ?_⟩ <;>
    · simp only [up]
      generalize coords p = z
      simp only [combined, coords, place, Matrix.cons_val, Function.update_of_ne, ne_eq, Fin.reduceEq, not_false_eq_true]
      exact hasDerivAt_const (𝕜 := ℝ) _ _
  -- along `pzeta`
  have l5 : HasDerivAt (fun t : ℝ => opdOf p.beta0 ((coords p + t • dir 5) 5)) (1 / p.rvv) 0 := by
    have := hasDerivAt_opdOf (b := p.beta0) (line (coords p) (dir 5) 5) (by simpa [radOf] using fine.rad)
    simp only [dir, Pi.single_eq_same, add_zero, mul_one] at this
    rw [rv] at this
    simpa [dir] using this
  have at0 : opdOf p.beta0 ((coords p + (0 : ℝ) • dir 5) 5) = 1 + p.delta := by simp [c5, r]
  have z0 : ∀ t : ℝ, (coords p + t • dir 5) 0 = p.x := fun t => by simp [dir, c0]
  have z1 : ∀ t : ℝ, (coords p + t • dir 5) 1 = p.px := fun t => by simp [dir, c1]
  have m50 : M (dir 5) 0 = -(p.px * L / (1 + p.delta) ^ 2 / p.rvv) + p.chi * k0 * L ^ 2 / 2 / (1 + p.delta) ^ 2 / p.rvv := by
    refine hM _ _ _ ?_
    simp only [(coords_combined_flat flat _).1, z0, z1]
    have i1 := l5.const_mul 1 |>.fun_inv (by rw [one_mul, at0]; exact hd.ne')
    simp only [one_mul, at0] at i1
    simp only [div_eq_mul_inv]
    refine ((((i1.const_mul p.px).mul_const L).const_add p.x).sub
      ((((i1.const_mul (p.chi * k0)).sub_const h).mul_const 0.5).mul_const (L ^ 2))).congr_deriv ?_
    field_simp
    ring
  have m51 : M (dir 5) 1 = h * L / p.rvv := by
    refine hM _ _ _ ?_
    have e : (fun t : ℝ => (coords (combined L k0 k1 h (place p (coords p + t • dir 5)))) 1)
        =ᶠ[𝓝 0] fun t => (-(p.chi * k0) + h * opdOf p.beta0 ((coords p + t • dir 5) 5)) * L + p.px := by
      have ne : ∀ᶠ t : ℝ in 𝓝 0, opdOf p.beta0 ((coords p + t • dir 5) 5) ≠ 0 :=
        l5.continuousAt.eventually_ne (by rw [at0]; exact hd.ne')
      filter_upwards [ne] with t ht
      rw [(coords_combined_flat flat _).2, z1]
      field_simp
    refine HasDerivAt.congr_of_eventuallyEq ?_ e
    refine (((l5.const_mul h).const_add _).mul_const L |>.add_const p.px).congr_deriv ?_
    ring
  have m55 : M (dir 5) 5 = 1 := by
    refine hM _ _ _ ?_
    have e : ∀ t : ℝ, (coords (combined L k0 k1 h (place p (coords p + t • dir 5)))) 5 = p.ptau / p.beta0 + t := by
      intro t
      simp only [combined, coords, place, Matrix.cons_val]
      simp [dir, hb.ne']
    simp only [e]
    exact (hasDerivAt_id' (0 : ℝ)).const_add _
  have key := o (dir 1) (dir 5)
  have zero : omega (dir 1) (dir 5) = 0 := by simp [omega, dir]
  rw [zero] at key
  simp only [omega, m10, m11, m14, m1.1, m1.2.1, m1.2.2, m50, m51, m55] at key
  have e : L / (1 + p.delta) * (h * L / p.rvv) -
            1 * (-(p.px * L / (1 + p.delta) ^ 2 / p.rvv) + p.chi * k0 * L ^ 2 / 2 / (1 + p.delta) ^ 2 / p.rvv) +
          (0 * M (dir 5) 3 - 0 * M (dir 5) 2) +
        (-(h * L ^ 2 / 2 / (1 + p.delta) + p.px / (1 + p.delta) ^ 2 * L) / p.rvv * 1 - 0 * M (dir 5) 4)
      = L ^ 2 / (2 * (1 + p.delta) ^ 2 * p.rvv) * (h * (1 + p.delta) - p.chi * k0) := by
    field_simp
    ring
  rw [e] at key
  rcases mul_eq_zero.1 key with h1 | h1
  · have : 0 < L ^ 2 / (2 * (1 + p.delta) ^ 2 * p.rvv) := by positivity
    exact this.ne' h1
  · exact off (by linarith)

/-! ### RF kicks -/

theorem canonical_dipole {c : Ctx} {a : RfArgs} {b chi : ℝ} {z : Z}
    (h : Canonical (fun z => ![z 0, z 1 + kickA c a b chi z, z 2, z 3 + kickB c a b chi z, z 4, z 5 + kickC c a b chi z]) z) :
    chi * kap c a b * (Real.sin (phN c a b - kap c a b * z 4) * bn a
        + Real.sin (phT c a b - kap c a b * z 4) * (a.transverseVoltage / c.p0c)) * ((if a.kill then 0 else |c.q0|) - 1) = 0 := by
  obtain ⟨M, hM, o⟩ := h.lines
  have l0 : HasDerivAt (fun t : ℝ => z 0 + t) 1 0 := (hasDerivAt_id' (0 : ℝ)).const_add _
  have l4 : HasDerivAt (fun t : ℝ => z 4 + t) 1 0 := (hasDerivAt_id' (0 : ℝ)).const_add _
  have e0 : ∀ t : ℝ, z + t • dir 0 = ![z 0 + t, z 1, z 2, z 3, z 4, z 5] := fun t => by ext i; fin_cases i <;> simp [dir]
  have e4 : ∀ t : ℝ, z + t • dir 4 = ![z 0, z 1, z 2, z 3, z 4 + t, z 5] := fun t => by ext i; fin_cases i <;> simp [dir]
  have dcos : ∀ q : ℝ, HasDerivAt (fun t : ℝ => Real.cos (q - kap c a b * (z 4 + t))) (kap c a b * Real.sin (q - kap c a b * z 4)) 0 := by
    intro q
    refine (((l4.const_mul (kap c a b)).const_sub q).cos).congr_deriv ?_
    simp
    ring
  have m00 : M (dir 0) 0 = 1 := hM _ _ _ (by simp only [e0, Matrix.cons_val]; exact l0)
  have m01 : M (dir 0) 1 = 0 := hM _ _ _ (by simp only [e0, kickA, Matrix.cons_val]; exact hasDerivAt_const (𝕜 := ℝ) _ _)
  have m02 : M (dir 0) 2 = 0 := hM _ _ _ (by simp only [e0, Matrix.cons_val]; exact hasDerivAt_const (𝕜 := ℝ) _ _)
  have m03 : M (dir 0) 3 = 0 := hM _ _ _ (by simp only [e0, kickB, Matrix.cons_val]; exact hasDerivAt_const (𝕜 := ℝ) _ _)
  have m04 : M (dir 0) 4 = 0 := hM _ _ _ (by simp only [e0, Matrix.cons_val]; exact hasDerivAt_const (𝕜 := ℝ) _ _)
  have m05 : M (dir 0) 5 = -((if a.kill then 0 else |c.q0|) * chi * kap c a b * (Real.sin (phN c a b - kap c a b * z 4) * bn a
      + Real.sin (phT c a b - kap c a b * z 4) * (a.transverseVoltage / c.p0c))) := by
    refine hM _ _ _ ?_
    simp only [e0, kickC, Matrix.cons_val]
    by_cases hk : a.kill = true
    · simp only [hk, if_true]
      exact (hasDerivAt_const (𝕜 := ℝ) _ _).congr_deriv (by ring)
    · simp only [hk]
      refine (((((((l0.const_mul (bn a)).const_mul _).sub_const _).add ((l0.const_mul _).const_mul _)).const_mul _).const_sub
        _).const_add _).congr_deriv ?_
      simp
  have m40 : M (dir 4) 0 = 0 := hM _ _ _ (by simp only [e4, Matrix.cons_val]; exact hasDerivAt_const (𝕜 := ℝ) _ _)
  have m44 : M (dir 4) 4 = 1 := hM _ _ _ (by simp only [e4, Matrix.cons_val]; exact l4)
  have m41 : M (dir 4) 1 = -(chi * kap c a b * (Real.sin (phN c a b - kap c a b * z 4) * bn a
      + Real.sin (phT c a b - kap c a b * z 4) * (a.transverseVoltage / c.p0c))) := by
    refine hM _ _ _ ?_
    simp only [e4, kickA, Matrix.cons_val]
    refine (((((dcos _).mul_const _).add ((dcos _).mul_const _)).const_mul chi).neg.const_add _).congr_deriv ?_
    ring
  have key := o (dir 0) (dir 4)
  have zero : omega (dir 0) (dir 4) = 0 := by simp [omega, dir]
  rw [zero] at key
  simp only [omega, m00, m01, m02, m03, m04, m05, m40, m41, m44] at key
  linear_combination key

/-- A horizontal kick which depends on time and does not come with the change of the energy that belongs to it. -/
theorem dipole_violated {c : Ctx} {a : RfArgs} {p : Part} (k : p.Kin) (hp : c.p0c ≠ 0) (hr : c.chargeRatio ≠ 0) (dip : DipoleOnly a)
    (charge : a.kill = true ∨ |c.q0| ≠ 1)
    (on : p.chi * kap c a p.beta0 * (Real.sin (phN c a p.beta0 - kap c a p.beta0 * p.zeta) * bn a
        + Real.sin (phT c a p.beta0 - kap c a p.beta0 * p.zeta) * (a.transverseVoltage / c.p0c)) ≠ 0) :
    ¬SymplecticAt (fun q => rfKick c a q) p := by
  intro h
  have e : ∀ z : Z, coords (rfKick c a (place p z)) = ![z 0, z 1 + kickA c a p.beta0 p.chi z, z 2, z 3 + kickB c a p.beta0 p.chi z, z 4,
      z 5 + kickC c a p.beta0 p.chi z] := by
    intro z
    have hb : (place p z).beta0 ≠ 0 := k.beta0.ne'
    have h1 := coords_rfKick (p := place p z) hp hr hb dip
    rw [coords_place k.beta0.ne'] at h1
    rw [h1]
    simp [place, k.beta0.ne']
  have h' : Canonical (fun z => coords (rfKick c a (place p z))) (coords p) := h
  simp only [e] at h'
  have key := canonical_dipole h'
  have c4 : coords p 4 = p.zeta := rfl
  rw [c4] at key
  rcases mul_eq_zero.1 key with h1 | h1
  · exact on h1
  · rcases charge with h2 | h2
    · simp [h2] at h1
    · by_cases h3 : a.kill = true
      · simp [h3] at h1
      · simp only [h3, Bool.false_eq_true, if_false] at h1
        exact h2 (by linarith)

/-- An RF quadrupole. -/
def rfQuad (f k phase : ℝ) : RfElement :=
  rfMultipole 0 f 0 0 1 (fun i => if i = 1 then k else 0) 0 0 0 (fun i => if i = 1 then phase else 0) 0 false

theorem rfQuad_track (c : Ctx) (f k phase : ℝ) (p : Part) : (rfQuad f k phase).track c 1 false p = rfKick c (rfQuad f k phase).args p := by
  simp [RfElement.track, rfQuad, rfMultipole, RfElement.modelOf, RfElement.integratorOf, RfElement.kicks, rfBody, steps, uniform,
    rfStepRun, driftModelOf, magnetDrift, rfDriftArgs, RfArgs.scale]

theorem coords_rfQuad {c : Ctx} {f k phase : ℝ} {p : Part} (hp : c.p0c ≠ 0) (hr : c.chargeRatio ≠ 0) (hb : p.beta0 ≠ 0) :
    coords (rfKick c (rfQuad f k phase).args p) = ![p.x,
      p.px - p.chi * (k * p.x * Real.cos (phase - 2 * Real.pi / clight * f / p.beta0 * p.zeta)), p.y,
      p.py + p.chi * (k * p.y * Real.cos (phase - 2 * Real.pi / clight * f / p.beta0 * p.zeta)), p.zeta,
      p.ptau / p.beta0 - |c.q0| * p.chi * (2 * Real.pi / clight * f / p.beta0)
        * (k * (p.x ^ 2 - p.y ^ 2) * Real.sin (phase - 2 * Real.pi / clight * f / p.beta0 * p.zeta))] := by
  have e : 2 * Real.pi / clight * f / p.beta0 * p.zeta = 2 * Real.pi / clight * f * (p.zeta / p.beta0) := by ring
  rw [e]
  ext i
  fin_cases i <;>
    simp [rfKick, rfQuad, rfMultipole, rfSum, rfStep, frequencyOf, phase0Of, addToEnergy, updatePtau, coords, List.range_succ]
  · ring
  · left
    ring
  · by_cases h : p.chi = 0
    · simp [h]
    · field_simp
      ring

/-- The energy which an RF quadrupole takes is twice the one which belongs to its kicks. -/
theorem rfQuad_violated {c : Ctx} {f k phase : ℝ} {p : Part} (kin : p.Kin) (hp : c.p0c ≠ 0) (hr : c.chargeRatio ≠ 0) (hq : |c.q0| ≠ 1 / 2)
    (on : p.chi * k * f * p.x * Real.sin (phase - 2 * Real.pi / clight * f / p.beta0 * p.zeta) ≠ 0) :
    ¬SymplecticAt (fun q => (rfQuad f k phase).track c 1 false q) p := by
  intro h
  have hb := kin.beta0.ne'
  obtain ⟨M, hM, o⟩ := Canonical.lines h
  generalize hK : 2 * Real.pi / clight * f / p.beta0 = K at *
  have e : ∀ z : Z, coords ((rfQuad f k phase).track c 1 false (place p z))
      = ![z 0, z 1 - p.chi * (k * z 0 * Real.cos (phase - K * z 4)), z 2, z 3 + p.chi * (k * z 2 * Real.cos (phase - K * z 4)), z 4,
        z 5 - |c.q0| * p.chi * K * (k * (z 0 ^ 2 - z 2 ^ 2) * Real.sin (phase - K * z 4))] := by
    intro z
    rw [rfQuad_track, coords_rfQuad (p := place p z) hp hr hb, ← hK]
    simp [place, hb]
  generalize hz : coords p = z at *
  have z0 : z 0 = p.x := by rw [← hz]; rfl
  have z4 : z 4 = p.zeta := by rw [← hz]; rfl
  have l0 : HasDerivAt (fun t : ℝ => z 0 + t) 1 0 := (hasDerivAt_id' (0 : ℝ)).const_add _
  have l4 : HasDerivAt (fun t : ℝ => z 4 + t) 1 0 := (hasDerivAt_id' (0 : ℝ)).const_add _
  have e0 : ∀ t : ℝ, z + t • dir 0 = ![z 0 + t, z 1, z 2, z 3, z 4, z 5] := fun t => by ext i; fin_cases i <;> simp [dir]
  have e4 : ∀ t : ℝ, z + t • dir 4 = ![z 0, z 1, z 2, z 3, z 4 + t, z 5] := fun t => by ext i; fin_cases i <;> simp [dir]
  have dcos : HasDerivAt (fun t : ℝ => Real.cos (phase - K * (z 4 + t))) (K * Real.sin (phase - K * z 4)) 0 := by
    refine (((l4.const_mul K).const_sub phase).cos).congr_deriv ?_
    simp
    ring
  have m00 : M (dir 0) 0 = 1 := hM _ _ _ (by simp only [e, e0, Matrix.cons_val]; exact l0)
  have m02 : M (dir 0) 2 = 0 := hM _ _ _ (by simp only [e, e0, Matrix.cons_val]; exact hasDerivAt_const (𝕜 := ℝ) _ _)
  have m03 : M (dir 0) 3 = 0 := hM _ _ _ (by simp only [e, e0, Matrix.cons_val]; exact hasDerivAt_const (𝕜 := ℝ) _ _)
  have m04 : M (dir 0) 4 = 0 := hM _ _ _ (by simp only [e, e0, Matrix.cons_val]; exact hasDerivAt_const (𝕜 := ℝ) _ _)
  have m05 : M (dir 0) 5 = -(|c.q0| * p.chi * K * (k * (2 * z 0) * Real.sin (phase - K * z 4))) := by
    refine hM _ _ _ ?_
    simp only [e, e0, Matrix.cons_val]
    refine ((((((l0.pow 2).sub_const _).const_mul k).mul_const _).const_mul _).const_sub _).congr_deriv ?_
    simp
  have m40 : M (dir 4) 0 = 0 := hM _ _ _ (by simp only [e, e4, Matrix.cons_val]; exact hasDerivAt_const (𝕜 := ℝ) _ _)
  have m44 : M (dir 4) 4 = 1 := hM _ _ _ (by simp only [e, e4, Matrix.cons_val]; exact l4)
  have m41 : M (dir 4) 1 = -(p.chi * (k * z 0 * (K * Real.sin (phase - K * z 4)))) := by
    refine hM _ _ _ ?_
    simp only [e, e4, Matrix.cons_val]
    exact (((dcos.const_mul _).const_mul _).const_sub _).congr_deriv (by ring)
  have key := o (dir 0) (dir 4)
  have zero : omega (dir 0) (dir 4) = 0 := by simp [omega, dir]
  rw [zero] at key
  simp only [omega, m00, m02, m03, m04, m05, m40, m41, m44, z0, z4] at key
  have key2 : p.chi * k * K * p.x * Real.sin (phase - K * p.zeta) * (2 * |c.q0| - 1) = 0 := by linear_combination key
  rcases mul_eq_zero.1 key2 with h1 | h1
  · apply on
    have hc : clight ≠ 0 := by unfold clight; norm_num
    have hf : f = K * p.beta0 * clight / (2 * Real.pi) := by
      rw [← hK]
      have := Real.pi_ne_zero
      field_simp
    calc p.chi * k * f * p.x * Real.sin (phase - K * p.zeta)
        = p.chi * k * (K * p.beta0 * clight / (2 * Real.pi)) * p.x * Real.sin (phase - K * p.zeta) := by rw [← hf]
      _ = p.chi * k * K * p.x * Real.sin (phase - K * p.zeta) * (p.beta0 * clight / (2 * Real.pi)) := by ring
      _ = 0 := by rw [h1, zero_mul]
  · exact hq (by linarith)

end

end Verif.Symplectic
