import Verif.Symplectic.Lift
import Verif.Magnets.DriftProps
import Mathlib.Analysis.SpecialFunctions.Sqrt

/-!
# Motion according to Hamilton's equations is symplectic
-/

namespace Verif.Symplectic

open Frames Magnets Filter Topology

noncomputable section

/-- The rates as a vector in phase space. -/
def vec (r : Rates) : Z := ![r.x, r.px, r.y, r.py, r.zeta, 0]

/-- The rates `r` are Hamilton's equations of `K` for particles like `p`, where `Ok`. -/
def HamiltonOn (K : Z → ℝ) (r : Part → Rates) (p : Part) (Ok : Z → Prop) : Prop :=
  ∀ z, Ok z → ContDiffAt ℝ 2 K z ∧ ∀ u, fderiv ℝ K z u = omega (vec (r (place p z))) u

theorem symplectic_flow {F : ℝ → Part → Part} {r : Part → Rates} {K : Z → ℝ} {p : Part} {L : ℝ} {Ok : Z → Prop} (k : p.Kin)
    (h0 : ∀ᶠ z in 𝓝 (coords p), coords (F 0 (place p z)) = z) (kind : ∀ t q, SameKind q (F t q)) (same : ∀ q q', Alike q q' → r q = r q')
    (ham : HamiltonOn K r p Ok)
    (smooth : ∀ t ∈ Set.uIcc 0 L, ContDiffAt ℝ 2 (fun a : ℝ × Z => coords (F a.1 (place p a.2))) (t, coords p))
    (solves : ∀ t ∈ Set.uIcc 0 L, ∀ᶠ z in 𝓝 (coords p), Solves r (fun t => F t (place p z)) t ∧ Ok (coords (F t (place p z)))) :
    SymplecticAt (F L) p := by
  refine flow (φ := fun t z => coords (F t (place p z))) (H := K) h0 smooth (fun t ht => ?_) fun t ht => ?_
  · exact (ham _ (solves t ht).self_of_nhds.2).1
  · filter_upwards [solves t ht, fine_near (fine_coords k)] with z ⟨h1, h2⟩ hz
    refine ⟨vec (r (F t (place p z))), ?_, ?_⟩
    · rw [hasDerivAt_pi]
      intro i
      fin_cases i
      · exact h1.x
      · exact h1.px
      · exact h1.y
      · exact h1.py
      · exact h1.zeta
      · refine (hasDerivAt_const t ((place p z).ptau / (place p z).beta0)).congr_of_eventuallyEq (Eventually.of_forall fun t => ?_)
        show (F t (place p z)).ptau / (F t (place p z)).beta0 = _
        rw [(kind t _).ptau, (kind t _).beta0]
    · intro u
      have kz := kin_place k.beta0 hz
      have kF : (F t (place p z)).Kin := by
        obtain ⟨h1, h2, h3, h4, h5, h6⟩ := kind t (place p z)
        obtain ⟨k1, k2, k3, k4, k5, k6⟩ := kz
        constructor <;> simp only [h1, h2, h3, h4, h5] <;> assumption
      rw [same _ _ (place_alike (p := p) kF (kind t _).beta0 (kind t _).chi)]
      exact (ham _ h2).2 u

/-! ## The Hamiltonians -/

/-- The square of the momentum as a function of `pzeta`. -/
def radOf (b z : ℝ) : ℝ := 1 + 2 * z + b ^ 2 * z ^ 2

theorem line (z u : Z) (i : Fin 6) : HasDerivAt (fun t : ℝ => z i + t * u i) (u i) 0 := by
  simpa using ((hasDerivAt_id' (0 : ℝ)).mul_const (u i)).const_add (z i)

theorem hasDerivAt_radOf {b : ℝ} {f : ℝ → ℝ} {f' t : ℝ} (h : HasDerivAt f f' t) :
    HasDerivAt (fun t => radOf b (f t)) (2 * (1 + b ^ 2 * f t) * f') t := by
  unfold radOf
  refine (((h.const_mul 2).const_add 1).add ((h.pow 2).const_mul (b ^ 2))).congr_deriv ?_
  simp
  ring

theorem hasDerivAt_opdOf {b : ℝ} {f : ℝ → ℝ} {f' t : ℝ} (h : HasDerivAt f f' t) (pos : 0 < radOf b (f t)) :
    HasDerivAt (fun t => opdOf b (f t)) ((1 + b ^ 2 * f t) / opdOf b (f t) * f') t := by
  refine ((hasDerivAt_radOf h).sqrt pos.ne').congr_deriv ?_
  have : opdOf b (f t) ≠ 0 := (opdOf_pos pos).ne'
  change 2 * (1 + b ^ 2 * f t) * f' / (2 * opdOf b (f t)) = _
  field_simp

/-- The longitudinal momentum. -/
def pzZ (b : ℝ) (z : Z) : ℝ := Real.sqrt (radOf b (z 5) - z 1 ^ 2 - z 3 ^ 2)

/-- The coordinates are those of a particle which moves forward. -/
structure FineForward (b : ℝ) (z : Z) : Prop extends Fine b z where
  forward : 0 < radOf b (z 5) - z 1 ^ 2 - z 3 ^ 2

/-- A uniform field in a frame which turns. -/
def bendHam (p : Part) (k0 h : ℝ) (z : Z) : ℝ :=
  z 5 - (1 + h * z 0) * pzZ p.beta0 z + p.chi * k0 * (z 0 + h * z 0 ^ 2 / 2)

theorem place_pz {p : Part} {z : Z} (h : Fine p.beta0 z) : (place p z).pz = pzZ p.beta0 z := by
  simp only [Part.pz, place, pzZ, radOf, add_sub_cancel, opdOf_sq h.rad]

theorem bend_hamilton (p : Part) (k0 h : ℝ) : HamiltonOn (bendHam p k0 h) (bendRates k0 h) p (FineForward p.beta0) := by
  intro z ok
  have hf := ok.forward
  have hz : Real.sqrt (radOf p.beta0 (z 5) - z 1 ^ 2 - z 3 ^ 2) ≠ 0 := (Real.sqrt_pos.2 hf).ne'
  have smooth : ContDiffAt ℝ 2 (bendHam p k0 h) z := by
    unfold bendHam pzZ radOf
    have := hf.ne'
    unfold radOf at this
    fun_prop (disch := assumption)
  refine ⟨smooth, fun u => fderiv_line (smooth.differentiableAt (by norm_num)) ?_⟩
  have l := line z u
  have hp := (((hasDerivAt_radOf (b := p.beta0) (l 5)).sub ((l 1).pow 2)).sub ((l 3).pow 2)).sqrt (by simpa using hf.ne')
  have hd := ((l 5).sub ((((l 0).const_mul h).const_add 1).mul hp)).add
    (((l 0).add ((((l 0).pow 2).const_mul h).div_const 2)).const_mul (p.chi * k0))
  have hE := ok.energy
  have ho := opdOf_pos ok.rad
  refine HasDerivAt.congr_deriv hd ?_
  simp only [omega, vec, bendRates, place_pz ok.toFine]
  simp only [place, pzZ, zero_mul, add_zero, Matrix.cons_val, add_sub_cancel, Pi.sub_apply, Pi.pow_apply]
  generalize Real.sqrt (radOf p.beta0 (z 5) - z 1 ^ 2 - z 3 ^ 2) = pz at hz
  generalize opdOf p.beta0 (z 5) = o at ho
  field_simp
  ring

/-- Combined dipole and quadrupole to second order. -/
def expandedHam (p : Part) (k0 k1 h : ℝ) (z : Z) : ℝ :=
  z 5 + (z 1 ^ 2 + z 3 ^ 2) / (2 * opdOf p.beta0 (z 5)) - (1 + h * z 0) * opdOf p.beta0 (z 5) + p.chi * k0 * (z 0 + h * z 0 ^ 2 / 2)
    + p.chi * k1 * (z 0 ^ 2 - z 2 ^ 2) / 2

theorem expanded_hamilton (p : Part) (k0 k1 h : ℝ) :
    HamiltonOn (expandedHam p k0 k1 h) (expandedRates k0 k1 h) p (Fine p.beta0) := by
  intro z ok
  have hf := ok.rad
  have ho := opdOf_pos ok.rad
  have smooth : ContDiffAt ℝ 2 (expandedHam p k0 k1 h) z := by
    have h1 : 1 + 2 * z 5 + p.beta0 ^ 2 * z 5 ^ 2 ≠ 0 := hf.ne'
    have h2 : 2 * Real.sqrt (1 + 2 * z 5 + p.beta0 ^ 2 * z 5 ^ 2) ≠ 0 := mul_ne_zero two_ne_zero ho.ne'
    unfold expandedHam opdOf
    fun_prop (disch := assumption)
  refine ⟨smooth, fun u => fderiv_line (smooth.differentiableAt (by norm_num)) ?_⟩
  have l := line z u
  have hp := hasDerivAt_opdOf (b := p.beta0) (l 5) (by simpa [radOf] using hf)
  have hd := (((((l 5).add ((((l 1).pow 2).add ((l 3).pow 2)).div (hp.const_mul 2) (by simpa using ho.ne'))).sub
    ((((l 0).const_mul h).const_add 1).mul hp)).add
    (((l 0).add ((((l 0).pow 2).const_mul h).div_const 2)).const_mul (p.chi * k0)))).add
    (((((l 0).pow 2).sub ((l 2).pow 2)).const_mul (p.chi * k1)).div_const 2)
  have hE := ok.energy
  refine HasDerivAt.congr_deriv hd ?_
  simp only [omega, vec, expandedRates, place, zero_mul, add_zero, Matrix.cons_val, add_sub_cancel, Pi.pow_apply, Pi.add_apply]
  generalize opdOf p.beta0 (z 5) = o at ho
  field_simp
  ring

/-- The coordinates are those of a particle which moves forward in a solenoid. -/
structure FineSolenoid (b ks x0 y0 : ℝ) (z : Z) : Prop extends Fine b z where
  forward : 0 < radOf b (z 5) - (z 1 + ks / 2 * (z 2 - y0)) ^ 2 - (z 3 - ks / 2 * (z 0 - x0)) ^ 2

/-- A uniform longitudinal field. -/
def solenoidHam (p : Part) (ks x0 y0 : ℝ) (z : Z) : ℝ :=
  z 5 - Real.sqrt (radOf p.beta0 (z 5) - (z 1 + ks / 2 * (z 2 - y0)) ^ 2 - (z 3 - ks / 2 * (z 0 - x0)) ^ 2)

theorem solenoid_hamilton (p : Part) (ks x0 y0 : ℝ) :
    HamiltonOn (solenoidHam p ks x0 y0) (solenoidRates ks x0 y0) p (FineSolenoid p.beta0 ks x0 y0) := by
  intro z ok
  have hf := ok.forward
  have hz : Real.sqrt (radOf p.beta0 (z 5) - (z 1 + ks / 2 * (z 2 - y0)) ^ 2 - (z 3 - ks / 2 * (z 0 - x0)) ^ 2) ≠ 0 :=
    (Real.sqrt_pos.2 hf).ne'
  have smooth : ContDiffAt ℝ 2 (solenoidHam p ks x0 y0) z := by
    unfold solenoidHam radOf
    have := hf.ne'
    unfold radOf at this
    fun_prop (disch := assumption)
  refine ⟨smooth, fun u => fderiv_line (smooth.differentiableAt (by norm_num)) ?_⟩
  have l := line z u
  have hp := (((hasDerivAt_radOf (b := p.beta0) (l 5)).sub (((l 1).add (((l 2).sub_const y0).const_mul (ks / 2))).pow 2)).sub
    (((l 3).sub (((l 0).sub_const x0).const_mul (ks / 2))).pow 2)).sqrt (by simpa using hf.ne')
  have hE := ok.energy
  have ho := opdOf_pos ok.rad
  have ho2 := opdOf_sq ok.rad
  refine HasDerivAt.congr_deriv ((l 5).sub hp) ?_
  simp only [omega, vec, solenoidRates, place, zero_mul, add_zero, Matrix.cons_val, add_sub_cancel, Pi.sub_apply, Pi.pow_apply,
    Pi.add_apply, ho2]
  rw [show 1 + 2 * z 5 + p.beta0 ^ 2 * z 5 ^ 2 = radOf p.beta0 (z 5) from rfl]
  generalize Real.sqrt (radOf p.beta0 (z 5) - (z 1 + ks / 2 * (z 2 - y0)) ^ 2 - (z 3 - ks / 2 * (z 0 - x0)) ^ 2) = pz at hz
  generalize opdOf p.beta0 (z 5) = o at ho
  field_simp
  ring

end

end Verif.Symplectic
