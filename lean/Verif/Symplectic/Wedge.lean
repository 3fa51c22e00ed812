import Verif.Symplectic.Rotations
import Verif.Edges.Props

/-!
# Wedges are symplectic
-/

namespace Verif.Symplectic

open Frames hiding curvature
open Magnets Edges Filter Topology

noncomputable section

theorem hasDerivAt_arcsin_ratio {R X : ℝ → ℝ} {e X' t : ℝ} (hR : HasDerivAt R (2 * e) t) (hX : HasDerivAt X X' t)
    (pos : 0 < R t - X t ^ 2) : HasDerivAt (fun t => Real.arcsin (1 / Real.sqrt (R t) * X t))
      ((X' - X t * e / R t) / Real.sqrt (R t - X t ^ 2)) t := by
  have hR0 : 0 < R t := by nlinarith [sq_nonneg (X t)]
  have hr := Real.sqrt_pos.2 hR0
  have hrr := Real.sq_sqrt hR0.le
  have hp := Real.sqrt_pos.2 pos
  have e1 : 1 - (1 / Real.sqrt (R t) * X t) ^ 2 = (R t - X t ^ 2) / R t := by
    rw [mul_pow, div_pow, hrr]
    field_simp
  have pos1 : 0 < 1 - (1 / Real.sqrt (R t) * X t) ^ 2 := by
    rw [e1]
    positivity
  have e2 : Real.sqrt (1 - (1 / Real.sqrt (R t) * X t) ^ 2) = Real.sqrt (R t - X t ^ 2) / Real.sqrt (R t) := by
    rw [e1, Real.sqrt_div pos.le]
  have h1 : 1 / Real.sqrt (R t) * X t ≠ -1 := by
    intro h
    rw [h] at pos1
    norm_num at pos1
  have h2 : 1 / Real.sqrt (R t) * X t ≠ 1 := by
    intro h
    rw [h] at pos1
    norm_num at pos1
  have hs := (hR.sqrt hR0.ne')
  have hg := ((hasDerivAt_const t (1 : ℝ)).div hs hr.ne').mul hX
  have ha := (Real.hasDerivAt_arcsin (x := 1 / Real.sqrt (R t) * X t) h1 h2).comp t hg
  refine ha.congr_deriv ?_
  rw [e2]
  simp only [Pi.div_apply]
  generalize Real.sqrt (R t - X t ^ 2) = q at hp
  generalize Real.sqrt (R t) = r at hr hrr ⊢
  rw [← hrr]
  field_simp
  ring

/-- The new horizontal momentum in a wedge. -/
def wedgePx (b B th : ℝ) (z : Z) : ℝ := z 1 * Real.cos th + (pzZ b z - B * z 0) * Real.sin th

/-- The angle by which the momentum turns. -/
def wedgeTurn (b B th : ℝ) (z : Z) : ℝ :=
  th + (Real.arcsin (1 / Real.sqrt (radOf b (z 5) - z 3 ^ 2) * z 1)
    - Real.arcsin (1 / Real.sqrt (radOf b (z 5) - z 3 ^ 2) * wedgePx b B th z))

/-- The map of a wedge. -/
def wedgeMap (b B th : ℝ) (z : Z) : Z :=
  ![(Real.sqrt (radOf b (z 5) - z 3 ^ 2 - wedgePx b B th z ^ 2) - ((pzZ b z - B * z 0) * Real.cos th - z 1 * Real.sin th)) / B,
    wedgePx b B th z, z 2 + z 3 * wedgeTurn b B th z / B, z 3, z 4 - (1 + b ^ 2 * z 5) * wedgeTurn b B th z / B, z 5]

theorem canonical_wedgeMap {b B th : ℝ} (hB : B ≠ 0) {z : Z} (fz : FineForward b z)
    (out : 0 < radOf b (z 5) - z 3 ^ 2 - wedgePx b B th z ^ 2) : Canonical (wedgeMap b B th) z := by
  have hpz := Real.sqrt_pos.2 fz.forward
  have hq := Real.sqrt_pos.2 out
  have c5 : radOf b (z 5) - z 3 ^ 2 - z 1 ^ 2 = radOf b (z 5) - z 1 ^ 2 - z 3 ^ 2 := by ring
  have in' : 0 < radOf b (z 5) - z 3 ^ 2 - z 1 ^ 2 := by rw [c5]; exact fz.forward
  have hr0 : 0 < radOf b (z 5) - z 3 ^ 2 := by nlinarith [sq_nonneg (z 1)]
  let e : Z → ℝ := fun u => (1 + b ^ 2 * z 5) * u 5 - z 3 * u 3
  let dz : Z → ℝ := fun u => (e u - z 1 * u 1) / pzZ b z
  let dP : Z → ℝ := fun u => u 1 * Real.cos th + (dz u - B * u 0) * Real.sin th
  let Q := Real.sqrt (radOf b (z 5) - z 3 ^ 2 - wedgePx b B th z ^ 2)
  let r2 := radOf b (z 5) - z 3 ^ 2
  let dT : Z → ℝ := fun u => (u 1 - z 1 * e u / r2) / pzZ b z - (dP u - wedgePx b B th z * e u / r2) / Q
  have hzz := fun u => hasDerivAt_pzZ (b := b) fz.forward u
  have z0 : ∀ u : Z, z + (0 : ℝ) • u = z := fun u => by simp
  have hP : ∀ u, HasDerivAt (fun t : ℝ => wedgePx b B th (z + t • u)) (dP u) 0 := by
    intro u
    have l := line z u
    refine (((l 1).mul_const (Real.cos th)).add (((hzz u).sub ((l 0).const_mul B)).mul_const (Real.sin th))).congr_deriv ?_
    simp only [dP, dz, e]
    ring
  have hR : ∀ u : Z, HasDerivAt (fun t : ℝ => radOf b (z 5 + t * u 5) - (z 3 + t * u 3) ^ 2) (2 * e u) 0 := by
    intro u
    have l := line z u
    refine ((hasDerivAt_radOf (b := b) (l 5)).sub ((l 3).pow 2)).congr_deriv ?_
    simp only [e, zero_mul, add_zero]
    ring
  have hQ : ∀ u, HasDerivAt (fun t : ℝ => Real.sqrt (radOf b (z 5 + t * u 5) - (z 3 + t * u 3) ^ 2 - wedgePx b B th (z + t • u) ^ 2))
      ((e u - wedgePx b B th z * dP u) / Q) 0 := by
    intro u
    refine (((hR u).sub ((hP u).pow 2)).sqrt (by simpa using out.ne')).congr_deriv ?_
    simp only [Pi.sub_apply, Pi.pow_apply, z0, zero_mul, add_zero]
    simp only [Q]
    generalize Real.sqrt (radOf b (z 5) - z 3 ^ 2 - wedgePx b B th z ^ 2) = q at hq
    field_simp
    ring
  have hT : ∀ u, HasDerivAt (fun t : ℝ => wedgeTurn b B th (z + t • u)) (dT u) 0 := by
    intro u
    have l := line z u
    have a1 := hasDerivAt_arcsin_ratio (hR u) (l 1) (by simpa using in')
    have a2 := hasDerivAt_arcsin_ratio (hR u) (hP u) (by simpa using out)
    refine ((a1.sub a2).const_add th).congr_deriv ?_
    simp only [z0, zero_mul, add_zero, c5]
    rfl
  have hd : DifferentiableAt ℝ (wedgeMap b B th) z := by
    have h1 := contDiffAt_pzZ (n := 1) fz.forward
    have h2 : ContDiffAt ℝ 1 (fun z => wedgePx b B th z) z := by
      unfold wedgePx
      fun_prop
    have h3 := out.ne'
    have h4 := hr0.ne'
    have h5 := (Real.sqrt_pos.2 hr0).ne'
    have asin : ∀ X : Z → ℝ, ContDiffAt ℝ 1 X z → 0 < radOf b (z 5) - z 3 ^ 2 - X z ^ 2 →
        ContDiffAt ℝ 1 (fun z : Z => Real.arcsin (1 / Real.sqrt (radOf b (z 5) - z 3 ^ 2) * X z)) z := by
      intro X hX pos
      have e1 : (1 / Real.sqrt (radOf b (z 5) - z 3 ^ 2) * X z) ^ 2 < 1 := by
        rw [mul_pow, div_pow, Real.sq_sqrt hr0.le, one_pow, div_mul_eq_mul_div, one_mul, div_lt_one hr0]
        linarith
      refine ContDiffAt.comp (g := Real.arcsin) z (Real.contDiffAt_arcsin ?_ ?_) (by fun_prop (disch := assumption))
      · intro h
        rw [h] at e1
        norm_num at e1
      · intro h
        rw [h] at e1
        norm_num at e1
    have h6 : ContDiffAt ℝ 1 (fun z => wedgeTurn b B th z) z := by
      unfold wedgeTurn
      exact contDiffAt_const.add ((asin (fun z => z 1) (by fun_prop) in').sub (asin _ h2 out))
    refine ContDiffAt.differentiableAt (n := 1) ?_ (by norm_num)
    rw [contDiffAt_pi]
    intro i
    fin_cases i <;> simp only [wedgeMap, Fin.zero_eta, Fin.mk_one, Fin.reduceFinMk, Matrix.cons_val] <;>
      fun_prop (disch := assumption)
  let D : Z → Z := fun u => ![((e u - wedgePx b B th z * dP u) / Q - ((dz u - B * u 0) * Real.cos th - u 1 * Real.sin th)) / B, dP u,
    u 2 + (u 3 * wedgeTurn b B th z + z 3 * dT u) / B, u 3,
    u 4 - (b ^ 2 * u 5 * wedgeTurn b B th z + (1 + b ^ 2 * z 5) * dT u) / B, u 5]
  refine canonical_of_lines hd D ?_ ?_
  · intro u i
    have l := line z u
    fin_cases i
    · refine (((hQ u).sub ((((hzz u).sub ((l 0).const_mul B)).mul_const (Real.cos th)).sub ((l 1).mul_const (Real.sin th)))).div_const
        B).congr_deriv ?_
      simp [D, dz, e]
      ring_nf
    · exact hP u
    · refine ((l 2).add (((l 3).mul (hT u)).div_const B)).congr_deriv ?_
      simp [D]
    · exact l 3
    · refine ((l 4).sub (((((l 5).const_mul (b ^ 2)).const_add 1).mul (hT u)).div_const B)).congr_deriv ?_
      simp [D]
    · exact l 5
  · intro v w
    have hcs := Real.sin_sq_add_cos_sq th
    have hBi : B * B⁻¹ = 1 := mul_inv_cancel₀ hB
    have hev : e v = (1 + b ^ 2 * z 5) * v 5 - z 3 * v 3 := rfl
    have hew : e w = (1 + b ^ 2 * z 5) * w 5 - z 3 * w 3 := rfl
    have hT' : ∀ u, dT u = (u 1 - z 1 * e u / r2) / pzZ b z - (dP u - wedgePx b B th z * e u / r2) / Q := fun u => rfl
    have hP' : ∀ u, dP u = u 1 * Real.cos th + (dz u - B * u 0) * Real.sin th := fun u => rfl
    have hz' : ∀ u, dz u = (e u - z 1 * u 1) / pzZ b z := fun u => rfl
    have step : omega (D v) (D w) = (e v * dP w - e w * dP v) / Q / B
        + (v 1 * dz w - w 1 * dz v) / B + (v 0 * w 1 - v 1 * w 0) - (dT v * e w - dT w * e v) / B
        + (v 2 * w 3 - v 3 * w 2) + (v 4 * w 5 - v 5 * w 4) := by
      simp only [D, omega, Matrix.cons_val]
      have h1 := hP' v
      have h2 := hP' w
      generalize dT v = tv at *
      generalize dT w = tw at *
      rw [hev, hew, h1, h2]
      generalize dz v = zv at *
      generalize dz w = zw at *
      linear_combination ((v 1 * zw - w 1 * zv) / B + (v 0 * w 1 - v 1 * w 0)) * hcs
        + ((Real.sin th ^ 2 + Real.cos th ^ 2) * (v 0 * w 1 - v 1 * w 0)) * hBi
    rw [step, hT', hT', hz', hz']
    unfold omega
    ring

theorem lawful_wedge (t k0 : ℝ) : Lawful (wedge t k0) :=
  Lawful.of_kind (fun _ => by
      unfold wedge yRot
      simp only
      split_ifs <;> exact ⟨rfl, rfl, rfl, rfl, rfl, rfl⟩) fun p q e => by
    unfold wedge
    by_cases hb : |k0 * p.chi| < 10e-10
    · simp only [e.chi, if_pos hb]
      exact ((lawful_yRot _ _ _).alike _ _ e).coords.symm
    · simp only [e.chi, if_neg hb]
      split_ifs <;> simp [coords, e.x, e.px, e.y, e.py, e.zeta, e.delta, e.rvv, e.ptau, e.beta0]

/-- The particle crosses the wedge. -/
def WedgeOk (t k0 : ℝ) (p : Part) : Prop :=
  if |k0 * p.chi| < 10e-10 then p.Forward ∧ Real.cos t ≠ 0 ∧ 1 - Real.tan t * p.px / p.pz ≠ 0 else Enters t k0 p

/-- A wedge in a uniform field, or the rotation of the frame which it is without field. -/
theorem symplectic_wedge {p : Part} (k : p.Kin) {t k0 : ℝ} (ok : WedgeOk t k0 p) : SymplecticAt (wedge t k0) p := by
  by_cases hb : |k0 * p.chi| < 10e-10
  · rw [WedgeOk, if_pos hb] at ok
    obtain ⟨f, hc, hx⟩ := ok
    have s := symplectic_yRot k (s := -Real.sin t) (c := Real.cos t) (t := -Real.tan t) hc
      (by rw [Real.tan_eq_sin_div_cos, neg_div]) f (by rw [neg_mul, neg_div, ← sub_eq_add_neg]; exact hx)
    refine s.congr (Eventually.of_forall fun z => ?_)
    have hb' : |k0 * (place p z).chi| < 10e-10 := hb
    simp only [wedge, if_pos hb']
  · rw [WedgeOk, if_neg hb] at ok
    have hB : k0 * p.chi ≠ 0 := by
      intro h0
      rw [h0] at hb
      norm_num at hb
    have fz := fineForward_coords k ok.forward
    have out : 0 < radOf p.beta0 (coords p 5) - coords p 3 ^ 2 - wedgePx p.beta0 (k0 * p.chi) t (coords p) ^ 2 := by
      have h := ok.leaves hB
      have h5 := opdOf_sq fz.rad
      rw [show coords p 5 = p.ptau / p.beta0 from rfl, opd_coords k] at h5
      rw [pz_coords k, h5] at h
      have : radOf p.beta0 (coords p 5) = 1 + 2 * (p.ptau / p.beta0) + p.beta0 ^ 2 * (p.ptau / p.beta0) ^ 2 := rfl
      unfold wedgePx
      rw [this]
      show 0 < _ - p.py ^ 2 - (p.px * _ + (_ - _ * p.x) * _) ^ 2
      linarith
    have cr : ContinuousAt (fun z : Z => pzZ p.beta0 z * Real.cos t - z 1 * Real.sin t) (coords p) := by
      have := contDiffAt_pzZ (n := 1) fz.forward
      exact ContDiffAt.continuousAt (n := 1) (𝕜 := ℝ) (by fun_prop)
    have c1 : 0 < pzZ p.beta0 (coords p) * Real.cos t - coords p 1 * Real.sin t := by
      have h := ok.crosses
      simp only [Crosses, Frame.yaw, Real.sin_neg, Real.cos_neg] at h
      rw [← pz_coords k]
      show 0 < _ - p.px * _
      linarith
    have co : ContinuousAt (fun z : Z => radOf p.beta0 (z 5) - z 3 ^ 2 - wedgePx p.beta0 (k0 * p.chi) t z ^ 2) (coords p) := by
      have := contDiffAt_pzZ (n := 1) fz.forward
      unfold wedgePx
      exact ContDiffAt.continuousAt (n := 1) (𝕜 := ℝ) (by fun_prop)
    refine (canonical_wedgeMap hB fz out).congr ?_
    filter_upwards [fineForward_near fz, cr.eventually (lt_mem_nhds c1), co.eventually (lt_mem_nhds out)] with z hz hc ho
    have h5 := opdOf_sq hz.rad
    have hpz := place_pz (p := p) hz.toFine
    have hod : 1 + (place p z).delta = opdOf p.beta0 (z 5) := opd_place p z
    have hleaves : 0 < (1 + (place p z).delta) ^ 2
        - ((place p z).px * Real.cos t + ((place p z).pz - k0 * (place p z).chi * (place p z).x) * Real.sin t) ^ 2
        - (place p z).py ^ 2 := by
      rw [hod, h5, hpz]
      have h : 0 < radOf p.beta0 (z 5) - z 3 ^ 2 - wedgePx p.beta0 (k0 * p.chi) t z ^ 2 := ho
      unfold wedgePx radOf at h
      show 0 < _ - (z 1 * _ + (_ - _ * z 0) * _) ^ 2 - z 3 ^ 2
      show 0 < _ - (z 1 * _ + (_ - k0 * p.chi * z 0) * _) ^ 2 - z 3 ^ 2
      linarith
    have en : Enters t k0 (place p z) := by
      refine ⟨kin_place k.beta0 hz.toFine, ?_, ?_, fun h => absurd h hB, fun _ => hleaves⟩
      · unfold Part.Forward
        rw [hod, h5]
        exact hz.forward
      · simp only [Crosses, Frame.yaw, Real.sin_neg, Real.cos_neg, hpz]
        show 0 < _ * z 1 + 0 * z 3 + _
        have : 0 < pzZ p.beta0 z * Real.cos t - z 1 * Real.sin t := hc
        linarith
    obtain ⟨w1, w2, w3, w4, w5, w6, w7, w8, -⟩ := wedge_on (p := place p z) (not_lt.1 hb) en
    have hpx : (wedge t k0 (place p z)).px = wedgePx p.beta0 (k0 * p.chi) t z := by
      rw [w1, hpz]
      rfl
    have hpz' : (wedge t k0 (place p z)).pz = Real.sqrt (radOf p.beta0 (z 5) - z 3 ^ 2 - wedgePx p.beta0 (k0 * p.chi) t z ^ 2) := by
      unfold Part.pz
      rw [hpx, w4, w6.delta, hod, h5]
      congr 1
      show radOf p.beta0 (z 5) - _ - z 3 ^ 2 = _
      ring
    have hx : (wedge t k0 (place p z)).x = wedgeMap p.beta0 (k0 * p.chi) t z 0 := by
      rw [hpz', hpz] at w2
      show _ = (_ - _) / (k0 * p.chi)
      rw [eq_div_iff hB]
      have w2' : Real.sqrt (radOf p.beta0 (z 5) - z 3 ^ 2 - wedgePx p.beta0 (k0 * p.chi) t z ^ 2)
        - k0 * p.chi * (wedge t k0 (place p z)).x = (pzZ p.beta0 z - k0 * p.chi * z 0) * Real.cos t - z 1 * Real.sin t := w2
      linear_combination -w2'
    have hr : radOf p.beta0 (z 5) = opdOf p.beta0 (z 5) ^ 2 := h5.symm
    ext i
    fin_cases i
    · exact hx
    · exact hpx
    · show (wedge t k0 (place p z)).y = _
      rw [w7, hpx, hod]
      simp only [wedgeMap, wedgeTurn, hr, Fin.reduceFinMk, Matrix.cons_val]
      rfl
    · exact w4
    · show (wedge t k0 (place p z)).zeta = _
      rw [w8, hpx, hod]
      simp only [wedgeMap, wedgeTurn, hr, Fin.reduceFinMk, Matrix.cons_val]
      have ho0 := (opdOf_pos hz.rad).ne'
      have he0 := hz.energy.ne'
      have key : ∀ T : ℝ, z 4 - opdOf p.beta0 (z 5) * T / (k0 * p.chi) / (opdOf p.beta0 (z 5) / (1 + p.beta0 ^ 2 * z 5))
          = z 4 - (1 + p.beta0 ^ 2 * z 5) * T / (k0 * p.chi) := by
        intro T
        field_simp
      exact key _
    · show (wedge t k0 (place p z)).ptau / (wedge t k0 (place p z)).beta0 = _
      rw [w6.ptau, w6.beta0]
      simp [place, wedgeMap, k.beta0.ne']

end

end Verif.Symplectic
