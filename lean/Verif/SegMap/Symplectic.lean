import Verif.SegMap.Long
import Verif.Rf.Symplectic

/-!
# Segments of a ring: which of them are symplectic
-/

namespace Verif.SegMap

open Frames hiding curvature
open Symplectic Filter Topology

noncomputable section

/-! ### Transverse motion -/

/-- Normalisation of both planes. -/
def normZ (bx ax bY ay : ℝ) (z : Z) : Z := ![z 0 / bx, (ax * z 0 + bx ^ 2 * z 1) / bx, z 2 / bY, (ay * z 2 + bY ^ 2 * z 3) / bY, z 4, z 5]

/-- The inverse of the normalisation. -/
def unnormZ (bx ax bY ay : ℝ) (z : Z) : Z := ![bx * z 0, (z 1 - ax * z 0) / bx, bY * z 2, (z 3 - ay * z 2) / bY, z 4, z 5]

/-- Rotation by angles which depend on the actions. -/
def rotZ (a b c d e f : ℝ) (z : Z) : Z :=
  let u := a + b * ((z 0 ^ 2 + z 1 ^ 2) / 2) + c * ((z 2 ^ 2 + z 3 ^ 2) / 2)
  let v := d + e * ((z 0 ^ 2 + z 1 ^ 2) / 2) + f * ((z 2 ^ 2 + z 3 ^ 2) / 2)
  ![Real.cos u * z 0 + Real.sin u * z 1, -Real.sin u * z 0 + Real.cos u * z 1, Real.cos v * z 2 + Real.sin v * z 3,
    -Real.sin v * z 2 + Real.cos v * z 3, z 4, z 5]

theorem canonical_normZ {bx bY : ℝ} (hx : bx ≠ 0) (hy : bY ≠ 0) (ax ay : ℝ) (z : Z) : Canonical (normZ bx ax bY ay) z := by
  refine canonical_of_lines ?_ (normZ bx ax bY ay) ?_ fun v w => ?_
  · rw [differentiableAt_pi]
    intro i
    fin_cases i <;> simp [normZ] <;> fun_prop
  · intro u i
    have l := line z u
    fin_cases i <;> simp only [normZ, Pi.add_apply, Pi.smul_apply, smul_eq_mul]
    · exact (l 0).div_const _
    · exact (((l 0).const_mul ax).add ((l 1).const_mul (bx ^ 2))).div_const _
    · exact (l 2).div_const _
    · exact (((l 2).const_mul ay).add ((l 3).const_mul (bY ^ 2))).div_const _
    · exact l 4
    · exact l 5
  · simp only [omega, normZ, Matrix.cons_val]
    field_simp
    ring

theorem canonical_unnormZ {bx bY : ℝ} (hx : bx ≠ 0) (hy : bY ≠ 0) (ax ay : ℝ) (z : Z) : Canonical (unnormZ bx ax bY ay) z := by
  refine canonical_of_lines ?_ (unnormZ bx ax bY ay) ?_ fun v w => ?_
  · rw [differentiableAt_pi]
    intro i
    fin_cases i <;> simp [unnormZ] <;> fun_prop
  · intro u i
    have l := line z u
    fin_cases i <;> simp only [unnormZ, Pi.add_apply, Pi.smul_apply, smul_eq_mul]
    · exact (l 0).const_mul _
    · exact ((l 1).sub ((l 0).const_mul ax)).div_const _
    · exact (l 2).const_mul _
    · exact ((l 3).sub ((l 2).const_mul ay)).div_const _
    · exact l 4
    · exact l 5
  · simp only [omega, unnormZ, Matrix.cons_val]
    field_simp
    ring

theorem canonical_rotZ (a b c d f : ℝ) (z : Z) : Canonical (rotZ a b c d c f) z := by
  let jx : Z → ℝ := fun u => z 0 * u 0 + z 1 * u 1
  let jy : Z → ℝ := fun u => z 2 * u 2 + z 3 * u 3
  let A : ℝ := a + b * ((z 0 ^ 2 + z 1 ^ 2) / 2) + c * ((z 2 ^ 2 + z 3 ^ 2) / 2)
  let B : ℝ := d + c * ((z 0 ^ 2 + z 1 ^ 2) / 2) + f * ((z 2 ^ 2 + z 3 ^ 2) / 2)
  let ax : Z → ℝ := fun u => b * jx u + c * jy u
  let ay : Z → ℝ := fun u => c * jx u + f * jy u
  refine canonical_of_lines ?_ (fun u => ![Real.cos A * u 0 + Real.sin A * u 1 + (-Real.sin A * z 0 + Real.cos A * z 1) * ax u,
    -Real.sin A * u 0 + Real.cos A * u 1 + (-Real.cos A * z 0 - Real.sin A * z 1) * ax u,
    Real.cos B * u 2 + Real.sin B * u 3 + (-Real.sin B * z 2 + Real.cos B * z 3) * ay u,
    -Real.sin B * u 2 + Real.cos B * u 3 + (-Real.cos B * z 2 - Real.sin B * z 3) * ay u, u 4, u 5]) ?_ fun v w => ?_
  · rw [differentiableAt_pi]
    intro i
    fin_cases i <;> simp [rotZ] <;> fun_prop
  · intro u i
    have l := line z u
    have sq : ∀ i, HasDerivAt (fun t : ℝ => (z i + t * u i) ^ 2) (2 * z i * u i) 0 := fun i => ((l i).pow 2).congr_deriv (by simp)
    have dA : HasDerivAt (fun t : ℝ => a + b * (((z 0 + t * u 0) ^ 2 + (z 1 + t * u 1) ^ 2) / 2)
        + c * (((z 2 + t * u 2) ^ 2 + (z 3 + t * u 3) ^ 2) / 2)) (ax u) 0 :=
      ((((((sq 0).add (sq 1)).div_const 2).const_mul b).const_add a).add ((((sq 2).add (sq 3)).div_const 2).const_mul c)).congr_deriv
        (by simp only [ax, jx, jy]; ring)
    have dB : HasDerivAt (fun t : ℝ => d + c * (((z 0 + t * u 0) ^ 2 + (z 1 + t * u 1) ^ 2) / 2)
        + f * (((z 2 + t * u 2) ^ 2 + (z 3 + t * u 3) ^ 2) / 2)) (ay u) 0 :=
      ((((((sq 0).add (sq 1)).div_const 2).const_mul c).const_add d).add ((((sq 2).add (sq 3)).div_const 2).const_mul f)).congr_deriv
        (by simp only [ay, jx, jy]; ring)
    have eA : a + b * (((z 0 + 0 * u 0) ^ 2 + (z 1 + 0 * u 1) ^ 2) / 2) + c * (((z 2 + 0 * u 2) ^ 2 + (z 3 + 0 * u 3) ^ 2) / 2) = A := by
      simp only [zero_mul, add_zero, A]
    have eB : d + c * (((z 0 + 0 * u 0) ^ 2 + (z 1 + 0 * u 1) ^ 2) / 2) + f * (((z 2 + 0 * u 2) ^ 2 + (z 3 + 0 * u 3) ^ 2) / 2) = B := by
      simp only [zero_mul, add_zero, B]
    have cA := dA.cos
    have sA := dA.sin
    have cB := dB.cos
    have sB := dB.sin
    rw [eA] at cA sA
    rw [eB] at cB sB
    fin_cases i <;> simp only [rotZ, Pi.add_apply, Pi.smul_apply, smul_eq_mul]
    · refine ((cA.mul (l 0)).add (sA.mul (l 1))).congr_deriv ?_
      simp only [zero_mul, add_zero]
      show _ = Real.cos A * u 0 + Real.sin A * u 1 + (-Real.sin A * z 0 + Real.cos A * z 1) * ax u
      ring
    · refine ((sA.neg.mul (l 0)).add (cA.mul (l 1))).congr_deriv ?_
      simp only [Pi.neg_apply, zero_mul, add_zero]
      show _ = -Real.sin A * u 0 + Real.cos A * u 1 + (-Real.cos A * z 0 - Real.sin A * z 1) * ax u
      ring
    · refine ((cB.mul (l 2)).add (sB.mul (l 3))).congr_deriv ?_
      simp only [zero_mul, add_zero]
      show _ = Real.cos B * u 2 + Real.sin B * u 3 + (-Real.sin B * z 2 + Real.cos B * z 3) * ay u
      ring
    · refine ((sB.neg.mul (l 2)).add (cB.mul (l 3))).congr_deriv ?_
      simp only [Pi.neg_apply, zero_mul, add_zero]
      show _ = -Real.sin B * u 2 + Real.cos B * u 3 + (-Real.cos B * z 2 - Real.sin B * z 3) * ay u
      ring
    · exact l 4
    · exact l 5
  · have hA := Real.sin_sq_add_cos_sq A
    have hB := Real.sin_sq_add_cos_sq B
    simp only [omega, Matrix.cons_val, ax, ay, jx, jy]
    generalize Real.sin A = sA at *
    generalize Real.cos A = cA at *
    generalize Real.sin B = sB at *
    generalize Real.cos B = cB at *
    linear_combination ((v 0 * w 1 - v 1 * w 0) - (v 0 * z 0 + v 1 * z 1) * (b * (z 0 * w 0 + z 1 * w 1) + c * (z 2 * w 2 + z 3 * w 3))
        + (w 0 * z 0 + w 1 * z 1) * (b * (z 0 * v 0 + z 1 * v 1) + c * (z 2 * v 2 + z 3 * v 3))) * hA
      + ((v 2 * w 3 - v 3 * w 2) - (v 2 * z 2 + v 3 * z 3) * (c * (z 0 * w 0 + z 1 * w 1) + f * (z 2 * w 2 + z 3 * w 3))
        + (w 2 * z 2 + w 3 * z 3) * (c * (z 0 * v 0 + z 1 * v 1) + f * (z 2 * v 2 + z 3 * v 3))) * hB

theorem planeMap_norm {o0 o1 : Optics} (h0 : 0 < o0.bet) (h1 : 0 < o1.bet) (a x px : ℝ) :
    planeMap o0 o1 a x px = (Real.sqrt o1.bet * (Real.cos a * (x / Real.sqrt o0.bet)
        + Real.sin a * ((o0.alf * x + Real.sqrt o0.bet ^ 2 * px) / Real.sqrt o0.bet)),
      ((-Real.sin a * (x / Real.sqrt o0.bet) + Real.cos a * ((o0.alf * x + Real.sqrt o0.bet ^ 2 * px) / Real.sqrt o0.bet))
        - o1.alf * (Real.cos a * (x / Real.sqrt o0.bet)
          + Real.sin a * ((o0.alf * x + Real.sqrt o0.bet ^ 2 * px) / Real.sqrt o0.bet))) / Real.sqrt o1.bet) := by
  have p0 := Real.sqrt_pos.2 h0
  have p1 := Real.sqrt_pos.2 h1
  simp only [planeMap, Real.sqrt_mul h1.le, Real.sqrt_div h1.le]
  generalize Real.sqrt o0.bet = r0 at *
  generalize Real.sqrt o1.bet = r1 at *
  refine Prod.ext ?_ ?_ <;> simp only <;> field_simp <;> ring

theorem actionOf_norm {o : Optics} (h : 0 < o.bet) (x px : ℝ) : actionOf o x px
    = ((x / Real.sqrt o.bet) ^ 2 + ((o.alf * x + Real.sqrt o.bet ^ 2 * px) / Real.sqrt o.bet) ^ 2) / 2 := by
  have e := Real.sq_sqrt h.le
  have p := Real.sqrt_pos.2 h
  simp only [actionOf]
  generalize Real.sqrt o.bet = r at *
  rw [← e]
  field_simp
  ring

/-- Neither dispersion nor chromaticity, and a detuning which derives from a function of the actions. -/
structure Achromatic (e : Seg) : Prop where
  dx : e.x0.d = 0 ∧ e.x0.dp = 0 ∧ e.x1.d = 0 ∧ e.x1.dp = 0
  dy : e.y0.d = 0 ∧ e.y0.dp = 0 ∧ e.y1.d = 0 ∧ e.y1.dp = 0
  chroma : ∀ i : ℕ, 1 ≤ i → e.coeffsDqx.getD i 0 = 0 ∧ e.coeffsDqy.getD i 0 = 0
  detuning : e.detXY = e.detYX

theorem phases_achromatic {e : Seg} (a : Achromatic e) (p : Part) : phases e p
    = (2 * Real.pi * (e.qx + e.detXX * actionOf e.x0 p.x p.px + e.detXY * actionOf e.y0 p.y p.py),
      2 * Real.pi * (e.qy + e.detYX * actionOf e.x0 p.x p.px + e.detYY * actionOf e.y0 p.y p.py)) := by
  have hx : ∑ i ∈ Finset.Ico 1 e.coeffsDqx.length, e.coeffsDqx.getD i 0 * p.delta ^ i = 0 :=
    Finset.sum_eq_zero fun i hi => by rw [(a.chroma i (Finset.mem_Ico.1 hi).1).1, zero_mul]
  have hy : ∑ i ∈ Finset.Ico 1 e.coeffsDqy.length, e.coeffsDqy.getD i 0 * p.delta ^ i = 0 :=
    Finset.sum_eq_zero fun i hi => by rw [(a.chroma i (Finset.mem_Ico.1 hi).1).2, zero_mul]
  unfold phases
  by_cases hd : SegMap.detuning e
  · rw [if_pos hd]
    simp only [addChroma_eq, hx, hy, mul_zero, add_zero]
  · rw [if_neg hd]
    rw [detuning_iff] at hd
    push Not at hd
    obtain ⟨-, -, h3, h4, h5, h6⟩ := hd
    simp [h3, h4, h5, h6]

theorem good_transverse {e : Seg} (pl : Plain e) (a : Achromatic e) {p : Part} (k : p.Kin) : Good (fun q => transverse e q) p := by
  constructor
  · exact Lawful.of_kind (fun _ => ⟨rfl, rfl, rfl, rfl, rfl, rfl⟩) fun p q h => by
      simp only [coords, transverse, phases_achromatic a, h.x, h.px, h.y, h.py, h.zeta, h.ptau, h.beta0]
  · have px0 := (Real.sqrt_pos.2 pl.x0).ne'
    have px1 := (Real.sqrt_pos.2 pl.x1).ne'
    have py0 := (Real.sqrt_pos.2 pl.y0).ne'
    have py1 := (Real.sqrt_pos.2 pl.y1).ne'
    have c := Canonical.comp (f := fun z => rotZ (2 * Real.pi * e.qx) (2 * Real.pi * e.detXX) (2 * Real.pi * e.detXY) (2 * Real.pi * e.qy)
        (2 * Real.pi * e.detXY) (2 * Real.pi * e.detYY) (normZ (Real.sqrt e.x0.bet) e.x0.alf (Real.sqrt e.y0.bet) e.y0.alf z))
      (canonical_unnormZ px1 py1 e.x1.alf e.y1.alf _)
      (Canonical.comp (canonical_rotZ _ _ _ _ _ _) (canonical_normZ px0 py0 e.x0.alf e.y0.alf (coords p)))
    refine c.congr (Eventually.of_forall fun z => ?_)
    have ang : ∀ (q d1 j1 d2 j2 : ℝ), 2 * Real.pi * q + 2 * Real.pi * d1 * j1 + 2 * Real.pi * d2 * j2 = 2 * Real.pi * (q + d1 * j1 + d2 * j2) := by
      intros
      ring
    ext i
    fin_cases i <;> simp only [coords, transverse, phases_achromatic a, planeMap_norm pl.x0 pl.x1, planeMap_norm pl.y0 pl.y1,
      actionOf_norm pl.x0, actionOf_norm pl.y0, unnormZ, rotZ, normZ, Matrix.cons_val, place, ang, ← a.detuning] <;>
      simp [k.beta0.ne']

/-! ### Shifts -/

theorem good_shift {p : Part} (k : p.Kin) (a b c d : ℝ) :
    Good (fun q : Part => { q with x := q.x + a, px := q.px + b, y := q.y + c, py := q.py + d }) p := by
  constructor
  · exact Lawful.of_kind (fun _ => ⟨rfl, rfl, rfl, rfl, rfl, rfl⟩) fun p q h => by
      simp only [coords, h.x, h.px, h.y, h.py, h.zeta, h.ptau, h.beta0]
  · have c : Canonical (fun z : Z => ![z 0 + a, z 1 + b, z 2 + c, z 3 + d, z 4, z 5]) (coords p) := by
      refine canonical_of_lines ?_ (fun u => u) ?_ fun v w => rfl
      · rw [differentiableAt_pi]
        intro i
        fin_cases i <;> simp <;> fun_prop
      · intro u i
        have l := line (coords p) u
        fin_cases i <;> simp only [Pi.add_apply, Pi.smul_apply, smul_eq_mul] <;>
          first | exact (l 0).add_const a | exact (l 1).add_const b | exact (l 2).add_const c | exact (l 3).add_const d | exact l 4 | exact l 5
    refine c.congr (Eventually.of_forall fun z => ?_)
    ext i
    fin_cases i <;> simp [coords, place, k.beta0.ne']

/-! ### Longitudinal motion -/

/-- A map which ends by setting the energy. -/
theorem fair_update {F : Part → Part} {p : Part} (k : p.Kin) (hs : SymplecticAt F p) (al : Fine p.beta0 (coords (F p)))
    (hF : ∀ q, q.Kin → Fine q.beta0 (coords (F q)) → (F q).Kin) (hb : ∀ q, (F q).beta0 = q.beta0) (hc : ∀ q, (F q).chi = q.chi)
    (ha : ∀ q r, Alike q r → Alike (F q) (F r)) : Fair F p := by
  refine ⟨⟨hF p k al, ?_, hb, hc, ha⟩, hs⟩
  obtain ⟨M, hM, _⟩ : Canonical _ _ := hs
  have ct : Tendsto (fun z => coords (F (place p z))) (𝓝 (coords p)) (𝓝 (coords (F (place p (coords p))))) := hM.continuousAt
  rw [place_coords k] at ct
  filter_upwards [fine_near (fine_coords k), ct.eventually (fine_near al)] with z h1 h2
  exact hF _ (kin_place k.beta0 h1) h2

theorem kin_updatePzeta {p : Part} (hb : 0 < p.beta0) {t : ℝ} (h : Fine p.beta0 (coords (updatePzeta p t))) : (updatePzeta p t).Kin := by
  have e5 : coords (updatePzeta p t) 5 = t := by
    show p.beta0 * t / p.beta0 = t
    field_simp
  obtain ⟨h1, h2⟩ := h
  rw [e5] at h1 h2
  refine Rf.kin_updatePtau hb ?_ ?_
  · have : p.beta0 * t * (p.beta0 * t) + 2 * (p.beta0 * t) / p.beta0 + 1 = 1 + 2 * t + p.beta0 ^ 2 * t ^ 2 := by
      field_simp
      ring
    rw [this]
    exact h1
  · have : 1 + p.beta0 * (p.beta0 * t) = 1 + p.beta0 ^ 2 * t := by ring
    rw [this]
    exact h2

theorem alike_updatePzeta {p q : Part} (h : Alike p q) (t : ℝ) (z z' : ℝ) (hz : z' = z) :
    Alike (updatePzeta { p with zeta := z } t) (updatePzeta { q with zeta := z' } t) := by
  subst hz
  constructor <;> simp only [updatePzeta, Rf.updatePtau, h.x, h.px, h.y, h.py, h.beta0, h.chi]

/-- The particle is not on the edge of a bucket. -/
def OffEdge (bucket : ℝ) (p : Part) : Prop := 0 < bucket → ∀ n : ℤ, p.zeta / bucket + 0.5 ≠ n

theorem fair_longRotate {qs bets bucket : ℝ} (hb : bets ≠ 0) {p : Part} (k : p.Kin) (off : OffEdge bucket p)
    (al : Fine p.beta0 (coords (longRotate qs bets bucket false p))) : Fair (fun q => longRotate qs bets bucket false q) p := by
  have hs : SymplecticAt (fun q => longRotate qs bets bucket false q) p := by
    let sh : ℝ := if bucket > 0 then bucket * (⌊p.zeta / bucket + 0.5⌋ : ℝ) else 0
    let s := Real.sin (2 * Real.pi * qs)
    let c := Real.cos (2 * Real.pi * qs)
    have hu : s ^ 2 + c ^ 2 = 1 := Real.sin_sq_add_cos_sq _
    have can : Canonical (fun z : Z => ![z 0, z 1, z 2, z 3, c * (z 4 - sh) - bets * s * z 5 + sh, s * (z 4 - sh) / bets + c * z 5])
        (coords p) := by
      refine canonical_of_lines ?_ (fun u => ![u 0, u 1, u 2, u 3, c * u 4 - bets * s * u 5, s * u 4 / bets + c * u 5]) ?_ fun v w => ?_
      · rw [differentiableAt_pi]
        intro i
        fin_cases i <;> simp <;> fun_prop
      · intro u i
        have l := line (coords p) u
        fin_cases i <;> simp only [Pi.add_apply, Pi.smul_apply, smul_eq_mul]
        · exact l 0
        · exact l 1
        · exact l 2
        · exact l 3
        · exact ((((l 4).sub_const sh).const_mul c).sub ((l 5).const_mul (bets * s))).add_const sh
        · exact ((((l 4).sub_const sh).const_mul s).div_const bets).add ((l 5).const_mul c)
      · simp only [omega, Matrix.cons_val]
        field_simp
        linear_combination bets * (v 4 * w 5 - v 5 * w 4) * hu
    refine can.congr ?_
    have near : ∀ᶠ z in 𝓝 (coords p), (if bucket > 0 then bucket * (⌊z 4 / bucket + 0.5⌋ : ℝ) else 0) = sh := by
      by_cases hbk : bucket > 0
      · have hc : ContinuousAt (fun z : Z => z 4 / bucket + 0.5) (coords p) := by
          have h : Continuous fun z : Z => z 4 / bucket + 0.5 := by fun_prop
          exact h.continuousAt
        have lo : (⌊p.zeta / bucket + 0.5⌋ : ℝ) < p.zeta / bucket + 0.5 := lt_of_le_of_ne (Int.floor_le _) fun h => off hbk _ h.symm
        have hi := Int.lt_floor_add_one (p.zeta / bucket + 0.5)
        have h1 := hc.eventually (lt_mem_nhds (a := (⌊p.zeta / bucket + 0.5⌋ : ℝ)) lo)
        have h2 := hc.eventually (gt_mem_nhds hi)
        filter_upwards [h1, h2] with z g1 g2
        simp only [if_pos hbk, sh]
        rw [Int.floor_eq_iff.2 ⟨g1.le, g2⟩]
      · simp [hbk, sh]
    filter_upwards [near] with z hz
    have hz' : (if bucket > 0 then z 4 + -sh else z 4) = z 4 - sh := by
      split
      · ring
      · rename_i h
        simp [sh, h]
    have e5 : z 5 * p.beta0 / p.beta0 = z 5 := by
      have := k.beta0.ne'
      field_simp
    ext i
    fin_cases i <;> simp only [longRotate, coords, place, updatePzeta, Rf.updatePtau, Bool.false_eq_true, if_false, hz, hz', e5]
    · rfl
    · rfl
    · rfl
    · rfl
    · rfl
    · have := k.beta0.ne'
      show p.beta0 * _ / p.beta0 = s * (z 4 - sh) / bets + c * z 5
      simp only [s, c]
      field_simp
  refine fair_update k hs al ?_ (fun _ => rfl) (fun _ => rfl) ?_
  · intro q kq h
    unfold longRotate at h ⊢
    simp only [Bool.false_eq_true, if_false] at h ⊢
    refine kin_updatePzeta ?_ h
    exact kq.beta0
  · intro q r h
    have e : longRotate qs bets bucket false r = longRotate qs bets bucket false { q with s := r.s, spinX := r.spinX, spinY := r.spinY, spinZ := r.spinZ } := by
      have hr : r = { q with s := r.s, spinX := r.spinX, spinY := r.spinY, spinZ := r.spinZ } := by
        ext
        · exact h.x
        · exact h.px
        · exact h.y
        · exact h.py
        · exact h.zeta
        · rfl
        · exact h.delta
        · exact h.ptau
        · exact h.rpp
        · exact h.rvv
        · exact h.beta0
        · exact h.chi
        · rfl
        · rfl
        · rfl
      rw [← hr]
    rw [e]
    constructor <;> rfl

theorem good_slip (e : Seg) (s : St) {p : Part} (k : p.Kin) : Good (fun q => (slip e { s with p := q }).p) p := by
  constructor
  · exact Lawful.of_kind (fun _ => ⟨rfl, rfl, rfl, rfl, rfl, rfl⟩) fun p q h => by
      simp only [coords, slip, h.x, h.px, h.y, h.py, h.zeta, h.ptau, h.beta0, h.delta]
  · have fine := fine_coords k
    have hd : DifferentiableAt ℝ (fun z : Z => -0.5 * etaOf e s.gamma0 * e.slippageLength * (opdOf p.beta0 (z 5) - 1)) (coords p) := by
      have h := fine.rad.ne'
      unfold opdOf
      fun_prop (disch := assumption)
    have c := canonical_kick (z := coords p) (A := fun _ => 0) (B := fun _ => 0)
      (C := fun z : Z => -0.5 * etaOf e s.gamma0 * e.slippageLength * (opdOf p.beta0 (z 5) - 1)) (by fun_prop) (by fun_prop) hd 0 0 0 0 0
      (-0.5 * etaOf e s.gamma0 * e.slippageLength * ((1 + p.beta0 ^ 2 * coords p 5) / opdOf p.beta0 (coords p 5)))
      (fun u => (hasDerivAt_const (0 : ℝ) (0 : ℝ)).congr_deriv (by ring)) (fun u => (hasDerivAt_const (0 : ℝ) (0 : ℝ)).congr_deriv (by ring))
      fun u => by
        have l := hasDerivAt_opdOf (b := p.beta0) (line (coords p) u 5) (by simpa [radOf] using fine.rad)
        refine ((l.sub_const 1).const_mul (-0.5 * etaOf e s.gamma0 * e.slippageLength)).congr_deriv ?_
        simp only [zero_mul, add_zero]
        ring
    refine c.congr (Eventually.of_forall fun z => ?_)
    ext i
    fin_cases i <;> simp [coords, slip, place, k.beta0.ne']

/-- The RF kick as that of a cavity. -/
def rfArgs (c : ℝ × ℝ × ℝ × ℝ) : Rf.RfArgs :=
  { voltage := c.1, frequency := c.2.1, harmonic := 0, lag := c.2.2.1, phase := c.2.2.2, transverseVoltage := 0, transverseLag := 0
    transversePhase := 0, absoluteTime := 0, order := -1, factor := 0, knl := fun _ => 0, ksl := fun _ => 0, pn := fun _ => 0
    ps := fun _ => 0, phaseN := fun _ => 0, phaseS := fun _ => 0, kill := false }

@[inherit_doc rfArgs]
def rfCtx (k : Consts) (s : St) : Rf.Ctx := { p0c := s.p0c, q0 := k.q0, chargeRatio := k.chargeRatio, atTurn := 0, tSim := 0, lineLength := 0 }

theorem rfKick_eq (k : Consts) (s : St) (c : ℝ × ℝ × ℝ × ℝ) : rfKick k s c
    = if c.2.1 = 0 then s else { s with p := Rf.rfKick (rfCtx k s) (rfArgs c) s.p } := by
  unfold rfKick
  split
  · rfl
  · simp [Rf.rfKick, rfArgs, rfCtx, Rf.frequencyOf, Rf.phase0Of, addToEnergy, Rf.addToEnergy]

/-- The particle keeps enough energy in the RF kicks. -/
def RunsRf (k : Consts) : List (ℝ × ℝ × ℝ × ℝ) → St → Prop
  | [], _ => True
  | c :: l, s => Fine s.p.beta0 (coords (rfKick k s c).p) ∧ RunsRf k l (rfKick k s c)

theorem fair_rfKicks {k : Consts} (hr : k.chargeRatio ≠ 0) : ∀ (l : List (ℝ × ℝ × ℝ × ℝ)) {s : St}, s.p0c ≠ 0 → s.p.Kin → RunsRf k l s →
    Fair (fun q => (l.foldl (rfKick k) { s with p := q }).p) s.p
  | [], _, _, hk, _ => Fair.id hk
  | c :: l, s, hp, hk, h => by
    have ok : Rf.RfOk (rfCtx k s) (rfArgs c) := by
      have tf : Rf.TransverseFree (rfArgs c) := ⟨rfl, fun _ _ => ⟨rfl, rfl⟩⟩
      exact ⟨hp, hr, fun _ _ _ => ⟨rfl, rfl⟩, Or.inr tf, fun _ => tf⟩
    by_cases h0 : c.2.1 = 0
    · have e : ∀ s', rfKick k s' c = s' := fun s' => by rw [rfKick_eq, if_pos h0]
      simp only [List.foldl_cons, e]
      have := h.2
      rw [e] at this
      exact fair_rfKicks hr l hp hk this
    · have e : ∀ s', rfKick k s' c = { s' with p := Rf.rfKick (rfCtx k s') (rfArgs c) s'.p } := fun s' => by rw [rfKick_eq, if_neg h0]
      have al : Rf.Alive (rfCtx k s) (rfArgs c) s.p := by
        have := h.1
        rw [e] at this
        exact this
      have f := Rf.fair_rfKick ok hk al
      have rest := h.2
      rw [e] at rest
      simp only [List.foldl_cons, e]
      exact Fair.comp (F := fun q => Rf.rfKick (rfCtx k s) (rfArgs c) q)
        (G := fun q => (l.foldl (rfKick k) { s with p := q }).p) hk f (fair_rfKicks hr l (s := { s with p := Rf.rfKick (rfCtx k s) (rfArgs c) s.p }) hp f.kin rest)

/-- The synchrotron tune and beta of the mode `linear_fixed_rf`. -/
def qsOf (e : Seg) (k : Consts) (s : St) (v f : ℝ) : ℝ := Real.sqrt (qsRadicand e k s v f)
@[inherit_doc qsOf]
def betsOf (e : Seg) (k : Consts) (s : St) (v f : ℝ) : ℝ := etaOf e s.gamma0 * e.slippageLength / (2 * Real.pi * qsOf e k s v f)

/-- The particle, which has gone through the transverse part, gets through the longitudinal part. -/
def RunsLong (e : Seg) (k : Consts) (s : St) : Prop :=
  if e.mode = 1 then
    e.bets ≠ 0 ∧ k.kill = false ∧ OffEdge (e.bucketLength * s.p.beta0 * Rf.clight) s.p
      ∧ Fine s.p.beta0 (coords (longRotate e.qs e.bets (e.bucketLength * s.p.beta0 * Rf.clight) false s.p))
  else if e.mode = 2 then k.chargeRatio ≠ 0 ∧ s.p0c ≠ 0 ∧ RunsRf k e.rf (slip e s)
  else if e.mode = 3 then ∃ v f lag ph l, e.rf = (v, f, lag, ph) :: l ∧ 0 < f ∧ 0 < qsRadicand e k s v f
    ∧ OffEdge (s.p.beta0 * Rf.clight / f) s.p
    ∧ Fine s.p.beta0 (coords (longRotate (qsOf e k s v f) (betsOf e k s v f) (s.p.beta0 * Rf.clight / f) false s.p))
  else True

/-- `F` is, on the particles of the same kind as `p`, a symplectic map. -/
def FairOn (F : Part → Option Part) (p : Part) : Prop :=
  ∃ G : Part → Part, (∀ q, q.beta0 = p.beta0 → q.chi = p.chi → F q = some (G q)) ∧ Fair G p

theorem FairOn.symplectic {F : Part → Option Part} {p : Part} (h : FairOn F p) : SymplecticAtO F p := by
  obtain ⟨G, h1, h2⟩ := h
  exact ⟨G, Eventually.of_forall fun z => h1 _ rfl rfl, h2.2⟩

theorem FairOn.bind {F G : Part → Option Part} {p : Part} (k : p.Kin) (hF : FairOn F p) (hG : ∀ q, F p = some q → FairOn G q) :
    FairOn (fun q => (F q).bind G) p := by
  obtain ⟨f, ef, gf⟩ := hF
  obtain ⟨g, eg, gg⟩ := hG (f p) (ef p rfl rfl)
  refine ⟨fun q => g (f q), fun q hb hc => ?_, Fair.comp k gf gg⟩
  show (F q).bind G = some (g (f q))
  rw [ef q hb hc, Option.bind_some, eg]
  · rw [gf.1.beta0, gf.1.beta0, hb]
  · rw [gf.1.chi, gf.1.chi, hc]

theorem fairOn_longitudinal {e : Seg} {k : Consts} {s : St} (hk : s.p.Kin) (h : RunsLong e k s) :
    FairOn (fun q => (longitudinal e k { s with p := q }).map (·.p)) s.p := by
  unfold RunsLong at h
  split at h
  · rename_i m
    refine ⟨fun q => longRotate e.qs e.bets (e.bucketLength * s.p.beta0 * Rf.clight) false q, fun q hb _ => ?_,
      fair_longRotate h.1 hk h.2.2.1 h.2.2.2⟩
    simp only [longitudinal, m, if_true, h.1, if_false, h.2.1, hb]
    rfl
  · rename_i m1
    split at h
    · rename_i m
      refine ⟨fun q => (slip e (e.rf.foldl (rfKick k) (slip e { s with p := q }))).p, fun q _ _ => ?_, ?_⟩
      · simp only [longitudinal, m, if_true]
        rfl
      · have f1 := (good_slip e s hk).fair hk
        have f2 := fair_rfKicks h.1 e.rf (s := slip e s) h.2.1 f1.kin h.2.2
        have f3 := Fair.comp (F := fun q => (slip e { s with p := q }).p)
          (G := fun q => (e.rf.foldl (rfKick k) { slip e s with p := q }).p) hk f1 f2
        have g := (good_slip e s f3.kin).fair f3.kin
        have f4 := Fair.comp (G := fun q => (slip e { s with p := q }).p) hk f3 g
        have eq : ∀ q, (slip e (e.rf.foldl (rfKick k) (slip e { s with p := q }))).p
            = (slip e { s with p := (e.rf.foldl (rfKick k) { slip e s with p := (slip e { s with p := q }).p }).p }).p := by
          intro q
          have hg := (untouched_rfs k e.rf (slip e { s with p := q })).gamma0
          have hg : (e.rf.foldl (rfKick k) (slip e { s with p := q })).gamma0 = s.gamma0 := hg
          unfold slip at hg ⊢
          simp only at hg ⊢
          rw [hg]
        simp only [eq]
        exact f4
    · rename_i m2
      split at h
      · rename_i m
        obtain ⟨v, f, lag, ph, l, hrf, hf, hrad, off, al⟩ := h
        have hbk : 0 < s.p.beta0 * Rf.clight / f := by
          have := hk.beta0
          have hc : 0 < Rf.clight := by norm_num [Rf.clight]
          positivity
        have hbz : betsOf e k s v f ≠ 0 := by
          unfold betsOf
          have hq : 0 < qsOf e k s v f := Real.sqrt_pos.2 hrad
          have hpi := Real.pi_pos
          refine div_ne_zero (fun h0 => ?_) (by positivity)
          have : qsRadicand e k s v f = 0 := by
            unfold qsRadicand
            rcases mul_eq_zero.1 h0 with h0 | h0 <;> simp [h0]
          exact hrad.ne' this
        refine ⟨fun q => longRotate (qsOf e k s v f) (betsOf e k s v f) (s.p.beta0 * Rf.clight / f) false q, fun q hb _ => ?_,
          fair_longRotate hbz hk off al⟩
        have hrd : qsRadicand e k { s with p := q } v f = qsRadicand e k s v f := by simp only [qsRadicand, hb]
        simp only [longitudinal, m, if_true, if_false, hrf, hf.ne', hrd, not_le.2 hrad, longRotate, hb, if_pos hbk, gt_iff_lt,
          Bool.false_eq_true, qsOf, betsOf]
        rfl
      · rename_i m3
        refine ⟨fun q => q, fun q _ _ => ?_, Fair.id hk⟩
        simp only [longitudinal, m1, m2, m3, if_false]
        rfl

/-- The particle after the transverse part. -/
def after (e : Seg) (s : St) : St := { s with p := transverse e (removeDispersion e (removeOrbit e s.p)) }

theorem fairOn_track {e : Seg} (st : Steady e) (a : Achromatic e) {k : Consts} (r1 r2 : ℕ → ℝ) {s : St} (hk : s.p.Kin)
    (run : RunsLong e k (after e s)) : FairOn (fun q => (track e k r1 r2 { s with p := q }).map (·.p)) s.p := by
  have d0 : ∀ q, removeDispersion e q = q := fun q => by
    simp only [removeDispersion, a.dx.1, a.dx.2.1, a.dy.1, a.dy.2.1, neg_zero, zero_mul, add_zero]
  have d1 : ∀ q, addDispersion e q = q := fun q => by
    simp only [addDispersion, a.dx.2.2.1, a.dx.2.2.2, a.dy.2.2.1, a.dy.2.2.2, zero_mul, add_zero]
  have g1 : Good (fun q => removeOrbit e q) s.p := good_shift hk _ _ _ _
  have g2 := Good.comp (G := fun q => transverse e q) hk g1 (good_transverse st.plain a (g1.kin hk))
  have f2 := g2.fair hk
  have o2 : FairOn (fun q => some (transverse e (removeOrbit e q))) s.p := ⟨_, fun _ _ _ => rfl, f2⟩
  have ke : (after e s).p = transverse e (removeOrbit e s.p) := by simp only [after, d0]
  have o3 := FairOn.bind (G := fun q => (longitudinal e k { s with p := q }).map (·.p)) hk o2 fun q hq => by
    cases hq
    have := fairOn_longitudinal (s := after e s) (by rw [ke]; exact f2.kin) run
    rw [ke] at this
    exact this
  have o4 := FairOn.bind (G := fun q => some ({ addOrbit e q with s := q.s + e.length } : Part)) hk o3 fun q hq => by
    obtain ⟨G, hG, fG⟩ := o3
    have kq : q.Kin := by
      have h := hG s.p rfl rfl
      have h : some q = some (G s.p) := hq.symm.trans h
      rw [Option.some.inj h]
      exact fG.kin
    have g : Good (fun q : Part => ({ addOrbit e q with s := q.s + e.length } : Part)) q := by
      have g := good_shift kq e.x1.ref e.x1.pref e.y1.ref e.y1.pref
      refine ⟨⟨fun p h => ?_, fun _ => rfl, fun _ => rfl, fun p q h => ?_⟩, ?_⟩
      · obtain ⟨h1, h2, h3, h4, h5, h6⟩ := h
        exact ⟨h1, h2, h3, h4, h5, h6⟩
      · have := g.1.alike p q h
        exact ⟨this.1, this.2, this.3, this.4, this.5, this.6, this.7, this.8, this.9, this.10, this.11⟩
      · exact g.2.congr (Eventually.of_forall fun z => rfl)
    exact ⟨_, fun _ _ _ => rfl, g.fair kq⟩
  obtain ⟨G, hG, fG⟩ := o4
  refine ⟨G, fun q hb hc => ?_, fG⟩
  rw [← hG q hb hc]
  simp only [Option.bind_some]
  cases hl : longitudinal e k { s with p := transverse e (removeOrbit e q) } with
  | none => simp only [track, d0, hl]; rfl
  | some s1 =>
    rw [steady_some st (s := { s with p := q }) (s1 := s1) (by simp only [d0]; exact hl)]
    simp only [d1]
    rfl

end

end Verif.SegMap
