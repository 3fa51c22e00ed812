import Verif.Symplectic.Drifts

/-!
# Solenoids and combined function magnets are symplectic
-/

namespace Verif.Symplectic

open Frames Magnets Filter Topology

noncomputable section

variable {E : Type*} [NormedAddCommGroup E] [NormedSpace ℝ E]

/-! ## Solenoids -/

theorem fineSolenoid_near {b ks x0 y0 : ℝ} {z : Z} (h : FineSolenoid b ks x0 y0 z) : ∀ᶠ y in 𝓝 z, FineSolenoid b ks x0 y0 y := by
  have c : ContinuousAt (fun y : Z => radOf b (y 5) - (y 1 + ks / 2 * (y 2 - y0)) ^ 2 - (y 3 - ks / 2 * (y 0 - x0)) ^ 2) z :=
    ContDiffAt.continuousAt (n := 1) (𝕜 := ℝ) (by fun_prop)
  filter_upwards [fine_near h.toFine, c.eventually (lt_mem_nhds h.forward)] with y h1 h2
  exact ⟨h1, h2⟩

theorem smooth_solCore (p : Part) (ks x0 y0 : ℝ) (a : ℝ × Z) (ok : FineSolenoid p.beta0 ks x0 y0 a.2) :
    ContDiffAt ℝ 2 (fun a : ℝ × Z => coords (solCore a.1 ks x0 y0 (place p a.2))) a := by
  have h1 : radOf p.beta0 (a.2 5) ≠ 0 := ok.rad.ne'
  have h2 := opdOf_sq ok.rad
  have h30 : 0 < opdOf p.beta0 (a.2 5) ^ 2 - (a.2 1 + ks / 2 * (a.2 2 - y0)) ^ 2 - (a.2 3 - ks / 2 * (a.2 0 - x0)) ^ 2 := by
    rw [h2]
    exact ok.forward
  have h3 := h30.ne'
  have h4 : Real.sqrt (opdOf p.beta0 (a.2 5) ^ 2 - (a.2 1 + ks / 2 * (a.2 2 - y0)) ^ 2 - (a.2 3 - ks / 2 * (a.2 0 - x0)) ^ 2) ≠ 0 :=
    (Real.sqrt_pos.2 h30).ne'
  have h5 := (opdOf_pos ok.rad).ne'
  have h6 := ok.energy.ne'
  have h7 : opdOf p.beta0 (a.2 5) / (1 + p.beta0 ^ 2 * a.2 5) ≠ 0 := div_ne_zero h5 h6
  have h8 := mul_ne_zero h4 h7
  rw [contDiffAt_pi]
  intro i
  fin_cases i <;> simp [coords, solCore, solPz, place, -one_div, -inv_div] <;>
    fun_prop (disch := assumption)

theorem symplectic_solCore {p : Part} {ks x0 y0 L : ℝ} (k : p.Kin) (hk : ks / 2 ≠ 0) (ok : 0 < solPz ks x0 y0 p) :
    SymplecticAt (fun q => solCore L ks x0 y0 q) p := by
  have e5 : (1 + p.delta) ^ 2 = radOf p.beta0 (coords p 5) := by
    have h := opdOf_sq (fine_coords k).rad
    rw [show coords p 5 = p.ptau / p.beta0 from rfl, opd_coords k] at h
    exact h
  have hz : FineSolenoid p.beta0 ks x0 y0 (coords p) := by
    refine ⟨fine_coords k, ?_⟩
    rw [← e5]
    exact Real.sqrt_pos.1 ok
  refine symplectic_flow (F := fun t q => solCore t ks x0 y0 q) k ?_ (fun t q => ⟨rfl, rfl, rfl, rfl, rfl, rfl⟩)
    (solenoidRates_alike ks x0 y0) (solenoid_hamilton p ks x0 y0) (fun t _ => smooth_solCore p ks x0 y0 (t, coords p) hz)
    fun t _ => ?_
  · exact Eventually.of_forall fun z => by rw [solCore_zero, coords_place k.beta0.ne']
  · filter_upwards [fineSolenoid_near hz] with z hz
    have h2 := opdOf_sq hz.rad
    have pz : 0 < solPz ks x0 y0 (place p z) := by
      unfold solPz
      rw [opd_place, h2]
      exact Real.sqrt_pos.2 hz.forward
    refine ⟨solves_solCore hk pz, ?_⟩
    have e5 : coords (solCore t ks x0 y0 (place p z)) 5 = z 5 := coords_5 k.beta0.ne' _ rfl rfl
    refine ⟨hz.toFine.of_eq e5, ?_⟩
    have := solCore_pz (length := t) (x0 := x0) (y0 := y0) (p := place p z) hk
    rw [← this] at pz
    unfold solPz at pz
    rw [show 1 + (solCore t ks x0 y0 (place p z)).delta = 1 + (place p z).delta from rfl, opd_place, h2] at pz
    rw [e5]
    exact Real.sqrt_pos.1 pz

theorem symplectic_solenoid {p : Part} {ks x0 y0 L : ℝ} (k : p.Kin) (ok : 0 < solPz ks x0 y0 p) (f : |ks / 2| < 1e-9 → p.Forward) :
    SymplecticAt (fun q => solenoid L ks x0 y0 q) p := by
  by_cases h1 : |ks / 2| < 1e-9
  · have e : (fun q => solenoid L ks x0 y0 q) = fun q => driftExact q L := by
      funext q
      unfold solenoid
      simp only [if_pos h1]
    rw [e]
    exact symplectic_exact k (f h1) L
  · by_cases h2 : |L| < 1e-9
    · have e : (fun q => solenoid L ks x0 y0 q) = fun q => q := by
        funext q
        unfold solenoid
        simp only [if_neg h1, if_pos h2]
      rw [e]
      exact SymplecticAt.id k
    · have e : (fun q => solenoid L ks x0 y0 q) = fun q => solCore L ks x0 y0 q := funext fun q => solenoid_core h1 h2
      rw [e]
      refine symplectic_solCore k ?_ ok
      rintro e
      rw [e] at h1
      norm_num at h1

/-! ## Combined function magnets -/

@[fun_prop] theorem contDiffAt_focC {K T : E → ℝ} {x : E} {n : WithTop ℕ∞} (hK : ContDiffAt ℝ n K x) (hT : ContDiffAt ℝ n T x) (h : K x ≠ 0) :
    ContDiffAt ℝ n (fun y => focC (K y) (T y)) x := by
  rcases lt_or_gt_of_ne h with h1 | h1
  · have ev := hK.continuousAt.eventually (gt_mem_nhds h1)
    have e : (fun y => focC (K y) (T y)) =ᶠ[𝓝 x] fun y => Real.cosh (Real.sqrt (-K y) * T y) := ev.mono fun y hy => by
      simp only [focC, if_neg (not_lt.2 (le_of_lt hy)), if_pos hy]
    refine ContDiffAt.congr_of_eventuallyEq ?_ e
    have : -K x ≠ 0 := by linarith
    fun_prop (disch := assumption)
  · have ev := hK.continuousAt.eventually (lt_mem_nhds h1)
    have e : (fun y => focC (K y) (T y)) =ᶠ[𝓝 x] fun y => Real.cos (Real.sqrt (K y) * T y) := ev.mono fun y hy => by
      simp only [focC, gt_iff_lt, if_pos hy]
    refine ContDiffAt.congr_of_eventuallyEq ?_ e
    fun_prop (disch := assumption)

@[fun_prop] theorem contDiffAt_focS {K T : E → ℝ} {x : E} {n : WithTop ℕ∞} (hK : ContDiffAt ℝ n K x) (hT : ContDiffAt ℝ n T x) (h : K x ≠ 0) :
    ContDiffAt ℝ n (fun y => focS (K y) (T y)) x := by
  rcases lt_or_gt_of_ne h with h1 | h1
  · have ev := hK.continuousAt.eventually (gt_mem_nhds h1)
    have e : (fun y => focS (K y) (T y)) =ᶠ[𝓝 x] fun y => Real.sinh (Real.sqrt (-K y) * T y) / Real.sqrt (-K y) := ev.mono fun y hy => by
      simp only [focS, if_neg (not_lt.2 (le_of_lt hy)), if_pos hy]
    refine ContDiffAt.congr_of_eventuallyEq ?_ e
    have h2 : -K x ≠ 0 := by linarith
    have h3 : Real.sqrt (-K x) ≠ 0 := (Real.sqrt_pos.2 (by linarith)).ne'
    fun_prop (disch := assumption)
  · have ev := hK.continuousAt.eventually (lt_mem_nhds h1)
    have e : (fun y => focS (K y) (T y)) =ᶠ[𝓝 x] fun y => Real.sin (Real.sqrt (K y) * T y) / Real.sqrt (K y) := ev.mono fun y hy => by
      simp only [focS, gt_iff_lt, if_pos hy]
    refine ContDiffAt.congr_of_eventuallyEq ?_ e
    have h3 : Real.sqrt (K x) ≠ 0 := (Real.sqrt_pos.2 h1).ne'
    fun_prop (disch := assumption)

/-- The focusing strength is zero everywhere or nowhere. -/
def Steady (K : E → ℝ) (x : E) : Prop := K x ≠ 0 ∨ ∀ y, K y = 0

theorem smooth_planeX {K g T X B : E → ℝ} {x : E} {n : WithTop ℕ∞} (hK : ContDiffAt ℝ n K x) (hg : ContDiffAt ℝ n g x) (hT : ContDiffAt ℝ n T x)
    (hX : ContDiffAt ℝ n X x) (hB : ContDiffAt ℝ n B x) (hs : Steady K x) :
    ContDiffAt ℝ n (fun y => planeX (K y) (g y) (T y) (X y) (B y)) x := by
  rcases hs with hs | hs
  · have e : (fun y => planeX (K y) (g y) (T y) (X y) (B y)) =ᶠ[𝓝 x] fun y =>
        X y * focC (K y) (T y) + B y * focS (K y) (T y) + g y * (focC (K y) (T y) - 1) / K y :=
      (hK.continuousAt.eventually_ne hs).mono fun y hy => by simp only [planeX, if_pos hy]
    refine ContDiffAt.congr_of_eventuallyEq ?_ e
    fun_prop (disch := assumption)
  · have e : (fun y => planeX (K y) (g y) (T y) (X y) (B y)) = fun y => X y + B y * T y - g y * 0.5 * T y ^ 2 := by
      funext y
      simp [planeX, hs y, focC_K0, focS_K0]
    rw [e]
    fun_prop

theorem smooth_planeB {K g T X B : E → ℝ} {x : E} {n : WithTop ℕ∞} (hK : ContDiffAt ℝ n K x) (hg : ContDiffAt ℝ n g x) (hT : ContDiffAt ℝ n T x)
    (hX : ContDiffAt ℝ n X x) (hB : ContDiffAt ℝ n B x) (hs : Steady K x) :
    ContDiffAt ℝ n (fun y => planeB (K y) (g y) (T y) (X y) (B y)) x := by
  unfold planeB
  rcases hs with hs | hs
  · fun_prop (disch := assumption)
  · simp only [hs, focC_K0, focS_K0]
    fun_prop

theorem smooth_planeL {K g T X B : E → ℝ} (h : ℝ) {x : E} {n : WithTop ℕ∞} (hK : ContDiffAt ℝ n K x) (hg : ContDiffAt ℝ n g x)
    (hT : ContDiffAt ℝ n T x) (hX : ContDiffAt ℝ n X x) (hB : ContDiffAt ℝ n B x) (hs : Steady K x) :
    ContDiffAt ℝ n (fun y => planeL (K y) (g y) h (T y) (X y) (B y)) x := by
  rcases hs with hs | hs
  · have e : (fun y => planeL (K y) (g y) h (T y) (X y) (B y)) =ᶠ[𝓝 x] fun y =>
        -(h * ((focC (K y) (T y) - 1) * B y + focS (K y) (T y) * (-K y * X y - g y) + T y * g y)) / K y
          + pathQuad (K y) (T y) (-K y * X y - g y) (B y) :=
      (hK.continuousAt.eventually_ne hs).mono fun y hy => by simp only [planeL, if_pos hy]
    refine ContDiffAt.congr_of_eventuallyEq ?_ e
    unfold pathQuad
    have h2 : 2 * K x ≠ 0 := mul_ne_zero two_ne_zero hs
    fun_prop (disch := assumption)
  · have e : (fun y => planeL (K y) (g y) h (T y) (X y) (B y)) = fun y =>
        h * T y * (3 * T y * B y + 6 * X y - g y * T y ^ 2) / 6 + 0.5 * B y ^ 2 * T y := by
      funext y
      simp [planeL, hs y]
    rw [e]
    fun_prop

theorem smooth_combined (p : Part) (k0 k1 h : ℝ) (a : ℝ × Z) (ok : Fine p.beta0 a.2) :
    ContDiffAt ℝ 2 (fun a : ℝ × Z => coords (combined a.1 k0 k1 h (place p a.2))) a := by
  have h1 : radOf p.beta0 (a.2 5) ≠ 0 := ok.rad.ne'
  have h5 := (opdOf_pos ok.rad).ne'
  have h6 := ok.energy.ne'
  have h7 : opdOf p.beta0 (a.2 5) / (1 + p.beta0 ^ 2 * a.2 5) ≠ 0 := div_ne_zero h5 h6
  have sx : Steady (fun a : ℝ × Z => p.chi * k0 / opdOf p.beta0 (a.2 5) * h + p.chi * k1 / opdOf p.beta0 (a.2 5)) a := by
    by_cases h0 : p.chi * (k0 * h + k1) = 0
    · refine Or.inr fun y => ?_
      beta_reduce
      rw [show p.chi * k0 / opdOf p.beta0 (y.2 5) * h + p.chi * k1 / opdOf p.beta0 (y.2 5)
        = p.chi * (k0 * h + k1) / opdOf p.beta0 (y.2 5) by ring, h0, zero_div]
    · refine Or.inl ?_
      beta_reduce
      rw [show p.chi * k0 / opdOf p.beta0 (a.2 5) * h + p.chi * k1 / opdOf p.beta0 (a.2 5)
        = p.chi * (k0 * h + k1) / opdOf p.beta0 (a.2 5) by ring]
      exact div_ne_zero h0 h5
  have sy : Steady (fun a : ℝ × Z => -(p.chi * k1 / opdOf p.beta0 (a.2 5))) a := by
    by_cases h0 : p.chi * k1 = 0
    · exact Or.inr fun y => by simp [h0]
    · exact Or.inl (neg_ne_zero.2 (div_ne_zero h0 h5))
  have cKx : ContDiffAt ℝ 2 (fun a : ℝ × Z => p.chi * k0 / opdOf p.beta0 (a.2 5) * h + p.chi * k1 / opdOf p.beta0 (a.2 5)) a := by
    fun_prop (disch := assumption)
  have cKy : ContDiffAt ℝ 2 (fun a : ℝ × Z => -(p.chi * k1 / opdOf p.beta0 (a.2 5))) a := by fun_prop (disch := assumption)
  have cg : ContDiffAt ℝ 2 (fun a : ℝ × Z => p.chi * k0 / opdOf p.beta0 (a.2 5) - h) a := by fun_prop (disch := assumption)
  have cT : ContDiffAt ℝ 2 (fun a : ℝ × Z => a.1) a := by fun_prop
  have cx : ContDiffAt ℝ 2 (fun a : ℝ × Z => a.2 0) a := by fun_prop
  have cy : ContDiffAt ℝ 2 (fun a : ℝ × Z => a.2 2) a := by fun_prop
  have cxp : ContDiffAt ℝ 2 (fun a : ℝ × Z => a.2 1 / opdOf p.beta0 (a.2 5)) a := by fun_prop (disch := assumption)
  have cyp : ContDiffAt ℝ 2 (fun a : ℝ × Z => a.2 3 / opdOf p.beta0 (a.2 5)) a := by fun_prop (disch := assumption)
  have c0 : ContDiffAt ℝ 2 (fun _ : ℝ × Z => (0 : ℝ)) a := by fun_prop
  have x1 := smooth_planeX cKx cg cT cx cxp sx
  have x2 := smooth_planeB cKx cg cT cx cxp sx
  have x3 := smooth_planeL h cKx cg cT cx cxp sx
  have y1 := smooth_planeX cKy c0 cT cy cyp sy
  have y2 := smooth_planeB cKy c0 cT cy cyp sy
  have y3 := smooth_planeL 0 cKy c0 cT cy cyp sy
  rw [contDiffAt_pi]
  intro i
  simp only [combined_eq, opd_place']
  fin_cases i <;> simp [coords, place, -one_div, -inv_div] <;> fun_prop (disch := assumption)

theorem symplectic_combined {p : Part} {k0 k1 h L : ℝ} (k : p.Kin)
    (ok : p.chi * (k0 * h + k1) ≠ 0 ∨ p.chi * k0 = 0 ∧ h = 0) : SymplecticAt (fun q => combined L k0 k1 h q) p := by
  have hz := fine_coords k
  refine symplectic_flow (F := fun t q => combined t k0 k1 h q) k ?_ (fun t q => ⟨rfl, rfl, rfl, rfl, rfl, rfl⟩)
    (expandedRates_alike k0 k1 h) (expanded_hamilton p k0 k1 h) (fun t _ => smooth_combined p k0 k1 h (t, coords p) hz) fun t _ => ?_
  · filter_upwards [fine_near hz] with z hz
    rw [combined_zero k0 k1 h (by rw [opd_place']; exact (opdOf_pos hz.rad).ne'), coords_place k.beta0.ne']
  · filter_upwards [fine_near hz] with z hz
    refine ⟨solves_combined k0 k1 h t (by rw [opd_place]; exact (opdOf_pos hz.rad).ne') ?_, hz.of_eq (coords_5 k.beta0.ne' _ rfl rfl)⟩
    rcases ok with ok | ⟨o1, o2⟩
    · exact Or.inl ok
    · right
      show p.chi * k0 = _
      rw [o1, o2, zero_mul]

end

end Verif.Symplectic
