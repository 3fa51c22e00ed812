import Verif.Symplectic.Flows
import Mathlib.Analysis.SpecialFunctions.Trigonometric.InverseDeriv
import Mathlib.Analysis.SpecialFunctions.Trigonometric.DerivHyp

/-!
# The drift parts of magnets are symplectic
-/

namespace Verif.Symplectic

open Frames Magnets Filter Topology

noncomputable section

variable {E : Type*} [NormedAddCommGroup E] [NormedSpace ℝ E]

@[fun_prop] theorem contDiffAt_opdOf {b : ℝ} {f : E → ℝ} {x : E} {n : WithTop ℕ∞} (hf : ContDiffAt ℝ n f x) (h : radOf b (f x) ≠ 0) :
    ContDiffAt ℝ n (fun y => opdOf b (f y)) x := by
  unfold opdOf
  unfold radOf at h
  fun_prop (disch := assumption)

@[fun_prop] theorem contDiffAt_radOf {b : ℝ} {f : E → ℝ} {x : E} {n : WithTop ℕ∞} (hf : ContDiffAt ℝ n f x) :
    ContDiffAt ℝ n (fun y => radOf b (f y)) x := by
  unfold radOf
  fun_prop

@[fun_prop] theorem contDiffAt_pzOf {o py px : E → ℝ} {x : E} {n : WithTop ℕ∞} (ho : ContDiffAt ℝ n o x) (hpy : ContDiffAt ℝ n py x)
    (hpx : ContDiffAt ℝ n px x) (h : 0 < o x ^ 2 - px x ^ 2 - py x ^ 2) : ContDiffAt ℝ n (fun y => pzOf (o y) (py y) (px y)) x := by
  unfold pzOf
  have := h.ne'
  fun_prop (disch := assumption)

@[fun_prop] theorem contDiffAt_ang {o py px : E → ℝ} {x : E} {n : WithTop ℕ∞} (ho : ContDiffAt ℝ n o x) (hpy : ContDiffAt ℝ n py x)
    (hpx : ContDiffAt ℝ n px x) (h : 0 < o x ^ 2 - px x ^ 2 - py x ^ 2) : ContDiffAt ℝ n (fun y => ang (o y) (py y) (px y)) x := by
  obtain ⟨h1, h2, h3, h4⟩ := ang_spec h
  have hr0 : 0 < o x ^ 2 - py x ^ 2 := by nlinarith [sq_nonneg (px x)]
  have hr : Real.sqrt (o x ^ 2 - py x ^ 2) ≠ 0 := (Real.sqrt_pos.2 hr0).ne'
  have hr1 := hr0.ne'
  have hne1 : 1 / Real.sqrt (o x ^ 2 - py x ^ 2) * px x ≠ -1 := by
    intro hh
    have : ang (o x) (py x) (px x) = -(Real.pi / 2) := by unfold ang; rw [hh, Real.arcsin_neg_one]
    linarith
  have hne2 : 1 / Real.sqrt (o x ^ 2 - py x ^ 2) * px x ≠ 1 := by
    intro hh
    have : ang (o x) (py x) (px x) = Real.pi / 2 := by unfold ang; rw [hh, Real.arcsin_one]
    linarith
  unfold ang
  refine ContDiffAt.comp (g := Real.arcsin) x (Real.contDiffAt_arcsin hne1 hne2) ?_
  fun_prop (disch := assumption)

theorem opd_place (p : Part) (z : Z) : 1 + (place p z).delta = opdOf p.beta0 (z 5) := by simp [place]

theorem opd_place' (p : Part) (z : Z) : (place p z).delta + 1 = opdOf p.beta0 (z 5) := by simp [place]

/-- The quantities of `place`, as far as the motion reads them. -/
theorem forward_iff {p : Part} (k : p.Kin) : p.Forward ↔ 0 < radOf p.beta0 (coords p 5) - coords p 1 ^ 2 - coords p 3 ^ 2 := by
  have h := opdOf_sq (fine_coords k).rad
  have h5 : coords p 5 = p.ptau / p.beta0 := rfl
  rw [h5, opd_coords k] at h
  rw [h5]
  unfold Part.Forward radOf
  rw [h]
  rfl

theorem fineForward_near {b : ℝ} {z : Z} (h : FineForward b z) : ∀ᶠ y in 𝓝 z, FineForward b y := by
  have c : ContinuousAt (fun y : Z => radOf b (y 5) - y 1 ^ 2 - y 3 ^ 2) z :=
    ContDiffAt.continuousAt (n := 1) (𝕜 := ℝ) (by fun_prop)
  filter_upwards [fine_near h.toFine, c.eventually (lt_mem_nhds h.forward)] with y h1 h2
  exact ⟨h1, h2⟩

theorem fineForward_coords {p : Part} (k : p.Kin) (h : p.Forward) : FineForward p.beta0 (coords p) :=
  ⟨fine_coords k, (forward_iff k).1 h⟩

theorem bendRates_alike (k0 h : ℝ) (q q' : Part) (e : Alike q q') : bendRates k0 h q = bendRates k0 h q' := by
  simp [bendRates, Part.pz, e.x, e.px, e.py, e.delta, e.rvv, e.chi]

theorem expandedRates_alike (k0 k1 h : ℝ) (q q' : Part) (e : Alike q q') : expandedRates k0 k1 h q = expandedRates k0 k1 h q' := by
  simp [expandedRates, e.x, e.px, e.y, e.py, e.delta, e.rvv, e.chi]

theorem solenoidRates_alike (ks x0 y0 : ℝ) (q q' : Part) (e : Alike q q') : solenoidRates ks x0 y0 q = solenoidRates ks x0 y0 q' := by
  simp [solenoidRates, e.x, e.px, e.y, e.py, e.delta, e.rvv]

theorem Fine.of_eq {b : ℝ} {z z' : Z} (h : Fine b z) (e : z' 5 = z 5) : Fine b z' :=
  ⟨by rw [e]; exact h.rad, by rw [e]; exact h.energy⟩

theorem FineForward.of_eq {b : ℝ} {z z' : Z} (h : FineForward b z) (e1 : z' 1 = z 1) (e3 : z' 3 = z 3) (e5 : z' 5 = z 5) :
    FineForward b z' := ⟨h.toFine.of_eq e5, by rw [e1, e3, e5]; exact h.forward⟩

theorem coords_5 {p : Part} {z : Z} (hb : p.beta0 ≠ 0) (q : Part) (h : q.ptau = (place p z).ptau) (hb' : q.beta0 = p.beta0) :
    coords q 5 = z 5 := by
  show q.ptau / q.beta0 = z 5
  rw [h, hb']
  simp [place, hb]

/-! ## Field-free -/

theorem smooth_exact (p : Part) (a : ℝ × Z) (h : FineForward p.beta0 a.2) :
    ContDiffAt ℝ 2 (fun a : ℝ × Z => coords (driftExact (place p a.2) a.1)) a := by
  have h1 : radOf p.beta0 (a.2 5) ≠ 0 := h.rad.ne'
  have h2 := opdOf_sq h.rad
  have h3 : opdOf p.beta0 (a.2 5) * opdOf p.beta0 (a.2 5) - a.2 1 * a.2 1 - a.2 3 * a.2 3 ≠ 0 := by
    have := h.forward.ne'
    rw [show opdOf p.beta0 (a.2 5) * opdOf p.beta0 (a.2 5) - a.2 1 * a.2 1 - a.2 3 * a.2 3
      = opdOf p.beta0 (a.2 5) ^ 2 - a.2 1 ^ 2 - a.2 3 ^ 2 by ring, h2]
    exact this
  have h4 : Real.sqrt (opdOf p.beta0 (a.2 5) * opdOf p.beta0 (a.2 5) - a.2 1 * a.2 1 - a.2 3 * a.2 3) ≠ 0 := by
    rw [Real.sqrt_ne_zero']
    have := h.forward
    rw [show opdOf p.beta0 (a.2 5) * opdOf p.beta0 (a.2 5) - a.2 1 * a.2 1 - a.2 3 * a.2 3
      = opdOf p.beta0 (a.2 5) ^ 2 - a.2 1 ^ 2 - a.2 3 ^ 2 by ring, h2]
    exact this
  have h5 := (opdOf_pos h.rad).ne'
  have h6 := h.energy.ne'
  have h7 : opdOf p.beta0 (a.2 5) / (1 + p.beta0 ^ 2 * a.2 5) ≠ 0 := div_ne_zero h5 h6
  rw [contDiffAt_pi]
  intro i
  fin_cases i <;> simp [coords, driftExact, place, add_sub_cancel, -one_div, -inv_div] <;>
    fun_prop (disch := assumption)

theorem symplectic_exact {p : Part} (k : p.Kin) (h : p.Forward) (L : ℝ) : SymplecticAt (fun q => driftExact q L) p := by
  have hz := fineForward_coords k h
  refine symplectic_flow (F := fun t q => driftExact q t) k ?_ (fun t q => ⟨rfl, rfl, rfl, rfl, rfl, rfl⟩) (bendRates_alike 0 0)
    (bend_hamilton p 0 0) (fun t _ => smooth_exact p (t, coords p) hz) fun t _ => ?_
  · exact Eventually.of_forall fun z => by rw [exact_zero, coords_place k.beta0.ne']
  · filter_upwards [fineForward_near hz] with z hz
    exact ⟨solves_exact _ t, hz.of_eq rfl rfl (coords_5 k.beta0.ne' _ rfl rfl)⟩

theorem smooth_expanded (p : Part) (a : ℝ × Z) (h : Fine p.beta0 a.2) :
    ContDiffAt ℝ 2 (fun a : ℝ × Z => coords (driftExpanded (place p a.2) a.1)) a := by
  have h1 : radOf p.beta0 (a.2 5) ≠ 0 := h.rad.ne'
  have h5 := (opdOf_pos h.rad).ne'
  have h6 := h.energy.ne'
  have h7 : opdOf p.beta0 (a.2 5) / (1 + p.beta0 ^ 2 * a.2 5) ≠ 0 := div_ne_zero h5 h6
  rw [contDiffAt_pi]
  intro i
  fin_cases i <;> simp [coords, driftExpanded, place, -one_div, -inv_div] <;> fun_prop (disch := assumption)

theorem symplectic_expanded {p : Part} (k : p.Kin) (L : ℝ) : SymplecticAt (fun q => driftExpanded q L) p := by
  have hz := fine_coords k
  refine symplectic_flow (F := fun t q => driftExpanded q t) k ?_ (fun t q => ⟨rfl, rfl, rfl, rfl, rfl, rfl⟩) (expandedRates_alike 0 0 0)
    (expanded_hamilton p 0 0 0) (fun t _ => smooth_expanded p (t, coords p) hz) fun t _ => ?_
  · exact Eventually.of_forall fun z => by rw [expanded_zero, coords_place k.beta0.ne']
  · filter_upwards [fine_near hz] with z hz
    exact ⟨solves_expanded (kin_place k.beta0 hz).rpp t, hz.of_eq (coords_5 k.beta0.ne' _ rfl rfl)⟩

/-! ## Dipoles -/

theorem smooth_polar (p : Part) (h : ℝ) (a : ℝ × Z) (ok : FineForward p.beta0 a.2) (hc : Real.cos (h * a.1) ≠ 0)
    (pos : 0 < Real.cos (h * a.1) * pzZ p.beta0 a.2 - Real.sin (h * a.1) * a.2 1) :
    ContDiffAt ℝ 2 (fun a : ℝ × Z => coords (polarDrift (place p a.2) a.1 h)) a := by
  have h1 : radOf p.beta0 (a.2 5) ≠ 0 := ok.rad.ne'
  have h2 := opdOf_sq ok.rad
  have h3 : opdOf p.beta0 (a.2 5) ^ 2 - a.2 1 ^ 2 - a.2 3 ^ 2 ≠ 0 := by
    rw [h2]
    exact ok.forward.ne'
  have hz : Real.sqrt (opdOf p.beta0 (a.2 5) ^ 2 - a.2 1 ^ 2 - a.2 3 ^ 2) = pzZ p.beta0 a.2 := by rw [h2]; rfl
  have h4 : Real.sqrt (opdOf p.beta0 (a.2 5) ^ 2 - a.2 1 ^ 2 - a.2 3 ^ 2) ≠ 0 := by
    rw [hz]
    exact (Real.sqrt_pos.2 ok.forward).ne'
  have h5 := (opdOf_pos ok.rad).ne'
  have h6 := ok.energy.ne'
  have h7 : opdOf p.beta0 (a.2 5) / (1 + p.beta0 ^ 2 * a.2 5) ≠ 0 := div_ne_zero h5 h6
  have h8 : Real.cos (h * a.1) - Real.sin (h * a.1) * (a.2 1 * (1 / Real.sqrt (opdOf p.beta0 (a.2 5) ^ 2 - a.2 1 ^ 2 - a.2 3 ^ 2))) ≠ 0 := by
    intro e
    rw [hz] at e h4
    field_simp at e
    linarith
  have h9 : 1 - a.2 1 * Real.sin (h * a.1) / Real.cos (h * a.1) / Real.sqrt (opdOf p.beta0 (a.2 5) ^ 2 - a.2 1 ^ 2 - a.2 3 ^ 2) ≠ 0 := by
    intro e
    rw [hz] at e h4
    field_simp at e
    linarith
  rw [contDiffAt_pi]
  intro i
  fin_cases i <;> simp [coords, polarDrift, place, -one_div, -inv_div] <;> fun_prop (disch := assumption)

theorem symplectic_polar {p : Part} {h L : ℝ} (ok : ∀ t ∈ Set.uIcc 0 L, Reaches h t p) :
    SymplecticAt (fun q => polarDrift q L h) p := by
  have o0 := ok 0 Set.left_mem_uIcc
  have k := o0.kin
  have hz := fineForward_coords k o0.forward
  have pz : pzZ p.beta0 (coords p) = p.pz := by rw [← place_pz hz.toFine, place_coords k]
  have pos : ∀ t ∈ Set.uIcc 0 L, 0 < Real.cos (h * t) * pzZ p.beta0 (coords p) - Real.sin (h * t) * coords p 1 := fun t ht => by
    rw [pz]
    exact (ok t ht).pos
  refine symplectic_flow (F := fun t q => polarDrift q t h) k ?_ (fun t q => ⟨rfl, rfl, rfl, rfl, rfl, rfl⟩) (bendRates_alike 0 h)
    (bend_hamilton p 0 h) (fun t ht => smooth_polar p h (t, coords p) hz (ok t ht).cos (pos t ht)) fun t ht => ?_
  · exact Eventually.of_forall fun z => by rw [polarDrift_zero, coords_place k.beta0.ne']
  · have c : ContinuousAt (fun y : Z => Real.cos (h * t) * pzZ p.beta0 y - Real.sin (h * t) * y 1) (coords p) := by
      refine ContDiffAt.continuousAt (n := 1) (𝕜 := ℝ) ?_
      unfold pzZ
      have := hz.forward.ne'
      fun_prop (disch := assumption)
    filter_upwards [fineForward_near hz, c.eventually (lt_mem_nhds (pos t ht))] with z hz hp
    have kz := kin_place k.beta0 hz.toFine
    have fz : (place p z).Forward := by
      rw [forward_iff kz, coords_place k.beta0.ne']
      exact hz.forward
    have rz : Reaches h t (place p z) := by
      refine Reaches.of kz fz o0.curved (ok t ht).cos ?_
      rw [place_pz hz.toFine]
      exact hp
    refine ⟨solves_polar rz, ?_⟩
    have := fineForward_coords (polarDrift_kin t h kz) (polarDrift_pz rz).2
    exact this

theorem straightBend_eq {l k0 : ℝ} {p : Part} (hk : ¬ |k0 * p.chi| < 1e-8) :
    straightBend l k0 p = { p with
      x := p.x + (pzOf (p.delta + 1) p.py (p.px - k0 * p.chi * l) - pzOf (p.delta + 1) p.py p.px) / (k0 * p.chi)
      px := p.px - k0 * p.chi * l
      y := p.y + p.py / (k0 * p.chi) * (ang (p.delta + 1) p.py p.px - ang (p.delta + 1) p.py (p.px - k0 * p.chi * l))
      zeta := p.zeta + (l - (p.delta + 1) / (k0 * p.chi)
        * (ang (p.delta + 1) p.py p.px - ang (p.delta + 1) p.py (p.px - k0 * p.chi * l)) / p.rvv)
      s := p.s + l } := by
  unfold straightBend
  simp only [if_neg hk]
  rfl

theorem smooth_straight (p : Part) (k0 : ℝ) (hk : ¬ |k0 * p.chi| < 1e-8) (a : ℝ × Z) (ok : FineForward p.beta0 a.2)
    (h' : 0 < radOf p.beta0 (a.2 5) - (a.2 1 - k0 * p.chi * a.1) ^ 2 - a.2 3 ^ 2) :
    ContDiffAt ℝ 2 (fun a : ℝ × Z => coords (straightBend a.1 k0 (place p a.2))) a := by
  have h1 : radOf p.beta0 (a.2 5) ≠ 0 := ok.rad.ne'
  have h2 := opdOf_sq ok.rad
  have h3 : 0 < opdOf p.beta0 (a.2 5) ^ 2 - a.2 1 ^ 2 - a.2 3 ^ 2 := by
    rw [h2]
    exact ok.forward
  have h4 : 0 < opdOf p.beta0 (a.2 5) ^ 2 - (a.2 1 - k0 * p.chi * a.1) ^ 2 - a.2 3 ^ 2 := by
    rw [h2]
    exact h'
  have h5 := (opdOf_pos ok.rad).ne'
  have h6 := ok.energy.ne'
  have h7 : opdOf p.beta0 (a.2 5) / (1 + p.beta0 ^ 2 * a.2 5) ≠ 0 := div_ne_zero h5 h6
  have h8 := ne_of_not_small hk
  rw [contDiffAt_pi]
  have e : ∀ a : ℝ × Z, straightBend a.1 k0 (place p a.2) = _ := fun a => straightBend_eq (p := place p a.2) (l := a.1) hk
  intro i
  simp only [e]
  fin_cases i <;> simp [coords, place, -one_div, -inv_div] <;> fun_prop (disch := assumption)

theorem symplectic_straight {p : Part} {k0 L : ℝ} (k : p.Kin) (hk : ¬ |k0 * p.chi| < 1e-8)
    (ok : ∀ t ∈ Set.uIcc 0 L, StraightOk (k0 * p.chi) t p) : SymplecticAt (fun q => straightBend L k0 q) p := by
  have f0 : p.Forward := by
    have := (ok 0 Set.left_mem_uIcc).at0
    rw [add_comm] at this
    exact this
  have hz := fineForward_coords k f0
  have e5 : (p.delta + 1) ^ 2 = radOf p.beta0 (coords p 5) := by
    have h := opdOf_sq hz.rad
    rw [show coords p 5 = p.ptau / p.beta0 from rfl, opd_coords k, add_comm 1 p.delta] at h
    exact h
  have pos : ∀ t ∈ Set.uIcc 0 L, 0 < radOf p.beta0 (coords p 5) - (coords p 1 - k0 * p.chi * t) ^ 2 - coords p 3 ^ 2 := fun t ht => by
    rw [← e5]
    exact (ok t ht).at1
  refine symplectic_flow (F := fun t q => straightBend t k0 q) k ?_ (fun t q => ?_) (bendRates_alike k0 0)
    (bend_hamilton p k0 0) (fun t ht => smooth_straight p k0 hk (t, coords p) hz (pos t ht)) fun t ht => ?_
  · exact Eventually.of_forall fun z => by rw [straight_zero, coords_place k.beta0.ne']
  · unfold straightBend
    simp only
    split_ifs <;> exact ⟨rfl, rfl, rfl, rfl, rfl, rfl⟩
  · have c : ContinuousAt (fun y : Z => radOf p.beta0 (y 5) - (y 1 - k0 * p.chi * t) ^ 2 - y 3 ^ 2) (coords p) :=
      ContDiffAt.continuousAt (n := 1) (𝕜 := ℝ) (by fun_prop)
    filter_upwards [fineForward_near hz, c.eventually (lt_mem_nhds (pos t ht))] with z hz hp
    have h2 := opdOf_sq hz.rad
    have sz : StraightOk (k0 * (place p z).chi) t (place p z) := by
      constructor <;> rw [opd_place', h2]
      · exact hz.forward
      · exact hp
    refine ⟨solves_straightBend hk sz, ?_⟩
    have e : straightBend t k0 (place p z) = _ := straightBend_eq (p := place p z) (l := t) hk
    refine ⟨hz.toFine.of_eq ?_, ?_⟩
    · rw [e]
      exact coords_5 k.beta0.ne' _ rfl rfl
    · have e5 : coords (straightBend t k0 (place p z)) 5 = z 5 := by
        rw [e]
        exact coords_5 k.beta0.ne' _ rfl rfl
      rw [e5, e]
      exact hp

/-- `bendC` in coordinates. -/
theorem bendC_place {p : Part} (kk h : ℝ) (z : Z) :
    bendC kk h (place p z) = pzOf (opdOf p.beta0 (z 5)) (z 3) (z 1) - kk * (1 / h + z 0) := by
  unfold bendC
  rw [opd_place']
  rfl

/-- `bendPx` in coordinates. -/
theorem bendPx_place {p : Part} (kk h l : ℝ) (z : Z) : bendPx kk h l (place p z)
    = z 1 * Real.cos (h * l) + (pzOf (opdOf p.beta0 (z 5)) (z 3) (z 1) - kk * (1 / h + z 0)) * Real.sin (h * l) := by
  unfold bendPx
  rw [bendC_place]
  rfl

theorem smooth_bendPx {p : Part} (kk h : ℝ) (a : ℝ × Z) (ok : FineForward p.beta0 a.2) :
    ContDiffAt ℝ 2 (fun a : ℝ × Z => bendPx kk h a.1 (place p a.2)) a := by
  have h1 : radOf p.beta0 (a.2 5) ≠ 0 := ok.rad.ne'
  have h3 : 0 < opdOf p.beta0 (a.2 5) ^ 2 - a.2 1 ^ 2 - a.2 3 ^ 2 := by
    rw [opdOf_sq ok.rad]
    exact ok.forward
  simp only [bendPx_place]
  fun_prop (disch := assumption)

/-- The particles around one for which the bend works. -/
theorem bendOk_near {p : Part} {kk h : ℝ} {a : ℝ × Z} (hk : ¬ |kk| < 1e-8) (ok : FineForward p.beta0 a.2)
    (h' : 0 < radOf p.beta0 (a.2 5) - bendPx kk h a.1 (place p a.2) ^ 2 - a.2 3 ^ 2) :
    ∀ᶠ a in 𝓝 a, BendOk kk h a.1 (place p a.2) := by
  have cb := (smooth_bendPx kk h a ok)
  have c : ContinuousAt (fun a : ℝ × Z => radOf p.beta0 (a.2 5) - bendPx kk h a.1 (place p a.2) ^ 2 - a.2 3 ^ 2) a :=
    ContDiffAt.continuousAt (n := 2) (𝕜 := ℝ) (by fun_prop)
  have t : Tendsto (fun a : ℝ × Z => a.2) (𝓝 a) (𝓝 a.2) := continuous_snd.tendsto a
  filter_upwards [t.eventually (fineForward_near ok), c.eventually (lt_mem_nhds h')] with a ok hp
  have h2 := opdOf_sq ok.rad
  refine ⟨hk, ?_, ?_⟩ <;> rw [opd_place', h2]
  · exact ok.forward
  · exact hp

theorem smooth_curved (p : Part) (k0 h : ℝ) (hk : ¬ |k0 * p.chi| < 1e-8) (a : ℝ × Z) (ok : FineForward p.beta0 a.2)
    (h' : 0 < radOf p.beta0 (a.2 5) - bendPx (k0 * p.chi) h a.1 (place p a.2) ^ 2 - a.2 3 ^ 2) :
    ContDiffAt ℝ 2 (fun a : ℝ × Z => coords (curvedBend a.1 k0 h (place p a.2))) a := by
  have h1 : radOf p.beta0 (a.2 5) ≠ 0 := ok.rad.ne'
  have h2 := opdOf_sq ok.rad
  have h3 : 0 < opdOf p.beta0 (a.2 5) ^ 2 - a.2 1 ^ 2 - a.2 3 ^ 2 := by
    rw [h2]
    exact ok.forward
  have h4 : 0 < opdOf p.beta0 (a.2 5) ^ 2 - bendPx (k0 * p.chi) h a.1 (place p a.2) ^ 2 - a.2 3 ^ 2 := by
    rw [h2]
    exact h'
  have h5 := (opdOf_pos ok.rad).ne'
  have h6 := ok.energy.ne'
  have h7 : opdOf p.beta0 (a.2 5) / (1 + p.beta0 ^ 2 * a.2 5) ≠ 0 := div_ne_zero h5 h6
  have h8 := ne_of_not_small hk
  have cb := (smooth_bendPx (k0 * p.chi) h a ok)
  have e : (fun a : ℝ × Z => coords (curvedBend a.1 k0 h (place p a.2))) =ᶠ[𝓝 a] fun a : ℝ × Z => coords _ :=
    (bendOk_near hk ok h').mono fun a o => congrArg coords (curvedBend_eq (p := place p a.2) (l := a.1) (k0 := k0) o)
  refine ContDiffAt.congr_of_eventuallyEq ?_ e
  rw [contDiffAt_pi]
  intro i
  have hx : ∀ z, (place p z).x = z 0 := fun _ => rfl
  have hpx : ∀ z, (place p z).px = z 1 := fun _ => rfl
  have hpy : ∀ z, (place p z).py = z 3 := fun _ => rfl
  have hc : ∀ z, (place p z).chi = p.chi := fun _ => rfl
  have hy : ∀ z, (place p z).y = z 2 := fun _ => rfl
  have hze : ∀ z, (place p z).zeta = z 4 := fun _ => rfl
  have hpt : ∀ z, (place p z).ptau = z 5 * p.beta0 := fun _ => rfl
  have hb : ∀ z, (place p z).beta0 = p.beta0 := fun _ => rfl
  have hr : ∀ z, (place p z).rvv = opdOf p.beta0 (z 5) / (1 + p.beta0 ^ 2 * z 5) := fun _ => rfl
  simp only [opd_place', hx, hpx, hy, hpy, hze, hpt, hb, hr, bendC_place, hc]
  fin_cases i <;> simp [coords, -one_div, -inv_div] <;> fun_prop (disch := assumption)

theorem symplectic_curved {p : Part} {k0 h L : ℝ} (k : p.Kin) (hh : h ≠ 0)
    (ok : ∀ t ∈ Set.uIcc 0 L, BendOk (k0 * p.chi) h t p) : SymplecticAt (fun q => curvedBend L k0 h q) p := by
  have o0 := ok 0 Set.left_mem_uIcc
  have f0 : p.Forward := by
    have := o0.at0
    rw [add_comm] at this
    exact this
  have hz := fineForward_coords k f0
  have e5 : (p.delta + 1) ^ 2 = radOf p.beta0 (coords p 5) := by
    have h := opdOf_sq hz.rad
    rw [show coords p 5 = p.ptau / p.beta0 from rfl, opd_coords k, add_comm 1 p.delta] at h
    exact h
  have pos : ∀ t ∈ Set.uIcc 0 L, 0 < radOf p.beta0 (coords p 5) - bendPx (k0 * p.chi) h t (place p (coords p)) ^ 2 - coords p 3 ^ 2 :=
    fun t ht => by
      rw [← e5, place_coords k]
      exact (ok t ht).at1
  refine symplectic_flow (F := fun t q => curvedBend t k0 h q) k ?_ (fun t q => ?_) (bendRates_alike k0 h)
    (bend_hamilton p k0 h) (fun t ht => smooth_curved p k0 h o0.big (t, coords p) hz (pos t ht)) fun t ht => ?_
  · filter_upwards [fineForward_near hz] with z hz
    have h2 := opdOf_sq hz.rad
    rw [curvedBend_zero (p := place p z) o0.big, coords_place k.beta0.ne']
    rw [opd_place', h2]
    exact hz.forward
  · unfold curvedBend
    simp only
    split_ifs <;> exact ⟨rfl, rfl, rfl, rfl, rfl, rfl⟩
  · have ev := bendOk_near (a := (t, coords p)) o0.big hz (pos t ht)
    have tt : Tendsto (fun y : Z => (t, y)) (𝓝 (coords p)) (𝓝 (t, coords p)) := (Continuous.prodMk_right t).tendsto _
    filter_upwards [fineForward_near hz, tt.eventually ev] with z hz bz
    have h2 := opdOf_sq hz.rad
    refine ⟨solves_curvedBend (p := place p z) hh bz, ?_⟩
    have e : curvedBend t k0 h (place p z) = _ := curvedBend_eq (p := place p z) (l := t) bz
    have e5 : coords (curvedBend t k0 h (place p z)) 5 = z 5 := by
      rw [e]
      exact coords_5 k.beta0.ne' _ rfl rfl
    refine ⟨hz.toFine.of_eq e5, ?_⟩
    have b1 := bz.at1
    rw [opd_place', h2] at b1
    rw [e5, e]
    exact b1

end

end Verif.Symplectic
