import Verif.Magnets.DriftMotion
import Mathlib.Analysis.Real.Pi.Bounds

/-!
# C59: the drift parts of the magnet models

For every choice of the model: the map solves the equations of motion of the field it stands for (`C59_motion`), the maps of two
lengths in a row are the map of the sum (`C59_compose`), the map of the negative length is the inverse, also for the nested
integrators (`C59_inverse`, `C59_nested_inverse`), nothing but positions, momenta, `zeta` and `s` is touched and `s` advances by the
length (`C59_touched`, `C59_nested_path`).  `C59_expanded_violated` shows why `Regular` excludes part of the expanded model.
-/

namespace Verif.Magnets

open Frames Filter Topology

noncomputable section

/-- Spelled out for the arguments of `magnetDrift`. -/
abbrev DriftArgs.Regular (a : DriftArgs) (l : ℝ) (p : Part) : Prop :=
  Magnets.Regular a.model a.k0 a.k1 a.ks a.h a.x0 a.y0 l p (magnetDrift a l p)

/-! ## The maps of length zero -/

theorem exact_zero (p : Part) : driftExact p 0 = p := by ext <;> simp [driftExact]

theorem expanded_zero (p : Part) : driftExpanded p 0 = p := by ext <;> simp [driftExpanded]

theorem combined_zero {p : Part} (k0 k1 h : ℝ) (hd : p.delta + 1 ≠ 0) : combined 0 k0 k1 h p = p := by
  rw [combined_eq]
  have hX : ∀ K g x b, planeX K g 0 x b = x := fun K g x b => by simp [planeX, focC_zero, focS_zero]
  have hB : ∀ K g x b, planeB K g 0 x b = b := fun K g x b => by simp [planeB, focC_zero, focS_zero]
  have hL : ∀ K g h x b, planeL K g h 0 x b = 0 := fun K g h x b => by
    unfold planeL
    split_ifs with hK
    · rw [pathQuad_eq hK]
      simp [focC_zero, focS_zero]
    · simp
  ext <;> simp [hX, hB, hL, hd]

theorem straight_zero (k0 : ℝ) (p : Part) : straightBend 0 k0 p = p := by
  unfold straightBend
  simp only
  split_ifs
  · exact exact_zero p
  · ext <;> simp

theorem curvedBend_small {l k0 h : ℝ} {p : Part} (hk : k0 * p.chi = 0) : curvedBend l k0 h p = polarDrift p l h := by
  unfold curvedBend
  simp only [hk, abs_zero]
  rw [if_pos (by norm_num)]

theorem straightBend_small {l k0 : ℝ} {p : Part} (hk : k0 * p.chi = 0) : straightBend l k0 p = driftExact p l := by
  unfold straightBend
  simp only [hk, abs_zero]
  rw [if_pos (by norm_num)]

theorem solenoid_small {l x0 y0 : ℝ} {p : Part} : solenoid l 0 x0 y0 p = driftExact p l := by
  unfold solenoid
  simp only [zero_div, abs_zero]
  rw [if_pos (by norm_num)]

theorem solCore_zero (ks x0 y0 : ℝ) (p : Part) : solCore 0 ks x0 y0 p = p := by
  ext <;> simp [solCore]

/-! ## One map for each model -/

theorem md0 {a : DriftArgs} (h : a.model = 0) (p : Part) : (fun t => magnetDrift a t p) = fun t => driftExpanded p t := by
  funext t
  unfold magnetDrift
  by_cases ht : t = 0
  · simp [h, ht, expanded_zero]
  · simp [h, ht]

theorem md1 {a : DriftArgs} (h : a.model = 1) (p : Part) : (fun t => magnetDrift a t p) = fun t => driftExact p t := by
  funext t
  unfold magnetDrift
  by_cases ht : t = 0
  · simp [h, ht, exact_zero]
  · simp [h, ht]

theorem md2 {a : DriftArgs} (h : a.model = 2) (p : Part) : (fun t => magnetDrift a t p) = fun t => polarDrift p t a.h := by
  funext t
  unfold magnetDrift
  by_cases ht : t = 0
  · simp [h, ht, polarDrift_zero]
  · simp [h, ht]

theorem md3 {a : DriftArgs} (h : a.model = 3) {p : Part} (hd : p.delta + 1 ≠ 0) :
    (fun t => magnetDrift a t p) = fun t => combined t a.k0 a.k1 a.h p := by
  funext t
  unfold magnetDrift
  by_cases ht : t = 0
  · simp [h, ht, combined_zero, hd]
  · simp [h, ht]

theorem md4 {a : DriftArgs} (h : a.model = 4) {p : Part} (hk : ¬ |a.k0 * p.chi| < 1e-8)
    (h0 : 0 < (p.delta + 1) ^ 2 - p.px ^ 2 - p.py ^ 2) :
    (fun t => magnetDrift a t p) = fun t => curvedBend t a.k0 a.h p := by
  funext t
  unfold magnetDrift
  by_cases ht : t = 0
  · simp only [h, ht]
    rw [curvedBend_zero hk h0]
    simp
  · simp [h, ht]

theorem md4' {a : DriftArgs} (h : a.model = 4) {p : Part} (hk : a.k0 * p.chi = 0) :
    (fun t => magnetDrift a t p) = fun t => polarDrift p t a.h := by
  funext t
  unfold magnetDrift
  by_cases ht : t = 0
  · simp [h, ht, polarDrift_zero]
  · simp [h, ht, curvedBend_small hk]

theorem md5 {a : DriftArgs} (h : a.model = 5) (p : Part) : (fun t => magnetDrift a t p) = fun t => straightBend t a.k0 p := by
  funext t
  unfold magnetDrift
  by_cases ht : t = 0
  · simp [h, ht, straight_zero]
  · simp [h, ht]

theorem md6 {a : DriftArgs} (h : a.model = 6) (hk : ¬ |a.ks / 2| < 1e-9) {l : ℝ} (hl : 1e-9 < |l|) (p : Part) :
    magnetDrift a l p = solCore l a.ks a.x0 a.y0 p := by
  have h0 : l ≠ 0 := by
    rintro rfl
    rw [abs_zero] at hl
    norm_num at hl
  unfold magnetDrift
  rw [← solenoid_core hk (not_lt.2 hl.le)]
  simp [h, h0]

theorem md6' {a : DriftArgs} (h : a.model = 6) (hk : a.ks = 0) (p : Part) :
    (fun t => magnetDrift a t p) = fun t => driftExact p t := by
  funext t
  unfold magnetDrift
  by_cases ht : t = 0
  · simp [h, ht, exact_zero]
  · simp [h, ht, hk, solenoid_small]

theorem forward_comm {p : Part} (h : p.Forward) : 0 < (p.delta + 1) ^ 2 - p.px ^ 2 - p.py ^ 2 := by
  rw [add_comm]
  exact h

theorem bendOk_of {a : DriftArgs} (hm : a.model = 4) {l : ℝ} {p : Part} (h1 : 1e-8 ≤ |a.k0 * p.chi|) (h2 : p.Forward)
    (h3 : (magnetDrift a l p).Forward) : BendOk (a.k0 * p.chi) a.h l p := by
  have hk := not_lt.2 h1
  have f0 := forward_comm h2
  refine ⟨hk, f0, ?_⟩
  have e : magnetDrift a l p = curvedBend l a.k0 a.h p := congrFun (md4 hm hk f0) l
  rw [e] at h3
  have := forward_comm h3
  unfold curvedBend at this
  simp only [if_neg hk] at this
  exact this

theorem straightOk_of {a : DriftArgs} (hm : a.model = 5) {l : ℝ} {p : Part} (h1 : 1e-8 ≤ |a.k0 * p.chi|) (h2 : p.Forward)
    (h3 : (magnetDrift a l p).Forward) : StraightOk (a.k0 * p.chi) l p := by
  have hk := not_lt.2 h1
  have f0 := forward_comm h2
  refine ⟨f0, ?_⟩
  have e : magnetDrift a l p = straightBend l a.k0 p := congrFun (md5 hm p) l
  rw [e] at h3
  have := forward_comm h3
  unfold straightBend at this
  simpa only [if_neg hk] using this

theorem rates_k0 {k0 h : ℝ} {p : Part} (hk : k0 * p.chi = 0) : bendRates k0 h p = bendRates 0 h p := by
  simp only [bendRates]
  rw [mul_comm p.chi k0, hk]
  simp

theorem rates_ks (x0 y0 : ℝ) (p : Part) : solenoidRates 0 x0 y0 p = bendRates 0 0 p := by
  simp [solenoidRates, bendRates, Part.pz]

theorem Solves.congr {r r' : Part → Rates} {f g : ℝ → Part} {l : ℝ} (h : Solves r f l) (hr : r (f l) = r' (f l))
    (hg : g =ᶠ[𝓝 l] f) : Solves r' g l := by
  have e : g l = f l := hg.self_of_nhds
  have c : ∀ (k : Part → ℝ) (d : ℝ), HasDerivAt (fun t => k (f t)) d l → HasDerivAt (fun t => k (g t)) d l := fun k d hd =>
    hd.congr_of_eventuallyEq (hg.fun_comp k)
  obtain ⟨h1, h2, h3, h4, h5, h6⟩ := h
  rw [hr] at h1 h2 h3 h4 h5
  refine ⟨?_, ?_, ?_, ?_, ?_, c Part.s _ h6⟩ <;> rw [e]
  · exact c Part.x _ h1
  · exact c Part.px _ h2
  · exact c Part.y _ h3
  · exact c Part.py _ h4
  · exact c Part.zeta _ h5

/-- The coordinates as functions of the length solve the equations of motion of the field, for every model and particle. -/
theorem C59_motion (a : DriftArgs) (hm : 0 ≤ a.model ∧ a.model ≤ 6) (l : ℝ) (p : Part) (ok : a.Regular l p) :
    Solves (driftRates a.model a.k0 a.k1 a.ks a.h a.x0 a.y0) (fun t => magnetDrift a t p) l := by
  obtain h | h | h | h | h | h | h : a.model = 0 ∨ a.model = 1 ∨ a.model = 2 ∨ a.model = 3 ∨ a.model = 4 ∨ a.model = 5 ∨ a.model = 6 := by
    omega
  all_goals simp only [DriftArgs.Regular, Regular, h] at ok; norm_num at ok; simp only [driftRates, h]; norm_num
  · rw [md0 h]
    exact solves_expanded ok l
  · rw [md1 h]
    exact solves_exact p l
  · rw [md2 h]
    exact solves_polar ok
  · have hd : p.delta + 1 ≠ 0 := by
      have := ok.1
      intro e
      linarith
    rw [md3 h hd]
    refine solves_combined a.k0 a.k1 a.h l ok.1.ne' ?_
    simpa using ok.2
  · obtain ⟨hh, ⟨o1, o2, o3⟩ | ⟨o1, o2⟩⟩ := ok
    · have h1 : (1e-8 : ℝ) ≤ |a.k0 * p.chi| := by rw [abs_mul]; norm_num; exact o1
      have b := bendOk_of h h1 o2 o3
      rw [md4 h b.big b.at0]
      exact solves_curvedBend hh b
    · have o1' : a.k0 * p.chi = 0 := by simpa using o1
      rw [md4' h o1']
      exact (solves_polar o2).congr (rates_k0 (p := polarDrift p l a.h) o1').symm (Eventually.of_forall fun _ => rfl)
  · obtain ⟨o1, o2, o3⟩ | ⟨o1, o2⟩ := ok
    · have h1 : (1e-8 : ℝ) ≤ |a.k0 * p.chi| := by rw [abs_mul]; norm_num; exact o1
      rw [md5 h]
      exact solves_straightBend (not_lt.2 h1) (straightOk_of h h1 o2 o3)
    · have o1' : a.k0 * p.chi = 0 := by simpa using o1
      rw [md5 h]
      simp only [straightBend_small o1']
      exact (solves_exact p l).congr (rates_k0 (p := driftExact p l) o1').symm (Eventually.of_forall fun _ => rfl)
  · obtain ⟨o1, o2, o3⟩ | ⟨o1, o2⟩ := ok
    · have h1 : (1e-9 : ℝ) ≤ |a.ks / 2| := by norm_num; exact o1
      have h2 : (1e-9 : ℝ) < |l| := by norm_num; exact o2
      have hk0 : a.ks / 2 ≠ 0 := by
        intro e
        rw [e, abs_zero] at h1
        norm_num at h1
      have pos : 0 < solPz a.ks a.x0 a.y0 p := Real.sqrt_pos.2 (by linarith)
      refine (solves_solCore (l := l) hk0 pos).congr rfl ?_
      have c : ContinuousAt (fun t : ℝ => |t|) l := by fun_prop
      filter_upwards [c.eventually (lt_mem_nhds h2)] with t ht
      exact md6 h (not_lt.2 h1) ht p
    · rw [md6' h o1]
      refine (solves_exact p l).congr ?_ (Eventually.of_forall fun _ => rfl)
      rw [o1, rates_ks]

/-- The maps of two lengths in a row are the map of the sum of the lengths. -/
theorem C59_compose (a : DriftArgs) (hm : 0 ≤ a.model ∧ a.model ≤ 6) (l1 l2 : ℝ) (p : Part) (ok1 : a.Regular l1 p)
    (ok2 : a.Regular l2 (magnetDrift a l1 p)) (ok : a.Regular (l1 + l2) p) :
    magnetDrift a l2 (magnetDrift a l1 p) = magnetDrift a (l1 + l2) p := by
  obtain h | h | h | h | h | h | h : a.model = 0 ∨ a.model = 1 ∨ a.model = 2 ∨ a.model = 3 ∨ a.model = 4 ∨ a.model = 5 ∨ a.model = 6 := by
    omega
  · have e := fun q l => congrFun (md0 h q) l
    simp only [e]
    exact (C50_compose p l1 l2).2
  · have e := fun q l => congrFun (md1 h q) l
    simp only [e]
    exact (C50_compose p l1 l2).1
  · have e := fun q l => congrFun (md2 h q) l
    simp only [DriftArgs.Regular, Regular, h] at ok ok1 ok2
    norm_num at ok ok1 ok2
    simp only [e]
    exact (C50_polar ok1.kin ok1.forward ok1.curved ok1.cos ok2.cos ok.cos ok1.crosses ok.crosses).1
  · simp only [DriftArgs.Regular, Regular, h] at ok
    norm_num at ok
    have hd : p.delta + 1 ≠ 0 := by
      have := ok.1
      intro e
      linarith
    have e := fun l => congrFun (md3 h hd) l
    have hd' : (combined l1 a.k0 a.k1 a.h p).delta + 1 ≠ 0 := hd
    rw [e, e, congrFun (md3 h hd') l2]
    refine combined_add l1 l2 a.k0 a.k1 a.h p hd ?_
    obtain o | o := ok.2
    · left
      have : p.chi * a.k0 / (p.delta + 1) * a.h + p.chi * a.k1 / (p.delta + 1) = p.chi * (a.k0 * a.h + a.k1) / (p.delta + 1) := by
        ring
      rw [this]
      exact div_ne_zero (mul_ne_zero o.1 o.2) hd
    · right
      rw [o]
      field_simp
      ring
  · simp only [DriftArgs.Regular, Regular, h] at ok ok1 ok2
    norm_num [-abs_mul] at ok ok1 ok2
    obtain ⟨hh, ⟨o1, o2, o3⟩ | ⟨o1, o2⟩⟩ := ok
    · have h1 : (1e-8 : ℝ) ≤ |a.k0 * p.chi| := by norm_num [-abs_mul]; exact o1
      have b := bendOk_of h h1 o2 o3
      have e := fun l => congrFun (md4 h b.big b.at0) l
      obtain ⟨-, ⟨-, -, q3⟩ | ⟨q1, -⟩⟩ := ok1
      · have b1 := bendOk_of h h1 o2 q3
        obtain ⟨c1, c2⟩ := curvedBend_add b1 b
        have big' : ¬ |a.k0 * (curvedBend l1 a.k0 a.h p).chi| < 1e-8 := by
          rw [show (curvedBend l1 a.k0 a.h p).chi = p.chi by rw [curvedBend_eq b1]]
          exact b.big
        rw [e, e, congrFun (md4 h big' c2.at0) l2]
        exact c1
      · exfalso
        have : a.k0 * p.chi = 0 := by simpa using q1
        rw [this, abs_zero] at h1
        norm_num at h1
    · have o1' : a.k0 * p.chi = 0 := by simpa using o1
      have e := fun l => congrFun (md4' h o1') l
      have o1'' : a.k0 * (polarDrift p l1 a.h).chi = 0 := o1'
      have e' := fun l => congrFun (md4' h o1'') l
      obtain ⟨-, ⟨q1, -, -⟩ | ⟨-, q2⟩⟩ := ok1
      · exfalso
        rw [o1', abs_zero] at q1
        norm_num at q1
      · rw [e] at ok2
        obtain ⟨-, ⟨q1, -, -⟩ | ⟨-, q3⟩⟩ := ok2
        · exfalso
          rw [o1'', abs_zero] at q1
          norm_num at q1
        · rw [e, e, e']
          exact (C50_polar o2.kin o2.forward o2.curved q2.cos q3.cos o2.cos q2.crosses o2.crosses).1
  · have e := fun q l => congrFun (md5 h q) l
    simp only [e]
    exact straightBend_add l1 l2 a.k0 p
  · simp only [DriftArgs.Regular, Regular, h] at ok ok1 ok2
    norm_num at ok ok1 ok2
    obtain ⟨o1, o2, o3⟩ | ⟨o1, o2⟩ := ok
    · have h1 : (1e-9 : ℝ) ≤ |a.ks / 2| := by norm_num; exact o1
      have hk0 : a.ks / 2 ≠ 0 := by
        intro e
        rw [e, abs_zero] at h1
        norm_num at h1
      have hk00 : a.ks ≠ 0 := by
        rintro e
        rw [e] at hk0
        simp at hk0
      obtain ⟨-, q2, -⟩ | ⟨q1, -⟩ := ok1
      swap
      · exact absurd q1 hk00
      obtain ⟨-, r2, -⟩ | ⟨r1, -⟩ := ok2
      swap
      · exact absurd r1 hk00
      have n := not_lt.2 h1
      have f1 : (1e-9 : ℝ) < |l1| := by norm_num; exact q2
      have f2 : (1e-9 : ℝ) < |l2| := by norm_num; exact r2
      have f3 : (1e-9 : ℝ) < |l1 + l2| := by norm_num; exact o2
      rw [md6 h n f1, md6 h n f2, md6 h n f3]
      exact solCore_add l1 l2 a.ks a.x0 a.y0 p hk0
    · have e := fun q l => congrFun (md6' h o1 q) l
      simp only [e]
      exact (C50_compose p l1 l2).1

/-- The map of the negative length undoes the map, whatever the model. -/
theorem C59_inverse (a : DriftArgs) (hm : 0 ≤ a.model ∧ a.model ≤ 6) (l : ℝ) (p : Part) (ok : a.Regular l p) :
    magnetDrift a (-l) (magnetDrift a l p) = p := by
  obtain h | h | h | h | h | h | h : a.model = 0 ∨ a.model = 1 ∨ a.model = 2 ∨ a.model = 3 ∨ a.model = 4 ∨ a.model = 5 ∨ a.model = 6 := by
    omega
  all_goals simp only [DriftArgs.Regular, Regular, h] at ok; norm_num [-abs_mul] at ok
  · have e := fun q l => congrFun (md0 h q) l
    simp only [e]
    rw [(C50_compose p l (-l)).2, add_neg_cancel, expanded_zero]
  · have e := fun q l => congrFun (md1 h q) l
    simp only [e]
    rw [(C50_compose p l (-l)).1, add_neg_cancel, exact_zero]
  · have e := fun q l => congrFun (md2 h q) l
    simp only [e]
    exact (C50_polar ok.kin ok.forward ok.curved ok.cos (by simpa using ok.cos) (l2 := -l) (by simp)
      ok.crosses (Reaches.of ok.kin ok.forward ok.curved (by simp) (by simpa using ok.forward.pz_pos)).crosses).2.1
  · have hd : p.delta + 1 ≠ 0 := by
      have := ok.1
      intro e
      linarith
    have e := fun l => congrFun (md3 h hd) l
    have hd' : (combined l a.k0 a.k1 a.h p).delta + 1 ≠ 0 := hd
    rw [e, congrFun (md3 h hd') (-l)]
    rw [combined_add l (-l) a.k0 a.k1 a.h p hd, add_neg_cancel, combined_zero _ _ _ hd]
    obtain o | o := ok.2
    · left
      have : p.chi * a.k0 / (p.delta + 1) * a.h + p.chi * a.k1 / (p.delta + 1) = p.chi * (a.k0 * a.h + a.k1) / (p.delta + 1) := by
        ring
      rw [this]
      exact div_ne_zero (mul_ne_zero o.1 o.2) hd
    · right
      rw [o]
      field_simp
      ring
  · obtain ⟨hh, ⟨o1, o2, o3⟩ | ⟨o1, o2⟩⟩ := ok
    · have h1 : (1e-8 : ℝ) ≤ |a.k0 * p.chi| := by norm_num [-abs_mul]; exact o1
      have b := bendOk_of h h1 o2 o3
      have e := fun l => congrFun (md4 h b.big b.at0) l
      have b0 : BendOk (a.k0 * p.chi) a.h (l + -l) p := by
        refine ⟨b.big, b.at0, ?_⟩
        rw [add_neg_cancel]
        simpa [bendPx] using b.at0
      obtain ⟨c1, c2⟩ := curvedBend_add b b0
      have big' : ¬ |a.k0 * (curvedBend l a.k0 a.h p).chi| < 1e-8 := by
        rw [show (curvedBend l a.k0 a.h p).chi = p.chi by rw [curvedBend_eq b]]
        exact b.big
      rw [e, congrFun (md4 h big' c2.at0) (-l)]
      rw [c1, add_neg_cancel, curvedBend_zero b.big b.at0]
    · have o1' : a.k0 * p.chi = 0 := by simpa using o1
      have e := fun l => congrFun (md4' h o1') l
      have o1'' : a.k0 * (polarDrift p l a.h).chi = 0 := o1'
      rw [e, congrFun (md4' h o1'') (-l)]
      exact (C50_polar o2.kin o2.forward o2.curved o2.cos (by simpa using o2.cos) (l2 := -l) (by simp)
        o2.crosses (Reaches.of o2.kin o2.forward o2.curved (by simp) (by simpa using o2.forward.pz_pos)).crosses).2.1
  · have e := fun q l => congrFun (md5 h q) l
    simp only [e]
    rw [straightBend_add, add_neg_cancel, straight_zero]
  · obtain ⟨o1, o2, o3⟩ | ⟨o1, o2⟩ := ok
    · have h1 : (1e-9 : ℝ) ≤ |a.ks / 2| := by norm_num; exact o1
      have hk0 : a.ks / 2 ≠ 0 := by
        intro e
        rw [e, abs_zero] at h1
        norm_num at h1
      have n := not_lt.2 h1
      have f1 : (1e-9 : ℝ) < |l| := by norm_num; exact o2
      have f2 : (1e-9 : ℝ) < |(-l)| := by rw [abs_neg]; exact f1
      rw [md6 h n f1, md6 h n f2, solCore_add _ _ _ _ _ _ hk0, add_neg_cancel, solCore_zero]
    · have e := fun q l => congrFun (md6' h o1 q) l
      simp only [e]
      rw [(C50_compose p l (-l)).1, add_neg_cancel, exact_zero]

/-! ## The nested integrators -/

/-- A step of a nested integrator: a polar drift or a kick. -/
inductive Op
  | d (r : ℝ)
  | k (c : ℝ)

/-- One step. -/
def Op.run (length k0 h : ℝ) : Op → Part → Part
  | .d r, p => polarDrift p (r * length) h
  | .k c, p => k0Kick c length k0 p

/-- All steps. -/
def runOps (length k0 h : ℝ) (ops : List Op) (p : Part) : Part := ops.foldl (fun q o => o.run length k0 h q) p

/-- The steps of a nested integrator. -/
def opsOf : List (ℝ × ℝ) → ℝ → List Op
  | [], last => [.d last]
  | (d, c) :: rest, last => .d d :: .k c :: opsOf rest last

theorem nested_ops (length k0 h : ℝ) (L : List (ℝ × ℝ)) (last : ℝ) (p : Part) :
    nested length k0 h L last p = runOps length k0 h (opsOf L last) p := by
  induction L generalizing p with
  | nil => rfl
  | cons dc rest ih => exact ih _

/-- Every drift on the way reaches its end plane. -/
def OpsOk (length k0 h : ℝ) : List Op → Part → Prop
  | [], _ => True
  | .d r :: rest, p => Reaches h (r * length) p ∧ OpsOk length k0 h rest (Op.run length k0 h (.d r) p)
  | .k c :: rest, p => OpsOk length k0 h rest (Op.run length k0 h (.k c) p)

theorem runOps_inverse (length k0 h : ℝ) (ops : List Op) (p : Part) (ok : OpsOk length k0 h ops p) :
    runOps (-length) k0 h ops.reverse (runOps length k0 h ops p) = p := by
  induction ops generalizing p with
  | nil => rfl
  | cons o rest ih =>
    cases o with
    | d r =>
      have ok2 := ok.1
      have := ih _ ok.2
      simp only [runOps, List.foldl_cons, List.reverse_cons, List.foldl_append, List.foldl_nil] at this ⊢
      rw [this]
      simp only [Op.run]
      rw [show r * -length = -(r * length) by ring]
      exact (C50_polar ok2.kin ok2.forward ok2.curved ok2.cos (by simpa using ok2.cos) (l2 := -(r * length)) (by simp)
        ok2.crosses (Reaches.of ok2.kin ok2.forward ok2.curved (by simp) (by simpa using ok2.forward.pz_pos)).crosses).2.1
    | k c =>
      have := ih _ ok
      simp only [runOps, List.foldl_cons, List.reverse_cons, List.foldl_append, List.foldl_nil] at this ⊢
      rw [this]
      simp only [Op.run, k0Kick]
      ext <;> simp

/-- The steps of the two nested models. -/
def nestedOps (model : ℤ) : List Op :=
  if model = 7 then opsOf nested4 0.6756035959798289 else opsOf nested6 3.922568052387799819591407413100e-01

/-- The nested integrators too are undone by the negative length. -/
theorem C59_nested_inverse (a : DriftArgs) (hm : a.model = 7 ∨ a.model = 8) (l : ℝ) (p : Part)
    (ok : OpsOk l a.k0 a.h (nestedOps a.model) p) : magnetDrift a (-l) (magnetDrift a l p) = p := by
  by_cases hl : l = 0
  · subst hl
    simp [magnetDrift]
  have run : ∀ l q, l ≠ 0 → magnetDrift a l q = runOps l a.k0 a.h (nestedOps a.model) q := by
    intro l q hl
    unfold magnetDrift nestedOps
    obtain h | h := hm <;> simp [h, hl, nested_ops]
  have pal : (nestedOps a.model).reverse = nestedOps a.model := by
    unfold nestedOps
    obtain h | h := hm <;> simp [h, opsOf, nested4, nested6]
  rw [run l p hl, run (-l) _ (neg_ne_zero.2 hl)]
  have := runOps_inverse l a.k0 a.h _ p ok
  rwa [pal] at this

theorem runOps_s (length k0 h : ℝ) (ops : List Op) (p : Part) :
    (runOps length k0 h ops p).s = p.s + (ops.map fun | .d r => r | .k _ => 0).sum * length := by
  induction ops generalizing p with
  | nil => simp [runOps]
  | cons o rest ih =>
    have : runOps length k0 h (o :: rest) p = runOps length k0 h rest (o.run length k0 h p) := rfl
    rw [this, ih]
    cases o <;> simp [Op.run, polarDrift, k0Kick]
    ring

/-- The nested integrators cover the length to 15 digits, and the kicks add up to the whole field to 15 digits. -/
theorem C59_nested_path (a : DriftArgs) (hm : a.model = 7 ∨ a.model = 8) (l : ℝ) (p : Part) :
    |(magnetDrift a l p).s - (p.s + l)| ≤ 1e-15 * |l| ∧
    |((nestedOps a.model).map fun | .d _ => 0 | .k c => c).sum - 1| ≤ 1e-15 := by
  constructor
  · by_cases hl : l = 0
    · subst hl
      simp [magnetDrift]
    have run : magnetDrift a l p = runOps l a.k0 a.h (nestedOps a.model) p := by
      unfold magnetDrift nestedOps
      obtain h | h := hm <;> simp [h, hl, nested_ops]
    rw [run, runOps_s, show ∀ u : ℝ, p.s + u * l - (p.s + l) = (u - 1) * l from fun u => by ring, abs_mul]
    refine mul_le_mul_of_nonneg_right ?_ (abs_nonneg _)
    obtain h | h := hm
    · simp only [nestedOps, h, opsOf, nested4]
      norm_num
    · simp only [nestedOps, h, opsOf, nested6]
      norm_num
  · obtain h | h := hm
    · simp only [nestedOps, h, opsOf, nested4]
      norm_num
    · simp only [nestedOps, h, opsOf, nested6]
      norm_num

theorem runOps_kind (length k0 h : ℝ) (ops : List Op) (p : Part) : OnlyMoves p (runOps length k0 h ops p) := by
  induction ops generalizing p with
  | nil => exact ⟨⟨rfl, rfl, rfl, rfl, rfl, rfl⟩, rfl⟩
  | cons o rest ih =>
    have : runOps length k0 h (o :: rest) p = runOps length k0 h rest (o.run length k0 h p) := rfl
    rw [this]
    obtain ⟨⟨h1, h2, h3, h4, h5, h6⟩, h7⟩ := ih (o.run length k0 h p)
    cases o <;> exact ⟨⟨h1, h2, h3, h4, h5, h6⟩, h7⟩

theorem ite_ind {α : Type} {c : Prop} [Decidable c] {C : α → Prop} {a b : α} (h1 : c → C a) (h2 : ¬ c → C b) :
    C (if c then a else b) := by
  by_cases h : c
  · rw [if_pos h]
    exact h1 h
  · rw [if_neg h]
    exact h2 h

/-- Nothing but positions, momenta, `zeta` and `s` is touched by any model, and `s` advances by the length (for the solenoid, which
skips lengths below `1e-9`, up to that). -/
theorem C59_touched (a : DriftArgs) (l : ℝ) (p : Part) :
    OnlyMoves p (magnetDrift a l p) ∧ (0 ≤ a.model → a.model ≤ 5 → (magnetDrift a l p).s = p.s + l) ∧
    (a.model = 6 → |(magnetDrift a l p).s - (p.s + l)| < 1e-9) := by
  have triv : OnlyMoves p p := ⟨⟨rfl, rfl, rfl, rfl, rfl, rfl⟩, rfl⟩
  have cb : OnlyMoves p (curvedBend l a.k0 a.h p) ∧ (curvedBend l a.k0 a.h p).s = p.s + l := by
    unfold curvedBend
    simp only
    split_ifs <;> exact ⟨⟨⟨rfl, rfl, rfl, rfl, rfl, rfl⟩, rfl⟩, rfl⟩
  have sb : OnlyMoves p (straightBend l a.k0 p) ∧ (straightBend l a.k0 p).s = p.s + l := by
    unfold straightBend
    simp only
    split_ifs <;> exact ⟨⟨⟨rfl, rfl, rfl, rfl, rfl, rfl⟩, rfl⟩, rfl⟩
  have so : OnlyMoves p (solenoid l a.ks a.x0 a.y0 p) ∧ |(solenoid l a.ks a.x0 a.y0 p).s - (p.s + l)| < 1e-9 := by
    unfold solenoid
    simp only
    split_ifs with h1 h2
    · refine ⟨⟨⟨rfl, rfl, rfl, rfl, rfl, rfl⟩, rfl⟩, ?_⟩
      simp only [driftExact]
      norm_num
    · refine ⟨triv, ?_⟩
      rw [show p.s - (p.s + l) = -l by ring, abs_neg]
      exact h2
    · refine ⟨⟨⟨rfl, rfl, rfl, rfl, rfl, rfl⟩, rfl⟩, ?_⟩
      norm_num
  refine ⟨?_, ?_, ?_⟩
  · unfold magnetDrift
    refine ite_ind (fun _ => triv) fun _ => ite_ind (fun _ => triv) fun _ => ite_ind (fun _ => ?_) fun _ => ite_ind (fun _ => ?_)
      fun _ => ite_ind (fun _ => ?_) fun _ => ite_ind (fun _ => ?_) fun _ => ite_ind (fun _ => cb.1) fun _ => ite_ind (fun _ => sb.1)
      fun _ => ite_ind (fun _ => so.1) fun _ => ite_ind (fun _ => ?_) fun _ => ite_ind (fun _ => ?_) fun _ => triv
    · exact ⟨⟨rfl, rfl, rfl, rfl, rfl, rfl⟩, rfl⟩
    · exact ⟨⟨rfl, rfl, rfl, rfl, rfl, rfl⟩, rfl⟩
    · exact ⟨⟨rfl, rfl, rfl, rfl, rfl, rfl⟩, rfl⟩
    · exact ⟨⟨rfl, rfl, rfl, rfl, rfl, rfl⟩, rfl⟩
    · rw [nested_ops]
      exact runOps_kind ..
    · rw [nested_ops]
      exact runOps_kind ..
  · intro h0 h5
    unfold magnetDrift
    let C := fun q : Part => q.s = p.s + l
    refine ite_ind (C := C) (fun _ => by omega) fun _ => ite_ind (C := C) (fun h => by simp [C, h]) fun _ =>
      ite_ind (C := C) (fun _ => rfl) fun _ => ite_ind (C := C) (fun _ => rfl) fun _ => ite_ind (C := C) (fun _ => rfl) fun _ =>
      ite_ind (C := C) (fun _ => rfl) fun _ => ite_ind (C := C) (fun _ => cb.2) fun _ => ite_ind (C := C) (fun _ => sb.2)
      fun _ => by omega
  · intro h6
    unfold magnetDrift
    by_cases hl : l = 0
    · simp [h6, hl]
      norm_num
    · simp only [h6, hl]
      norm_num
      have := so.2
      norm_num at this
      exact this

/-! ## The expanded model without focusing -/

/-- A particle on the axis, with the reference momentum. -/
def onAxis : Part :=
  { x := 0, px := 0, y := 0, py := 0, zeta := 0, s := 0, delta := 0, ptau := 0, rpp := 1, rvv := 1, beta0 := 1, chi := 1
    spinX := 0, spinY := 0, spinZ := 0 }

/-- Where the condition of `Regular` fails for the expanded model (a dipole field which is neither compensated by the curvature nor
accompanied by focusing) the path length is wrong: the map of a magnet is not that of its two halves, `zeta` differs. -/
theorem C59_expanded_violated :
    ∃ (a : DriftArgs) (l : ℝ) (p : Part), a.model = 3 ∧ p.Forward ∧
      (magnetDrift a l (magnetDrift a l p)).zeta ≠ (magnetDrift a (l + l) p).zeta := by
  refine ⟨{ k0 := 1, k1 := 0, ks := 0, h := 0, x0 := 0, y0 := 0, model := 3 }, 1, onAxis, rfl, by norm_num [Part.Forward, onAxis], ?_⟩
  simp only [magnetDrift]
  norm_num [combined, onAxis, focC, focS]

/-! ## Examples -/

/-- A dipole with matched curvature, a combined function magnet, an exact bend, a solenoid. -/
example : (⟨0.1, 0, 0, 0.1, 0, 0, 3⟩ : DriftArgs).Regular 1 onAxis ∧ (⟨0.1, 0.2, 0, 0, 0, 0, 3⟩ : DriftArgs).Regular 1 onAxis ∧
    (⟨0, 0, 1, 0, 0, 0, 6⟩ : DriftArgs).Regular 1 onAxis ∧ (⟨0.1, 0, 0, 0, 0, 0, 5⟩ : DriftArgs).Regular 1 onAxis := by
  refine ⟨?_, ?_, ?_, ?_⟩ <;> simp only [DriftArgs.Regular, Regular] <;> norm_num [onAxis, magnetDrift, straightBend, Part.Forward]

/-- The exact bend on the reference trajectory. -/
example : (⟨1, 0, 0, 1, 0, 0, 4⟩ : DriftArgs).Regular 1 onAxis := by
  simp only [DriftArgs.Regular, Regular]
  norm_num [onAxis, magnetDrift, curvedBend, Part.Forward]

/-- A polar drift. -/
theorem onAxis_reaches (l : ℝ) (h0 : 0 < Real.cos l) : Reaches 1 l onAxis := by
  refine Reaches.of ⟨?_, ?_, ?_, ?_, ?_, ?_⟩ ?_ one_ne_zero ?_ ?_
  all_goals norm_num [onAxis, Part.Forward, Part.pz, h0, h0.ne']

example : (⟨0, 0, 0, 1, 0, 0, 2⟩ : DriftArgs).Regular 1 onAxis := by
  simp only [DriftArgs.Regular, Regular]
  norm_num
  exact onAxis_reaches 1 Real.cos_one_pos

/-- Angles up to 1.1 rad on the way. -/
def SmallAngles : ℝ → List Op → Prop
  | _, [] => True
  | θ, .d r :: t => |r| ≤ 1.1 ∧ |θ + r| ≤ 1.1 ∧ SmallAngles (θ + r) t
  | θ, .k _ :: t => SmallAngles θ t

theorem cos_pos_one {t : ℝ} (h : |t| ≤ 1.1) : 0 < Real.cos t := by
  obtain ⟨h1, h2⟩ := abs_le.1 h
  have := Real.pi_gt_three
  exact Real.cos_pos_of_mem_Ioo ⟨by linarith, by linarith⟩

/-- Without field a particle flies through the nested drifts. -/
theorem opsOk_free (ops : List Op) (θ : ℝ) (p : Part) (k : p.Kin) (hd : p.delta = 0) (hy : p.py = 0) (hx : p.px = Real.sin θ)
    (hθ : |θ| ≤ 1.1) (h : SmallAngles θ ops) : OpsOk 1 0 1 ops p := by
  have hz : p.pz = Real.cos θ := by
    rw [Part.pz, hd, hy, hx]
    have : (1 + 0 : ℝ) ^ 2 - Real.sin θ ^ 2 - 0 ^ 2 = Real.cos θ ^ 2 := by
      have := Real.sin_sq_add_cos_sq θ
      linarith
    rw [this, Real.sqrt_sq (cos_pos_one hθ).le]
  have hf : p.Forward := by
    have := Real.sin_sq_add_cos_sq θ
    have := pow_pos (cos_pos_one hθ) 2
    rw [Part.Forward, hd, hy, hx]
    linarith
  induction ops generalizing θ p with
  | nil => trivial
  | cons o rest ih =>
    cases o with
    | k c =>
      have e : Op.run 1 0 1 (.k c) p = p := by
        simp [Op.run, k0Kick]
      show OpsOk 1 0 1 rest (Op.run 1 0 1 (.k c) p)
      rw [e]
      exact ih θ p k hd hy hx hθ h hz hf
    | d r =>
      obtain ⟨h1, h2, h3⟩ := h
      have c1 := cos_pos_one h1
      have c2 := cos_pos_one h2
      have ok : Reaches 1 (r * 1) p := by
        refine Reaches.of k hf one_ne_zero ?_ ?_
        · simpa using c1.ne'
        · rw [Real.cos_add] at c2
          rw [hz, hx, one_mul, mul_one]
          linarith
      have e := polarDrift_pz ok
      refine ⟨ok, ih (θ + r) _ (polarDrift_kin _ _ k) hd hy ?_ h2 h3 ?_ e.2⟩
      · simp only [Op.run, polarDrift]
        have : Real.sqrt ((p.delta + 1) ^ 2 - p.px ^ 2 - p.py ^ 2) = p.pz := by rw [Part.pz, add_comm]
        rw [this, hz, hx, Real.sin_add]
        simp
        ring
      · rw [Op.run, e.1, hz, hx, Real.cos_add]
        simp
        ring

example : OpsOk 1 0 1 (nestedOps 7) onAxis ∧ OpsOk 1 0 1 (nestedOps 8) onAxis := by
  constructor <;> refine opsOk_free _ 0 onAxis ⟨?_, ?_, ?_, ?_, ?_, ?_⟩ rfl rfl (by simp [onAxis]) (by norm_num) ?_
  all_goals norm_num [onAxis, nestedOps, opsOf, nested4, nested6, SmallAngles, abs_le]

end

end Verif.Magnets
