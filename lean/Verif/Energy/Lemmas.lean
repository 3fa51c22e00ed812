import Verif.Energy.Spec
import Mathlib.Tactic.FieldSimp
import Mathlib.Tactic.Linarith
import Mathlib.Tactic.Ring
import Mathlib.Tactic.Positivity

namespace Verif.Energy

theorem csqrt_eq {x : ℝ} (h : 0 ≤ x) : csqrt x = some (Real.sqrt x) := by simp [csqrt, h]

theorem cdiv_eq {a b : ℝ} (h : b ≠ 0) : cdiv a b = some (a / b) := by simp [cdiv, h]

/-- `sqrt` is determined by its square. -/
theorem csqrt_of_sq {x y : ℝ} (hy : 0 ≤ y) (h : x = y ^ 2) : csqrt x = some y := by
  subst h
  rw [csqrt_eq (sq_nonneg y), Real.sqrt_sq hy]

theorem refEnergy_sq (p : Part) : refEnergy p ^ 2 = p.p0c ^ 2 + p.mass0 ^ 2 := by
  unfold refEnergy
  rw [Real.sq_sqrt (by positivity)]

theorem refEnergy_pos {p : Part} (h : 0 < p.p0c) : 0 < refEnergy p := by
  unfold refEnergy
  exact Real.sqrt_pos.mpr (by positivity)

namespace RefOk

variable {p : Part} (h : RefOk p)
include h

theorem e_pos : 0 < refEnergy p := refEnergy_pos h.p0c

theorem beta_pos : 0 < p.beta0 := by rw [h.beta0]; exact div_pos h.p0c h.e_pos

theorem beta_mul : p.beta0 * refEnergy p = p.p0c := by
  rw [h.beta0]; field_simp [h.e_pos.ne']

theorem e_eq : refEnergy p = p.p0c / p.beta0 := by
  rw [eq_div_iff h.beta_pos.ne', mul_comm, h.beta_mul]

theorem e_gt : p.p0c < refEnergy p := by
  have h1 := refEnergy_sq p
  have h2 := h.e_pos
  have h3 := h.mass
  have h4 := h.p0c
  nlinarith [mul_pos h3 h3]

theorem beta_lt_one : p.beta0 < 1 := by
  rw [h.beta0, div_lt_one h.e_pos]; exact h.e_gt

theorem mass_sq : p.mass0 ^ 2 = p.p0c ^ 2 * (1 / p.beta0 ^ 2 - 1) := by
  have h1 := refEnergy_sq p
  rw [h.e_eq] at h1
  have hb := h.beta_pos.ne'
  have : p.mass0 ^ 2 = (p.p0c / p.beta0) ^ 2 - p.p0c ^ 2 := by linarith
  rw [this]; field_simp

/-- energy and momentum in units of `p0c` -/
theorem energyOf_eq : energyOf p = p.p0c * (1 / p.beta0 + p.ptau) := by
  unfold energyOf; rw [h.e_eq]; ring

theorem shell_iff :
    energyOf p ^ 2 = momentumOf p ^ 2 + p.mass0 ^ 2 ↔
      (1 + p.delta) ^ 2 = p.ptau ^ 2 + 2 * p.ptau / p.beta0 + 1 := by
  rw [h.energyOf_eq, h.mass_sq, momentumOf]
  have hb := h.beta_pos.ne'
  have hp := pow_pos h.p0c 2
  constructor
  · intro hh
    have h2 : p.p0c ^ 2 * ((1 / p.beta0 + p.ptau) ^ 2 - (1 + p.delta) ^ 2
        - (1 / p.beta0 ^ 2 - 1)) = 0 := by linarith
    have h3 := (mul_eq_zero.mp h2).resolve_left hp.ne'
    have h4 : (1 / p.beta0 + p.ptau) ^ 2 = 1 / p.beta0 ^ 2 + 2 * p.ptau / p.beta0 + p.ptau ^ 2 := by
      field_simp; ring
    linarith
  · intro hh
    have h4 : (1 / p.beta0 + p.ptau) ^ 2 = 1 / p.beta0 ^ 2 + 2 * p.ptau / p.beta0 + p.ptau ^ 2 := by
      field_simp; ring
    rw [mul_pow, mul_pow, h4, hh]; ring

theorem momentum_pos_iff : 0 < momentumOf p ↔ 0 < 1 + p.delta := by
  unfold momentumOf; exact mul_pos_iff_of_pos_left h.p0c

theorem energy_pos_iff : 0 < energyOf p ↔ 0 < 1 / p.beta0 + p.ptau := by
  rw [h.energyOf_eq]; exact mul_pos_iff_of_pos_left h.p0c

theorem energy_pos_iff' : 0 < energyOf p ↔ 0 < 1 + p.beta0 * p.ptau := by
  rw [h.energy_pos_iff]
  have hb := h.beta_pos
  have : 1 + p.beta0 * p.ptau = p.beta0 * (1 / p.beta0 + p.ptau) := by field_simp
  rw [this]
  exact (mul_pos_iff_of_pos_left hb).symm

end RefOk

/-- The same conditions in the variables of the code. -/
theorem consistent_iff {p : Part} (h : RefOk p) :
    Consistent p ↔ 0 < 1 + p.delta ∧ 0 < 1 + p.beta0 * p.ptau ∧
      (1 + p.delta) ^ 2 = p.ptau ^ 2 + 2 * p.ptau / p.beta0 + 1 ∧
      p.rpp = 1 / (1 + p.delta) ∧ p.rvv = (1 + p.delta) / (1 + p.beta0 * p.ptau) := by
  have hb := h.beta_pos
  have hp := h.p0c
  have key : 0 < 1 + p.delta → p.p0c / momentumOf p = 1 / (1 + p.delta) := by
    intro hd; unfold momentumOf; field_simp
  have key2 : 0 < 1 + p.beta0 * p.ptau →
      (momentumOf p / energyOf p) / (p.p0c / refEnergy p)
        = (1 + p.delta) / (1 + p.beta0 * p.ptau) := by
    intro he
    have h1 : p.p0c / refEnergy p = p.beta0 := h.beta0.symm
    have h2 : energyOf p = p.p0c * (1 + p.beta0 * p.ptau) / p.beta0 := by
      rw [h.energyOf_eq]; field_simp
    rw [h1, h2, momentumOf]
    field_simp
  constructor
  · intro c
    have hd := h.momentum_pos_iff.mp c.momentum_pos
    have he := h.energy_pos_iff'.mp c.energy_pos
    exact ⟨hd, he, h.shell_iff.mp c.mass_shell, by rw [c.rpp, key hd], by rw [c.rvv, key2 he]⟩
  · rintro ⟨hd, he, hs, hr, hv⟩
    exact { h with
      momentum_pos := h.momentum_pos_iff.mpr hd
      energy_pos := h.energy_pos_iff'.mpr he
      mass_shell := h.shell_iff.mpr hs
      rpp := by rw [hr, key hd]
      rvv := by rw [hv, key2 he] }

theorem SameButDeviation.refEnergy {p q : Part} (s : SameButDeviation p q) :
    refEnergy q = refEnergy p := by unfold Verif.Energy.refEnergy; rw [s.p0c, s.mass0]

theorem SameButDeviation.refOk {p q : Part} (s : SameButDeviation p q) (h : RefOk p) : RefOk q where
  mass := by rw [s.mass0]; exact h.mass
  p0c := by rw [s.p0c]; exact h.p0c
  gamma0 := by rw [s.gamma0, s.refEnergy, s.mass0]; exact h.gamma0
  beta0 := by rw [s.beta0, s.refEnergy, s.p0c]; exact h.beta0

theorem SameButDeviation.trans {p q r : Part} (a : SameButDeviation p q) (b : SameButDeviation q r) :
    SameButDeviation p r where
  mass0 := b.mass0.trans a.mass0
  q0 := b.q0.trans a.q0
  p0c := b.p0c.trans a.p0c
  gamma0 := b.gamma0.trans a.gamma0
  beta0 := b.beta0.trans a.beta0
  x := b.x.trans a.x
  px := b.px.trans a.px
  y := b.y.trans a.y
  py := b.py.trans a.py
  zeta := b.zeta.trans a.zeta
  chi := b.chi.trans a.chi
  chargeRatio := b.chargeRatio.trans a.chargeRatio
  state := b.state.trans a.state

/-- Two consistent particles with the same reference and `ptau` are equal. -/
theorem Consistent.unique_ptau {p q : Part} (hp : Consistent p) (hq : Consistent q)
    (s : SameButDeviation p q) (ht : q.ptau = p.ptau) : q = p := by
  obtain ⟨d1, e1, s1, r1, v1⟩ := (consistent_iff hp.toRefOk).mp hp
  obtain ⟨d2, e2, s2, r2, v2⟩ := (consistent_iff hq.toRefOk).mp hq
  have hd : q.delta = p.delta := by
    rw [s.beta0, ht, ← s1] at s2
    have := (sq_eq_sq₀ d2.le d1.le).mp s2
    linarith
  have hr : q.rpp = p.rpp := by rw [r1, r2, hd]
  have hv : q.rvv = p.rvv := by rw [v1, v2, hd, ht, s.beta0]
  exact Part.ext s.mass0 s.q0 s.p0c s.gamma0 s.beta0 s.x s.px s.y s.py s.zeta hd ht hr hv s.chi
    s.chargeRatio s.state

/-- Two consistent particles with the same reference and `delta` have the same `ptau`. -/
theorem Consistent.unique_delta {p q : Part} (hp : Consistent p) (hq : Consistent q)
    (s : SameButDeviation p q) (hd : q.delta = p.delta) : q = p := by
  apply Consistent.unique_ptau hp hq s
  have e1 := hp.mass_shell
  have e2 := hq.mass_shell
  have hm : momentumOf q = momentumOf p := by unfold momentumOf; rw [s.p0c, hd]
  rw [hm, s.mass0, ← e1] at e2
  have := (sq_eq_sq₀ hq.energy_pos.le hp.energy_pos.le).mp e2
  unfold energyOf at this
  rw [s.refEnergy, s.p0c] at this
  have h2 : q.ptau * p.p0c = p.ptau * p.p0c := by linarith
  exact mul_right_cancel₀ hp.p0c.ne' h2

/-- `ptau` describes a moving particle: the energy is above the rest mass. -/
theorem RefOk.ptau_arg {p : Part} (h : RefOk p) {t : ℝ} (ht : p.mass0 < refEnergy p + t * p.p0c) :
    0 < t * t + 2 * t / p.beta0 + 1 ∧ 0 < 1 + p.beta0 * t := by
  have hb := h.beta_pos
  have hp := h.p0c
  have hm := h.mass
  set q : Part := { p with ptau := t } with hq
  have hqr : RefOk q := ⟨h.mass, h.p0c, h.gamma0, h.beta0⟩
  have he : 0 < energyOf q := by
    show 0 < refEnergy p + t * p.p0c
    linarith
  refine ⟨?_, ?_⟩
  · have h1 : p.mass0 ^ 2 < energyOf q ^ 2 := by
      apply pow_lt_pow_left₀ _ hm.le (by norm_num)
      exact ht
    have h2 : energyOf q = p.p0c * (1 / p.beta0 + t) := hqr.energyOf_eq
    rw [h2, h.mass_sq, mul_pow] at h1
    have h3 := (mul_lt_mul_iff_right₀ (pow_pos hp 2)).mp h1
    have h4 : (1 / p.beta0 + t) ^ 2 = 1 / p.beta0 ^ 2 + 2 * t / p.beta0 + t * t := by
      field_simp; ring
    linarith
  · exact hqr.energy_pos_iff'.mp he

theorem updatePtau_spec {p : Part} (h : RefOk p) {t : ℝ}
    (ht : p.mass0 < refEnergy p + t * p.p0c) :
    ∃ q, updatePtau p t = some q ∧ Consistent q ∧ SameButDeviation p q ∧ q.ptau = t := by
  obtain ⟨h1, h2⟩ := h.ptau_arg ht
  have hb := h.beta_pos
  have hr := Real.sqrt_pos.mpr h1
  have hr2 := Real.sq_sqrt h1.le
  have hc := csqrt_eq h1.le
  generalize Real.sqrt (t * t + 2 * t / p.beta0 + 1) = r at hr hr2 hc
  refine ⟨{ p with delta := r - 1, rvv := r / (1 + p.beta0 * t), ptau := t, rpp := 1 / r },
    ?_, ?_, ?_, rfl⟩
  · simp [updatePtau, cdiv_eq hb.ne', hc, cdiv_eq hr.ne', cdiv_eq h2.ne']
  · refine (consistent_iff ?_).mpr ⟨?_, h2, ?_, ?_, ?_⟩
    · exact ⟨h.mass, h.p0c, h.gamma0, h.beta0⟩
    · show 0 < 1 + (r - 1)
      linarith
    · show (1 + (r - 1)) ^ 2 = _
      rw [add_sub_cancel, hr2]
      ring
    · show 1 / r = 1 / (1 + (r - 1))
      rw [add_sub_cancel]
    · show r / _ = (1 + (r - 1)) / _
      rw [add_sub_cancel]
  · constructor <;> rfl

theorem RefOk.delta_arg {p : Part} (h : RefOk p) (d : ℝ) :
    0 < d * p.beta0 * (d * p.beta0) + 2 * (d * p.beta0) * p.beta0 + 1 := by
  have hb := h.beta_pos
  have hb1 := h.beta_lt_one
  have e : d * p.beta0 * (d * p.beta0) + 2 * (d * p.beta0) * p.beta0 + 1
      = (p.beta0 * (1 + d)) ^ 2 + (1 - p.beta0) * (1 + p.beta0) := by ring
  rw [e]
  have : 0 < (1 - p.beta0) * (1 + p.beta0) := mul_pos (by linarith) (by linarith)
  positivity

theorem updateDelta_spec {p : Part} (h : RefOk p) {d : ℝ} (hd : -1 < d) :
    ∃ q, updateDelta p d = some q ∧ Consistent q ∧ SameButDeviation p q ∧ q.delta = d := by
  have h1 := h.delta_arg d
  have hb := h.beta_pos
  have hr := Real.sqrt_pos.mpr h1
  have hr2 := Real.sq_sqrt h1.le
  have hc := csqrt_eq h1.le
  have hd1 : 0 < 1 + d := by linarith
  generalize Real.sqrt _ = r at hr hr2 hc
  have hbt : p.beta0 * ((r - 1) / p.beta0) = r - 1 := by field_simp
  refine ⟨{ p with delta := d, rvv := (1 + d) / (1 + (r - 1)), rpp := 1 / (1 + d),
                   ptau := (r - 1) / p.beta0 }, ?_, ?_, ?_, rfl⟩
  · have h3 : 1 + (r - 1) ≠ 0 := by rw [add_sub_cancel]; exact hr.ne'
    unfold updateDelta
    simp only [Option.bind_eq_bind, hc, Option.bind_some, cdiv_eq h3, cdiv_eq hd1.ne',
      cdiv_eq hb.ne']
  · refine (consistent_iff ?_).mpr ⟨hd1, ?_, ?_, rfl, ?_⟩
    · exact ⟨h.mass, h.p0c, h.gamma0, h.beta0⟩
    · show 0 < 1 + p.beta0 * ((r - 1) / p.beta0)
      rw [hbt]; linarith
    · show (1 + d) ^ 2 = ((r - 1) / p.beta0) ^ 2 + 2 * ((r - 1) / p.beta0) / p.beta0 + 1
      have : ((r - 1) / p.beta0) ^ 2 + 2 * ((r - 1) / p.beta0) / p.beta0
          = (r ^ 2 - 1) / p.beta0 ^ 2 := by field_simp; ring
      rw [this, hr2]; field_simp; ring
    · show (1 + d) / (1 + (r - 1)) = (1 + d) / (1 + p.beta0 * ((r - 1) / p.beta0))
      rw [hbt]
  · constructor <;> rfl

/-- Above the rest mass in energy means above zero in momentum. -/
theorem Consistent.above_rest {p : Part} (c : Consistent p) : p.mass0 < energyOf p := by
  have h1 := c.mass_shell
  have h2 := c.momentum_pos
  have h3 := c.energy_pos
  have h4 := c.mass
  nlinarith [mul_pos h2 h2]

end Verif.Energy

namespace Verif.Energy

/-- The Python computation of the deviations from `delta`. -/
theorem pyUpdateDev_delta_spec {p : Part} (h : RefOk p) {d : ℝ} (hd : -1 < d) :
    ∃ q, pyUpdateDev p (.delta d) = some q ∧ Consistent q ∧ SameButDeviation p q ∧ q.delta = d := by
  have h1 := h.delta_arg d
  have hb := h.beta_pos
  have hr := Real.sqrt_pos.mpr h1
  have hr2 := Real.sq_sqrt h1.le
  have hc := csqrt_eq h1.le
  have hd1 : 0 < 1 + d := by linarith
  generalize Real.sqrt _ = r at hr hr2 hc
  have hc' : csqrt ((d * p.beta0) ^ 2 + 2 * (d * p.beta0) * p.beta0 + 1) = some r := by
    rw [← hc]; congr 1; ring
  have hc2 : csqrt (d ^ 2 + 2 * d + 1 / p.beta0 ^ 2) = some (r / p.beta0) := by
    apply csqrt_of_sq (by positivity)
    rw [div_pow, hr2]; field_simp
  have hbt : p.beta0 * (r / p.beta0 - 1 / p.beta0) = r - 1 := by field_simp
  have h3 : 1 + (r - 1) ≠ 0 := by rw [add_sub_cancel]; exact hr.ne'
  refine ⟨{ p with delta := d, rvv := (1 + d) / (1 + (r - 1)), rpp := 1 / (1 + d),
                   ptau := r / p.beta0 - 1 / p.beta0 }, ?_, ?_, ?_, rfl⟩
  · unfold pyUpdateDev
    simp only [Option.bind_eq_bind, cdiv_eq (pow_pos hb 2).ne', hc', hc2, Option.bind_some,
      cdiv_eq h3, cdiv_eq hd1.ne', cdiv_eq hb.ne']
  · refine (consistent_iff ?_).mpr ⟨hd1, ?_, ?_, rfl, ?_⟩
    · exact ⟨h.mass, h.p0c, h.gamma0, h.beta0⟩
    · show 0 < 1 + p.beta0 * (r / p.beta0 - 1 / p.beta0)
      rw [hbt]; linarith
    · show (1 + d) ^ 2 = (r / p.beta0 - 1 / p.beta0) ^ 2
        + 2 * (r / p.beta0 - 1 / p.beta0) / p.beta0 + 1
      have : (r / p.beta0 - 1 / p.beta0) ^ 2 + 2 * (r / p.beta0 - 1 / p.beta0) / p.beta0
          = (r ^ 2 - 1) / p.beta0 ^ 2 := by field_simp; ring
      rw [this, hr2]; field_simp; ring
    · show (1 + d) / (1 + (r - 1)) = (1 + d) / (1 + p.beta0 * (r / p.beta0 - 1 / p.beta0))
      rw [hbt]
  · constructor <;> rfl

/-- The Python computation of the deviations from `ptau`. -/
theorem pyUpdateDev_ptau_spec {p : Part} (h : RefOk p) {t : ℝ}
    (ht : p.mass0 < refEnergy p + t * p.p0c) :
    ∃ q, pyUpdateDev p (.ptau t) = some q ∧ Consistent q ∧ SameButDeviation p q ∧ q.ptau = t := by
  obtain ⟨h1, h2⟩ := h.ptau_arg ht
  have hb := h.beta_pos
  have hr := Real.sqrt_pos.mpr h1
  have hr2 := Real.sq_sqrt h1.le
  have hc := csqrt_eq h1.le
  generalize Real.sqrt (t * t + 2 * t / p.beta0 + 1) = r at hr hr2 hc
  have hc' : csqrt (t ^ 2 + 2 * t / p.beta0 + 1) = some r := by rw [← hc]; congr 1; ring
  have hc2 : csqrt (((r - 1) * p.beta0) ^ 2 + 2 * ((r - 1) * p.beta0) * p.beta0 + 1)
      = some (1 + p.beta0 * t) := by
    apply csqrt_of_sq h2.le
    have : ((r - 1) * p.beta0) ^ 2 + 2 * ((r - 1) * p.beta0) * p.beta0 + 1
      = p.beta0 ^ 2 * (r ^ 2 - 1) + 1 := by ring
    rw [this, hr2]; field_simp; ring
  have h3 : 1 + ((1 + p.beta0 * t) - 1) ≠ 0 := by rw [add_sub_cancel]; exact h2.ne'
  have h4 : 1 + (r - 1) ≠ 0 := by rw [add_sub_cancel]; exact hr.ne'
  refine ⟨{ p with delta := r - 1, rvv := (1 + (r - 1)) / (1 + ((1 + p.beta0 * t) - 1)),
                   rpp := 1 / (1 + (r - 1)), ptau := t }, ?_, ?_, ?_, rfl⟩
  · unfold pyUpdateDev
    simp only [Option.bind_eq_bind, hc', hc2, Option.bind_some,
      cdiv_eq h3, cdiv_eq h4, cdiv_eq hb.ne']
  · refine (consistent_iff ?_).mpr ⟨?_, h2, ?_, rfl, ?_⟩
    · exact ⟨h.mass, h.p0c, h.gamma0, h.beta0⟩
    · show 0 < 1 + (r - 1)
      linarith
    · show (1 + (r - 1)) ^ 2 = _
      rw [add_sub_cancel, hr2]
      ring
    · show _ / (1 + ((1 + p.beta0 * t) - 1)) = _ / (1 + p.beta0 * t)
      rw [add_sub_cancel 1 (1 + p.beta0 * t)]
  · constructor <;> rfl

/-- `pzeta` is turned into `ptau`. -/
theorem pyUpdateDev_pzeta (p : Part) (z : ℝ) :
    pyUpdateDev p (.pzeta z) = pyUpdateDev p (.ptau (z * p.beta0)) := by
  rfl

/-- Everything that does not describe the reference is the same. -/
structure SameButRef (p q : Part) : Prop where
  mass0 : q.mass0 = p.mass0
  q0 : q.q0 = p.q0
  x : q.x = p.x
  px : q.px = p.px
  y : q.y = p.y
  py : q.py = p.py
  zeta : q.zeta = p.zeta
  delta : q.delta = p.delta
  ptau : q.ptau = p.ptau
  rpp : q.rpp = p.rpp
  rvv : q.rvv = p.rvv
  chi : q.chi = p.chi
  chargeRatio : q.chargeRatio = p.chargeRatio
  state : q.state = p.state

theorem refOk_of {p : Part} {pc g b e : ℝ} (hm : 0 < p.mass0) (hpc : 0 < pc) (he : 0 < e)
    (h2 : e ^ 2 = pc ^ 2 + p.mass0 ^ 2) (hg : g = e / p.mass0) (hb : b = pc / e) :
    RefOk { p with p0c := pc, gamma0 := g, beta0 := b } := by
  have h3 : refEnergy { p with p0c := pc, gamma0 := g, beta0 := b } = e := by
    show Real.sqrt (pc ^ 2 + p.mass0 ^ 2) = e
    rw [← h2, Real.sqrt_sq he.le]
  exact ⟨hm, hpc, by rw [h3]; exact hg, by rw [h3]; exact hb⟩

theorem pyUpdateRefs_p0c {p : Part} (hm : 0 < p.mass0) {v : ℝ} (hv : 0 < v) :
    ∃ q, pyUpdateRefs p (.p0c v) = some q ∧ RefOk q ∧ SameButRef p q ∧ q.p0c = v := by
  have h1 : 0 < v ^ 2 + p.mass0 ^ 2 := by positivity
  have hr := Real.sqrt_pos.mpr h1
  have hr2 := Real.sq_sqrt h1.le
  have hc := csqrt_eq h1.le
  generalize Real.sqrt _ = r at hr hr2 hc
  refine ⟨{ p with p0c := v, gamma0 := r / p.mass0, beta0 := v / r }, ?_, ?_, ?_, rfl⟩
  · simp [pyUpdateRefs, hc, cdiv_eq hr.ne', cdiv_eq hm.ne']
  · exact refOk_of hm hv hr hr2 rfl rfl
  · constructor <;> rfl

theorem pyUpdateRefs_rigidity {p : Part} (v : ℝ) :
    pyUpdateRefs p (.rigidity0 v) = pyUpdateRefs p (.p0c (v * |p.q0| * clight)) := rfl

theorem pyUpdateRefs_energy0 {p : Part} (hm : 0 < p.mass0) {v : ℝ} (hv : p.mass0 < v) :
    ∃ q, pyUpdateRefs p (.energy0 v) = some q ∧ RefOk q ∧ SameButRef p q ∧ refEnergy q = v := by
  have h1 : 0 < v ^ 2 - p.mass0 ^ 2 := by nlinarith
  have hv0 : 0 < v := by linarith
  have hr := Real.sqrt_pos.mpr h1
  have hr2 := Real.sq_sqrt h1.le
  have hc := csqrt_eq h1.le
  generalize Real.sqrt _ = r at hr hr2 hc
  have h2 : v ^ 2 = r ^ 2 + p.mass0 ^ 2 := by linarith
  refine ⟨{ p with p0c := r, gamma0 := v / p.mass0, beta0 := r / v }, ?_, ?_, ?_, ?_⟩
  · simp [pyUpdateRefs, hc, cdiv_eq hv0.ne', cdiv_eq hm.ne']
  · exact refOk_of hm hr hv0 h2 rfl rfl
  · constructor <;> rfl
  · show Real.sqrt (r ^ 2 + p.mass0 ^ 2) = v
    rw [← h2, Real.sqrt_sq hv0.le]

theorem pyUpdateRefs_kinetic {p : Part} (v : ℝ) :
    pyUpdateRefs p (.kineticEnergy0 v) = pyUpdateRefs p (.energy0 (v + p.mass0)) := rfl

theorem pyUpdateRefs_gamma0 {p : Part} (hm : 0 < p.mass0) {v : ℝ} (hv : 1 < v) :
    ∃ q, pyUpdateRefs p (.gamma0 v) = some q ∧ RefOk q ∧ SameButRef p q ∧ q.gamma0 = v := by
  have hv0 : 0 < v := by linarith
  have h1 : 0 < 1 - 1 / v ^ 2 := by
    have : 1 / v ^ 2 < 1 := by rw [div_lt_one (by positivity)]; nlinarith
    linarith
  have hr := Real.sqrt_pos.mpr h1
  have hr2 := Real.sq_sqrt h1.le
  have hc := csqrt_eq h1.le
  generalize Real.sqrt _ = r at hr hr2 hc
  refine ⟨{ p with p0c := p.mass0 * v * r, gamma0 := v, beta0 := r }, ?_, ?_, ?_, rfl⟩
  · simp only [pyUpdateRefs, Option.bind_eq_bind, cdiv_eq (pow_pos hv0 2).ne', hc, Option.bind_some]
  · apply refOk_of (e := p.mass0 * v) hm (by positivity) (by positivity)
    · rw [mul_pow _ r, hr2]; field_simp; ring
    · field_simp
    · field_simp
  · constructor <;> rfl

theorem pyUpdateRefs_beta0 {p : Part} (hm : 0 < p.mass0) {v : ℝ} (hv : 0 < v) (hv1 : v < 1) :
    ∃ q, pyUpdateRefs p (.beta0 v) = some q ∧ RefOk q ∧ SameButRef p q ∧ q.beta0 = v := by
  have h1 : 0 < 1 - v ^ 2 := by nlinarith
  have hr := Real.sqrt_pos.mpr h1
  have hr2 := Real.sq_sqrt h1.le
  have hc := csqrt_eq h1.le
  generalize Real.sqrt _ = r at hr hr2 hc
  refine ⟨{ p with p0c := p.mass0 * (1 / r) * v, gamma0 := 1 / r, beta0 := v }, ?_, ?_, ?_, rfl⟩
  · simp only [pyUpdateRefs, Option.bind_eq_bind, hc, Option.bind_some, cdiv_eq hr.ne']
  · apply refOk_of (e := p.mass0 * (1 / r)) hm (by positivity) (by positivity)
    · have : v ^ 2 = 1 - r ^ 2 := by linarith
      rw [mul_pow _ v, this]; field_simp; ring
    · field_simp
    · field_simp
  · constructor <;> rfl

/-! ## Change of reference momentum -/

theorem updateP0c_spec {p : Part} (c : Consistent p) {v : ℝ} (hv : 0 < v) :
    ∃ q, updateP0c p v = some q ∧ Consistent q ∧ SamePhysical p q ∧ q.p0c = v := by
  have hm := c.mass
  have hp := c.p0c
  have hb := c.toRefOk.beta_pos
  have hd := c.toRefOk.momentum_pos_iff.mp c.momentum_pos
  have h1 : 0 < v * v + p.mass0 * p.mass0 := by positivity
  have hr := Real.sqrt_pos.mpr h1
  have hr2 := Real.sq_sqrt h1.le
  have hc := csqrt_eq h1.le
  generalize Real.sqrt _ = r at hr hr2 hc
  set p1 : Part := { p with p0c := v, gamma0 := r / p.mass0, beta0 := v / r } with hp1
  have hok : RefOk p1 := refOk_of hm hv hr (by rw [hr2]; ring) rfl rfl
  have hdd : -1 < (p.p0c * p.delta + p.p0c - v) / v := by
    rw [lt_div_iff₀ hv]; nlinarith
  obtain ⟨q, hq, cq, sq, dq⟩ := updateDelta_spec hok hdd
  refine ⟨{ q with px := q.px * (p.p0c / v), py := q.py * (p.p0c / v),
                   zeta := q.zeta * (v / r / p.beta0) }, ?_, ?_, ?_, sq.p0c⟩
  · unfold updateP0c
    simp only [Option.bind_eq_bind, cdiv_eq hv.ne', hc, Option.bind_some, cdiv_eq hr.ne',
      cdiv_eq hm.ne', cdiv_eq hb.ne']
    rw [← hp1, hq]
    rfl
  · exact ⟨⟨cq.mass, cq.p0c, cq.gamma0, cq.beta0⟩, cq.momentum_pos, cq.energy_pos, cq.mass_shell,
      cq.rpp, cq.rvv⟩
  · have hqp : q.p0c = v := sq.p0c
    have hmom : momentumOf q = momentumOf p := by
      unfold momentumOf; rw [hqp, dq]; field_simp; ring
    have hen : energyOf q = energyOf p := by
      have e1 := cq.mass_shell
      rw [hmom, show q.mass0 = p.mass0 from sq.mass0, ← c.mass_shell] at e1
      exact (sq_eq_sq₀ cq.energy_pos.le c.energy_pos.le).mp e1
    exact { momentum := hmom
            momentum_x := by
              show q.p0c * (q.px * (p.p0c / v)) = _
              rw [hqp, sq.px]; show v * (p.px * _) = _; field_simp
            momentum_y := by
              show q.p0c * (q.py * (p.p0c / v)) = _
              rw [hqp, sq.py]; show v * (p.py * _) = _; field_simp
            energy := hen
            time := by
              show q.zeta * (v / r / p.beta0) / q.beta0 = _
              rw [sq.zeta, sq.beta0]; show p.zeta * (v / r / p.beta0) / (v / r) = _
              field_simp
            x := sq.x
            y := sq.y
            mass0 := sq.mass0
            q0 := sq.q0
            chi := sq.chi
            chargeRatio := sq.chargeRatio
            state := sq.state }

/-- The same physical particle described with the same reference momentum has the
same coordinates. -/
theorem SamePhysical.eq {p q : Part} (cp : Consistent p) (cq : Consistent q)
    (s : SamePhysical p q) (h : q.p0c = p.p0c) : q = p := by
  have hp := cp.p0c
  have hE : refEnergy q = refEnergy p := by unfold refEnergy; rw [h, s.mass0]
  have hbeta : q.beta0 = p.beta0 := by rw [cq.beta0, cp.beta0, h, hE]
  have hb := cp.toRefOk.beta_pos
  apply Consistent.unique_delta cp cq
  · exact { mass0 := s.mass0, q0 := s.q0, p0c := h
            gamma0 := by rw [cq.gamma0, cp.gamma0, hE, s.mass0]
            beta0 := hbeta
            x := s.x
            px := by have := s.momentum_x; rw [h] at this; exact mul_left_cancel₀ hp.ne' this
            y := s.y
            py := by have := s.momentum_y; rw [h] at this; exact mul_left_cancel₀ hp.ne' this
            zeta := by
              have := s.time
              rw [hbeta] at this
              exact (div_left_inj' hb.ne').mp this
            chi := s.chi, chargeRatio := s.chargeRatio, state := s.state }
  · have := s.momentum
    unfold momentumOf at this
    rw [h] at this
    have := mul_left_cancel₀ hp.ne' this
    linarith

theorem SamePhysical.trans {p q r : Part} (a : SamePhysical p q) (b : SamePhysical q r) :
    SamePhysical p r where
  momentum := b.momentum.trans a.momentum
  momentum_x := b.momentum_x.trans a.momentum_x
  momentum_y := b.momentum_y.trans a.momentum_y
  energy := b.energy.trans a.energy
  time := b.time.trans a.time
  x := b.x.trans a.x
  y := b.y.trans a.y
  mass0 := b.mass0.trans a.mass0
  q0 := b.q0.trans a.q0
  chi := b.chi.trans a.chi
  chargeRatio := b.chargeRatio.trans a.chargeRatio
  state := b.state.trans a.state

theorem SamePhysical.symm {p q : Part} (a : SamePhysical p q) : SamePhysical q p where
  momentum := a.momentum.symm
  momentum_x := a.momentum_x.symm
  momentum_y := a.momentum_y.symm
  energy := a.energy.symm
  time := a.time.symm
  x := a.x.symm
  y := a.y.symm
  mass0 := a.mass0.symm
  q0 := a.q0.symm
  chi := a.chi.symm
  chargeRatio := a.chargeRatio.symm
  state := a.state.symm

/-- Python change of reference, with the transverse momenta rescaled. -/
theorem pyUpdateP0cAndDev_spec {p : Part} (c : Consistent p) (hs : 0 < p.state) {v : ℝ}
    (hv : 0 < v) :
    ∃ q, pyUpdateP0cAndDev p v true = some q ∧ Consistent q ∧ SamePhysical p q ∧ q.p0c = v := by
  have hm := c.mass
  have hp := c.p0c
  have hb := c.toRefOk.beta_pos
  have hd := c.toRefOk.momentum_pos_iff.mp c.momentum_pos
  have hv' : (0 : ℝ) < v + 0 * p.p0c := by simpa using hv
  obtain ⟨p1, hp1, ok1, s1, e1⟩ := pyUpdateRefs_p0c hm hv'
  have hdd : -1 < (p.delta + 1) * p.p0c / v - 1 := by
    have : 0 < (p.delta + 1) * p.p0c / v := div_pos (mul_pos (by linarith) hp) hv
    linarith
  obtain ⟨q, hq, cq, sq, dq⟩ := pyUpdateDev_delta_spec ok1 hdd
  refine ⟨{ q with px := q.px * (p.p0c / v), py := q.py * (p.p0c / v),
                   zeta := q.zeta * q.beta0 / p.beta0 }, ?_, ?_, ?_, ?_⟩
  · simp [pyUpdateP0cAndDev, hs, cdiv_eq hv.ne', cdiv_eq hb.ne']
    simp only [zero_mul, add_zero] at hp1
    simp [hp1, hq]
  · exact ⟨⟨cq.mass, cq.p0c, cq.gamma0, cq.beta0⟩, cq.momentum_pos, cq.energy_pos, cq.mass_shell,
      cq.rpp, cq.rvv⟩
  · have hqp : q.p0c = v := by rw [sq.p0c, e1]; simp
    have hmom : momentumOf q = momentumOf p := by
      unfold momentumOf; rw [hqp, dq]; field_simp; ring
    have hmass : q.mass0 = p.mass0 := by rw [sq.mass0, s1.mass0]
    have hen : energyOf q = energyOf p := by
      have e1 := cq.mass_shell
      rw [hmom, hmass, ← c.mass_shell] at e1
      exact (sq_eq_sq₀ cq.energy_pos.le c.energy_pos.le).mp e1
    have hqb := cq.toRefOk.beta_pos
    exact { momentum := hmom
            momentum_x := by
              show q.p0c * (q.px * (p.p0c / v)) = _
              rw [hqp, sq.px, s1.px]; field_simp
            momentum_y := by
              show q.p0c * (q.py * (p.p0c / v)) = _
              rw [hqp, sq.py, s1.py]; field_simp
            energy := hen
            time := by
              show q.zeta * q.beta0 / p.beta0 / q.beta0 = _
              rw [sq.zeta, s1.zeta]; field_simp
            x := by show q.x = _; rw [sq.x, s1.x]
            y := by show q.y = _; rw [sq.y, s1.y]
            mass0 := hmass
            q0 := by show q.q0 = _; rw [sq.q0, s1.q0]
            chi := by show q.chi = _; rw [sq.chi, s1.chi]
            chargeRatio := by show q.chargeRatio = _; rw [sq.chargeRatio, s1.chargeRatio]
            state := by show q.state = _; rw [sq.state, s1.state] }
  · show q.p0c = v
    rw [sq.p0c, e1]; simp

/-! ## Adding energy -/

theorem addToEnergy_spec {p : Part} (c : Consistent p) (hmr : 0 < massRatioOf p) {dE : ℝ}
    (hE : p.mass0 < energyOf p + dE / massRatioOf p) :
    ∃ q, updatePtau p (p.ptau + dE / p.p0c / massRatioOf p) = some q ∧ Consistent q ∧
      SameButDeviation p q ∧ energyOf q = energyOf p + dE / massRatioOf p ∧
      addToEnergy p dE true = some q ∧
      addToEnergy p dE false = some { q with px := p.px * (p.rpp / q.rpp), py := p.py * (p.rpp / q.rpp) } := by
  have hp := c.p0c
  have hchi : p.chi ≠ 0 := by
    intro h0; unfold massRatioOf at hmr; rw [h0, div_zero] at hmr; exact lt_irrefl _ hmr
  have hmr' : p.chargeRatio / p.chi ≠ 0 := hmr.ne'
  have hE' : p.mass0 < refEnergy p + (p.ptau + dE / p.p0c / massRatioOf p) * p.p0c := by
    have : refEnergy p + (p.ptau + dE / p.p0c / massRatioOf p) * p.p0c
        = energyOf p + dE / massRatioOf p := by unfold energyOf; field_simp; ring
    rw [this]; exact hE
  obtain ⟨q, hq, cq, sq, tq⟩ := updatePtau_spec c.toRefOk hE'
  have hrq : q.rpp ≠ 0 := by
    rw [cq.rpp]; exact (div_pos cq.p0c cq.momentum_pos).ne'
  refine ⟨q, hq, cq, sq, ?_, ?_, ?_⟩
  · unfold energyOf
    rw [sq.refEnergy, tq, sq.p0c]; field_simp; ring
  · unfold addToEnergy
    simp only [Option.bind_eq_bind, cdiv_eq hchi, Option.bind_some, cdiv_eq hp.ne', cdiv_eq hmr']
    unfold massRatioOf at hq
    rw [hq]; rfl
  · unfold addToEnergy
    simp only [Option.bind_eq_bind, cdiv_eq hchi, Option.bind_some, cdiv_eq hp.ne', cdiv_eq hmr']
    unfold massRatioOf at hq
    rw [hq]
    simp [cdiv_eq hrq, sq.px, sq.py]

end Verif.Energy
