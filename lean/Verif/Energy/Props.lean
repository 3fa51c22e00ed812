import Verif.Energy.Lemmas
import Mathlib.Tactic.NormNum

/-!
# Properties of the energy variables (C08–C14)

See `Spec.lean` for the meaning of the variables.
-/

namespace Verif.Energy

noncomputable section

/-- A concrete particle: `mass0 = 12`, reference momentum 5 (energy 13), particle
momentum 9 (energy 15). -/
def sample : Part :=
  { mass0 := 12, q0 := 1, p0c := 5, gamma0 := 13 / 12, beta0 := 5 / 13
    x := 1, px := 1 / 10, y := 2, py := -1 / 10, zeta := 3
    delta := 4 / 5, ptau := 2 / 5, rpp := 5 / 9, rvv := 39 / 25
    chi := 1, chargeRatio := 2, state := 1 }

theorem sqrt_eq_of_sq {x y : ℝ} (hy : 0 ≤ y) (h : x = y ^ 2) : Real.sqrt x = y := by
  rw [h, Real.sqrt_sq hy]

theorem sample_refEnergy : refEnergy sample = 13 := by
  apply sqrt_eq_of_sq <;> norm_num [sample]

theorem sample_consistent : Consistent sample := by
  have h := sample_refEnergy
  refine ⟨⟨?_, ?_, ?_, ?_⟩, ?_, ?_, ?_, ?_, ?_⟩ <;>
    (try simp only [energyOf, momentumOf, h]) <;> norm_num [sample]

/-! ## C08 -/

/-- The operations on the energy variables of a particle. -/
inductive Op where
  /-- C `update_delta` -/
  | setDelta (d : ℝ)
  /-- C `update_ptau` -/
  | setPtau (t : ℝ)
  /-- C `update_pzeta` -/
  | setPzeta (z : ℝ)
  /-- C `add_to_energy` -/
  | addEnergy (dE : ℝ) (pzOnly : Bool)
  /-- C `update_p0c` -/
  | setP0c (v : ℝ)
  /-- `particles.delta = ...` (`none`: NaN) -/
  | pyDelta (d : Option ℝ)
  /-- `particles.ptau = ...` -/
  | pyPtau (t : Option ℝ)
  /-- `particles.add_to_energy(dE)` -/
  | pyAddEnergy (dE : ℝ)
  /-- `particles.update_p0c_and_energy_deviations(v, update_pxpy=True)` -/
  | pyP0cAndDev (v : ℝ)

/-- Execute one operation. -/
def step (p : Part) : Op → Option Part
  | .setDelta d => updateDelta p d
  | .setPtau t => updatePtau p t
  | .setPzeta z => updatePzeta p z
  | .addEnergy dE b => addToEnergy p dE b
  | .setP0c v => updateP0c p v
  | .pyDelta d => pySetDelta p d
  | .pyPtau t => pySetPtau p t
  | .pyAddEnergy dE => pyAddToEnergy p dE
  | .pyP0cAndDev v => pyUpdateP0cAndDev p v true

/-- The operation asks for a physically possible particle: positive momentum, energy
above the rest mass, positive reference momentum. -/
def Physical (p : Part) : Op → Prop
  | .setDelta d => -1 < d
  | .setPtau t => p.mass0 < refEnergy p + t * p.p0c
  | .setPzeta z => p.mass0 < refEnergy p + z * p.beta0 * p.p0c
  | .addEnergy dE _ => p.mass0 < energyOf p + dE / massRatioOf p
  | .setP0c v => 0 < v
  | .pyDelta d => ∀ v, d = some v → -1 < v
  | .pyPtau t => ∀ v, t = some v → p.mass0 < refEnergy p + v * p.p0c
  | .pyAddEnergy dE => p.mass0 < energyOf p + dE / massRatioOf p
  | .pyP0cAndDev v => 0 < v

/-- What the user asked for has happened, and nothing else. -/
def Done (p q : Part) : Op → Prop
  | .setDelta d => SameButDeviation p q ∧ q.delta = d
  | .setPtau t => SameButDeviation p q ∧ q.ptau = t
  | .setPzeta z => SameButDeviation p q ∧ getPzeta q = some z
  | .addEnergy dE true => SameButDeviation p q ∧ energyOf q = energyOf p + dE / massRatioOf p
  | .addEnergy dE false =>
      SameButDeviation p { q with px := p.px, py := p.py } ∧
      energyOf q = energyOf p + dE / massRatioOf p ∧
      q.px / momentumOf q = p.px / momentumOf p ∧ q.py / momentumOf q = p.py / momentumOf p
  | .setP0c v => SamePhysical p q ∧ q.p0c = v
  | .pyDelta (some d) => SameButDeviation p q ∧ (if p.state > 0 then q.delta = d else q = p)
  | .pyDelta none => q = p
  | .pyPtau (some t) => SameButDeviation p q ∧ (if p.state > 0 then q.ptau = t else q = p)
  | .pyPtau none => q = p
  | .pyAddEnergy dE => SameButDeviation p q ∧
      (if p.state > 0 then energyOf q = energyOf p + dE / massRatioOf p else q = p)
  | .pyP0cAndDev v => SamePhysical p q ∧ (if p.state > 0 then q.p0c = v else q = p)

theorem SameButDeviation.refl (p : Part) : SameButDeviation p p := by constructor <;> rfl

theorem SamePhysical.refl (p : Part) : SamePhysical p p := by constructor <;> rfl

theorem massRatio_ne {p : Part} (h : 0 < massRatioOf p) : p.chi ≠ 0 ∧ p.chargeRatio / p.chi ≠ 0 := by
  refine ⟨?_, h.ne'⟩
  intro h0; unfold massRatioOf at h; rw [h0, div_zero] at h; exact lt_irrefl _ h

/-- **C08, one operation.**  Every operation that asks for a physical particle
succeeds (no NaN or infinity), does what was asked and leaves all the energy
variables consistent. -/
theorem C08_operation_keeps_consistency {p : Part} (c : Consistent p) (hmr : 0 < massRatioOf p)
    (op : Op) (h : Physical p op) :
    ∃ q, step p op = some q ∧ Consistent q ∧ massRatioOf q = massRatioOf p ∧ Done p q op := by
  have hb := c.toRefOk.beta_pos
  cases op with
  | setDelta d =>
    obtain ⟨q, h1, h2, h3, h4⟩ := updateDelta_spec c.toRefOk h
    exact ⟨q, h1, h2, by simp [massRatioOf, h3.chi, h3.chargeRatio], h3, h4⟩
  | setPtau t =>
    obtain ⟨q, h1, h2, h3, h4⟩ := updatePtau_spec c.toRefOk h
    exact ⟨q, h1, h2, by simp [massRatioOf, h3.chi, h3.chargeRatio], h3, h4⟩
  | setPzeta z =>
    have h' : p.mass0 < refEnergy p + p.beta0 * z * p.p0c := by
      rw [mul_comm p.beta0 z]; exact h
    obtain ⟨q, h1, h2, h3, h4⟩ := updatePtau_spec c.toRefOk h'
    refine ⟨q, h1, h2, by simp [massRatioOf, h3.chi, h3.chargeRatio], h3, ?_⟩
    unfold getPzeta
    rw [h3.beta0, cdiv_eq hb.ne', h4]
    congr 1; field_simp
  | addEnergy dE b =>
    obtain ⟨q, _, h2, h3, h4, h5, h6⟩ := addToEnergy_spec c hmr h
    cases b with
    | true => exact ⟨q, h5, h2, by simp [massRatioOf, h3.chi, h3.chargeRatio], h3, h4⟩
    | false =>
      refine ⟨_, h6, ?_, by simp [massRatioOf, h3.chi, h3.chargeRatio], ?_, h4, ?_, ?_⟩
      · exact ⟨⟨h2.mass, h2.p0c, h2.gamma0, h2.beta0⟩, h2.momentum_pos, h2.energy_pos,
          h2.mass_shell, h2.rpp, h2.rvv⟩
      · exact { h3 with px := rfl, py := rfl }
      · show p.px * (p.rpp / q.rpp) / momentumOf q = _
        have := c.momentum_pos; have := h2.momentum_pos; have := c.p0c; have := h2.p0c
        rw [c.rpp, h2.rpp, h3.p0c]; field_simp
      · show p.py * (p.rpp / q.rpp) / momentumOf q = _
        have := c.momentum_pos; have := h2.momentum_pos; have := c.p0c; have := h2.p0c
        rw [c.rpp, h2.rpp, h3.p0c]; field_simp
  | setP0c v =>
    obtain ⟨q, h1, h2, h3, h4⟩ := updateP0c_spec c h
    exact ⟨q, h1, h2, by simp [massRatioOf, h3.chi, h3.chargeRatio], h3, h4⟩
  | pyDelta d =>
    cases d with
    | none => exact ⟨p, rfl, c, rfl, rfl⟩
    | some d =>
      by_cases hs : p.state > 0
      · obtain ⟨q, h1, h2, h3, h4⟩ := pyUpdateDev_delta_spec c.toRefOk (h d rfl)
        exact ⟨q, by simp [step, pySetDelta, hs, h1], h2,
          by simp [massRatioOf, h3.chi, h3.chargeRatio], h3, by simp [hs, h4]⟩
      · exact ⟨p, by simp [step, pySetDelta, hs], c, rfl, SameButDeviation.refl p, by simp [hs]⟩
  | pyPtau t =>
    cases t with
    | none => exact ⟨p, rfl, c, rfl, rfl⟩
    | some t =>
      by_cases hs : p.state > 0
      · obtain ⟨q, h1, h2, h3, h4⟩ := pyUpdateDev_ptau_spec c.toRefOk (h t rfl)
        exact ⟨q, by simp [step, pySetPtau, hs, h1], h2,
          by simp [massRatioOf, h3.chi, h3.chargeRatio], h3, by simp [hs, h4]⟩
      · exact ⟨p, by simp [step, pySetPtau, hs], c, rfl, SameButDeviation.refl p, by simp [hs]⟩
  | pyAddEnergy dE =>
    obtain ⟨hchi, hm⟩ := massRatio_ne hmr
    have hpc := c.p0c.ne'
    have hE' : p.mass0 < refEnergy p + (p.ptau + dE / p.p0c / (p.chargeRatio / p.chi)) * p.p0c := by
      have : refEnergy p + (p.ptau + dE / p.p0c / (p.chargeRatio / p.chi)) * p.p0c
          = energyOf p + dE / massRatioOf p := by
        unfold energyOf massRatioOf; field_simp; ring
      rw [this]; exact h
    have hst : step p (.pyAddEnergy dE)
        = pySetPtau p (some (p.ptau + dE / p.p0c / (p.chargeRatio / p.chi))) := by
      simp only [step, pyAddToEnergy, Option.bind_eq_bind, cdiv_eq hchi, cdiv_eq hm, cdiv_eq hpc,
        Option.bind_some]
    rw [hst]
    by_cases hs : p.state > 0
    · obtain ⟨q, h1, h2, h3, h4⟩ := pyUpdateDev_ptau_spec c.toRefOk hE'
      refine ⟨q, by simp only [pySetPtau, hs, if_true]; exact h1, h2,
        by simp [massRatioOf, h3.chi, h3.chargeRatio], h3, ?_⟩
      rw [if_pos hs]
      unfold energyOf massRatioOf
      rw [h3.refEnergy, h4, h3.p0c]; field_simp; ring
    · exact ⟨p, by simp [pySetPtau, hs], c, rfl, SameButDeviation.refl p, by simp [hs]⟩
  | pyP0cAndDev v =>
    by_cases hs : p.state > 0
    · obtain ⟨q, h1, h2, h3, h4⟩ := pyUpdateP0cAndDev_spec c hs h
      exact ⟨q, h1, h2, by simp [massRatioOf, h3.chi, h3.chargeRatio], h3, by simp [hs, h4]⟩
    · exact ⟨p, by simp [step, pyUpdateP0cAndDev, hs], c, rfl, SamePhysical.refl p, by simp [hs]⟩

/-- A sequence of operations each of which asks for a physical particle. -/
def PhysicalSeq (p : Part) : List Op → Prop
  | [] => True
  | op :: ops => Physical p op ∧ ∀ q, step p op = some q → PhysicalSeq q ops

/-- Execute a sequence. -/
def run (p : Part) : List Op → Option Part
  | [] => some p
  | op :: ops => (step p op).bind fun q => run q ops

/-- **C08 (partial), all sequences.**  After any sequence of the operations the energy
variables are consistent.  Missing from the full claim: the assignments
`particles.p0c = ...` (and `gamma0`, `beta0`, `energy0`, ...), which leave `delta`
and `ptau` contradicting each other, see `C08_violated_by_p0c_assignment`. -/
theorem C08_sequences_partial {p : Part} (c : Consistent p) (hmr : 0 < massRatioOf p)
    (ops : List Op) (h : PhysicalSeq p ops) :
    ∃ q, run p ops = some q ∧ Consistent q := by
  induction ops generalizing p with
  | nil => exact ⟨p, rfl, c⟩
  | cons op ops ih =>
    obtain ⟨q, h1, h2, h3, _⟩ := C08_operation_keeps_consistency c hmr op h.1
    obtain ⟨r, h4, h5⟩ := ih h2 (by rw [h3]; exact hmr) (h.2 q h1)
    exact ⟨r, by simp [run, h1, h4], h5⟩

/-- The hypotheses hold for a sequence of four operations. -/
example : PhysicalSeq sample [.setDelta 1, .pyDelta none, .setP0c 7, .setDelta 0] :=
  ⟨by norm_num [Physical], fun _ _ => ⟨by simp [Physical], fun _ _ =>
    ⟨by norm_num [Physical], fun _ _ => ⟨by norm_num [Physical], fun _ _ => trivial⟩⟩⟩⟩

example : 0 < massRatioOf sample := by norm_num [massRatioOf, sample]

/-- In the variables of the code: the relations quoted in the claim. -/
theorem C08_relations {p : Part} (c : Consistent p) :
    p.rpp = 1 / (1 + p.delta) ∧
    (1 + p.delta) ^ 2 = p.ptau ^ 2 + 2 * p.ptau / p.beta0 + 1 ∧
    getPzeta p = some (p.ptau / p.beta0) ∧
    p.rvv * p.beta0 = momentumOf p / energyOf p := by
  obtain ⟨h1, h2, h3, h4, h5⟩ := (consistent_iff c.toRefOk).mp c
  refine ⟨h4, h3, cdiv_eq c.toRefOk.beta_pos.ne', ?_⟩
  rw [c.rvv, c.beta0]
  have := c.p0c; have := c.toRefOk.e_pos
  field_simp

/-- The arguments of `Particles(...)` describe a physical particle. -/
def RefPhysical (p : Part) : Ref → Prop
  | .p0c v => 0 < v
  | .energy0 v => p.mass0 < v
  | .gamma0 v => 1 < v
  | .beta0 v => 0 < v ∧ v < 1
  | .kineticEnergy0 v => 0 < v
  | .rigidity0 v => 0 < v ∧ p.q0 ≠ 0

/-- The reference of the new object is the one that was asked for. -/
def RefIs (q : Part) : Ref → Prop
  | .p0c v => q.p0c = v
  | .energy0 v => refEnergy q = v
  | .gamma0 v => q.gamma0 = v
  | .beta0 v => q.beta0 = v
  | .kineticEnergy0 v => refEnergy q - q.mass0 = v
  | .rigidity0 v => q.p0c = v * |q.q0| * clight

theorem clight_pos : 0 < clight := by norm_num [clight]

/-- Setting the reference in any of the six ways gives a consistent reference. -/
theorem C08_reference {p : Part} (hm : 0 < p.mass0) (r : Ref) (h : RefPhysical p r) :
    ∃ q, pyUpdateRefs p r = some q ∧ RefOk q ∧ RefIs q r ∧ SameButRef p q := by
  cases r with
  | p0c v =>
    obtain ⟨q, h1, h2, h3, h4⟩ := pyUpdateRefs_p0c hm h
    exact ⟨q, h1, h2, h4, h3⟩
  | energy0 v =>
    obtain ⟨q, h1, h2, h3, h4⟩ := pyUpdateRefs_energy0 hm h
    exact ⟨q, h1, h2, h4, h3⟩
  | gamma0 v =>
    obtain ⟨q, h1, h2, h3, h4⟩ := pyUpdateRefs_gamma0 hm h
    exact ⟨q, h1, h2, h4, h3⟩
  | beta0 v =>
    obtain ⟨q, h1, h2, h3, h4⟩ := pyUpdateRefs_beta0 hm h.1 h.2
    exact ⟨q, h1, h2, h4, h3⟩
  | kineticEnergy0 v =>
    have h' : p.mass0 < v + p.mass0 := by have : 0 < v := h; linarith
    obtain ⟨q, h1, h2, h3, h4⟩ := pyUpdateRefs_energy0 hm h'
    refine ⟨q, by rw [pyUpdateRefs_kinetic]; exact h1, h2, ?_, h3⟩
    show refEnergy q - q.mass0 = v
    rw [h4, h3.mass0]; ring
  | rigidity0 v =>
    have h' : 0 < v * |p.q0| * clight :=
      mul_pos (mul_pos h.1 (abs_pos.mpr h.2)) clight_pos
    obtain ⟨q, h1, h2, h3, h4⟩ := pyUpdateRefs_p0c hm h'
    refine ⟨q, by rw [pyUpdateRefs_rigidity]; exact h1, h2, ?_, h3⟩
    show q.p0c = v * |q.q0| * clight
    rw [h4, h3.q0]

/-- **C08, constructor.**  A particle built from one reference quantity and one energy
deviation is consistent. -/
theorem C08_constructor {p : Part} (hm : 0 < p.mass0) (r : Ref) (h : RefPhysical p r)
    {p1 : Part} (h1 : pyUpdateRefs p r = some p1) :
    (∀ d, -1 < d → ∃ q, pyUpdateDev p1 (.delta d) = some q ∧ Consistent q ∧ q.delta = d) ∧
    (∀ t, p1.mass0 < refEnergy p1 + t * p1.p0c →
      ∃ q, pyUpdateDev p1 (.ptau t) = some q ∧ Consistent q ∧ q.ptau = t) ∧
    (∀ z, p1.mass0 < refEnergy p1 + z * p1.beta0 * p1.p0c →
      ∃ q, pyUpdateDev p1 (.pzeta z) = some q ∧ Consistent q ∧ getPzeta q = some z) := by
  obtain ⟨p1', h1', ok, _, _⟩ := C08_reference hm r h
  obtain rfl : p1' = p1 := Option.some.inj (h1'.symm.trans h1)
  have hb := ok.beta_pos
  refine ⟨fun d hd => ?_, fun t ht => ?_, fun z hz => ?_⟩
  · obtain ⟨q, a, b, _, e⟩ := pyUpdateDev_delta_spec ok hd
    exact ⟨q, a, b, e⟩
  · obtain ⟨q, a, b, _, e⟩ := pyUpdateDev_ptau_spec ok ht
    exact ⟨q, a, b, e⟩
  · obtain ⟨q, a, b, s, e⟩ := pyUpdateDev_ptau_spec ok hz
    refine ⟨q, by rw [pyUpdateDev_pzeta]; exact a, b, ?_⟩
    unfold getPzeta
    rw [s.beta0, cdiv_eq hb.ne', e]
    congr 1; field_simp

example : RefPhysical sample (.gamma0 2) := by norm_num [RefPhysical]

/-- **C08/C12 violated.**  `particles.p0c = 16` on a consistent alive particle leaves
`delta` and `ptau` describing two different particles. -/
theorem C08_violated_by_p0c_assignment :
    ∃ p q, Consistent p ∧ p.state > 0 ∧ pySetP0c p (some 16) = some q ∧ ¬ Consistent q := by
  have hsq : csqrt ((16 : ℝ) ^ 2 + 12 ^ 2) = some 20 := csqrt_of_sq (by norm_num) (by norm_num)
  refine ⟨sample, { sample with p0c := 16, gamma0 := 20 / 12, beta0 := 16 / 20 },
    sample_consistent, by decide, ?_, ?_⟩
  · have h1 : sample.mass0 = 12 := rfl
    have h2 : sample.state > 0 := by decide
    simp only [pySetP0c, h2, if_true, pyUpdateRefs, h1, Option.bind_eq_bind, hsq, Option.bind_some,
      cdiv_eq (show (20 : ℝ) ≠ 0 by norm_num), cdiv_eq (show (12 : ℝ) ≠ 0 by norm_num)]
  · intro c
    have h := (c.toRefOk.shell_iff).mp c.mass_shell
    norm_num [sample] at h

/-! ## C09 -/

/-- **C09.**  Setting `delta`, reading `ptau` and setting that `ptau` gives back the same
`delta`; setting `ptau`, reading `delta` and setting that `delta` gives back the same
`ptau`.  (In the C functions; the Python ones are the same by `C12`.) -/
theorem C09_delta_ptau_inverse {p : Part} (h : RefOk p) :
    (∀ d, -1 < d → ∃ q r, updateDelta p d = some q ∧ updatePtau p q.ptau = some r ∧
      r.delta = d ∧ r = q) ∧
    (∀ t, p.mass0 < refEnergy p + t * p.p0c →
      ∃ q r, updatePtau p t = some q ∧ updateDelta p q.delta = some r ∧ r.ptau = t ∧ r = q) := by
  refine ⟨fun d hd => ?_, fun t ht => ?_⟩
  · obtain ⟨q, h1, h2, h3, h4⟩ := updateDelta_spec h hd
    have ht : p.mass0 < refEnergy p + q.ptau * p.p0c := by
      have := h2.above_rest
      unfold energyOf at this
      rw [h3.mass0, h3.refEnergy, h3.p0c] at this
      exact this
    obtain ⟨r, g1, g2, g3, g4⟩ := updatePtau_spec h ht
    have : r = q := by
      apply Consistent.unique_ptau h2 g2 _ g4
      exact { mass0 := g3.mass0.trans h3.mass0.symm, q0 := g3.q0.trans h3.q0.symm
              p0c := g3.p0c.trans h3.p0c.symm, gamma0 := g3.gamma0.trans h3.gamma0.symm
              beta0 := g3.beta0.trans h3.beta0.symm, x := g3.x.trans h3.x.symm
              px := g3.px.trans h3.px.symm, y := g3.y.trans h3.y.symm
              py := g3.py.trans h3.py.symm, zeta := g3.zeta.trans h3.zeta.symm
              chi := g3.chi.trans h3.chi.symm
              chargeRatio := g3.chargeRatio.trans h3.chargeRatio.symm
              state := g3.state.trans h3.state.symm }
    exact ⟨q, r, h1, g1, by rw [this]; exact h4, this⟩
  · obtain ⟨q, h1, h2, h3, h4⟩ := updatePtau_spec h ht
    have hd : -1 < q.delta := by
      have := h2.toRefOk.momentum_pos_iff.mp h2.momentum_pos
      linarith
    obtain ⟨r, g1, g2, g3, g4⟩ := updateDelta_spec h hd
    have : r = q := by
      apply Consistent.unique_delta h2 g2 _ g4
      exact { mass0 := g3.mass0.trans h3.mass0.symm, q0 := g3.q0.trans h3.q0.symm
              p0c := g3.p0c.trans h3.p0c.symm, gamma0 := g3.gamma0.trans h3.gamma0.symm
              beta0 := g3.beta0.trans h3.beta0.symm, x := g3.x.trans h3.x.symm
              px := g3.px.trans h3.px.symm, y := g3.y.trans h3.y.symm
              py := g3.py.trans h3.py.symm, zeta := g3.zeta.trans h3.zeta.symm
              chi := g3.chi.trans h3.chi.symm
              chargeRatio := g3.chargeRatio.trans h3.chargeRatio.symm
              state := g3.state.trans h3.state.symm }
    exact ⟨q, r, h1, g1, by rw [this]; exact h4, this⟩

example : sample.mass0 < refEnergy sample + (3 : ℝ) * sample.p0c := by
  rw [sample_refEnergy]; norm_num [sample]

/-! ## C10 -/

/-- The total energy read by the user is the one of the specification. -/
theorem pyEnergy_eq {p : Part} (hmr : 0 < massRatioOf p) :
    pyEnergy p = some (massRatioOf p * energyOf p) := by
  obtain ⟨hchi, _⟩ := massRatio_ne hmr
  have h1 : csqrt (p.p0c * p.p0c + p.mass0 * p.mass0) = some (refEnergy p) := by
    rw [csqrt_eq (by nlinarith [mul_self_nonneg p.p0c, mul_self_nonneg p.mass0])]
    unfold refEnergy; congr 2; ring
  simp only [pyEnergy, h1, Option.bind_eq_bind, Option.bind_some, cdiv_eq hchi]
  unfold energyOf massRatioOf
  congr 1; ring

/-- **C10.**  `add_to_energy` raises the total energy `particles.energy` by exactly `dE`;
with `pz_only` the transverse momenta are unchanged, without it the direction of
flight is unchanged. -/
theorem C10_add_to_energy {p : Part} (c : Consistent p) (hmr : 0 < massRatioOf p) {dE : ℝ}
    (hE : p.mass0 < energyOf p + dE / massRatioOf p) (pzOnly : Bool) :
    ∃ q e, addToEnergy p dE pzOnly = some q ∧ Consistent q ∧
      pyEnergy p = some e ∧ pyEnergy q = some (e + dE) ∧
      (pzOnly = true → q.px = p.px ∧ q.py = p.py) ∧
      (pzOnly = false → q.px / (1 + q.delta) = p.px / (1 + p.delta) ∧
        q.py / (1 + q.delta) = p.py / (1 + p.delta)) := by
  obtain ⟨q, h1, h2, h3, h4⟩ := C08_operation_keeps_consistency c hmr (.addEnergy dE pzOnly) hE
  have hmr' : 0 < massRatioOf q := by rw [h3]; exact hmr
  have hd1 := c.toRefOk.momentum_pos_iff.mp c.momentum_pos
  have hd2 := h2.toRefOk.momentum_pos_iff.mp h2.momentum_pos
  have e2 : energyOf q = energyOf p + dE / massRatioOf p := by
    cases pzOnly with
    | true => exact h4.2
    | false => exact h4.2.1
  refine ⟨q, _, h1, h2, pyEnergy_eq hmr, ?_, ?_, ?_⟩
  · rw [pyEnergy_eq hmr', h3, e2]; congr 1; field_simp
  · rintro rfl; exact ⟨h4.1.px, h4.1.py⟩
  · rintro rfl
    obtain ⟨s, _, hx, hy⟩ := h4
    have hpc : q.p0c = p.p0c := s.p0c
    have hp := c.p0c
    unfold momentumOf at hx hy
    rw [hpc] at hx hy
    constructor
    · have : q.px / (p.p0c * (1 + q.delta)) = q.px / (1 + q.delta) / p.p0c := by field_simp
      rw [this] at hx
      have : p.px / (p.p0c * (1 + p.delta)) = p.px / (1 + p.delta) / p.p0c := by field_simp
      rw [this] at hx
      exact (div_left_inj' hp.ne').mp hx
    · have : q.py / (p.p0c * (1 + q.delta)) = q.py / (1 + q.delta) / p.p0c := by field_simp
      rw [this] at hy
      have : p.py / (p.p0c * (1 + p.delta)) = p.py / (1 + p.delta) / p.p0c := by field_simp
      rw [this] at hy
      exact (div_left_inj' hp.ne').mp hy

/-- **C10.**  Adding `dE1` and then `dE2` is the same as adding `dE1 + dE2`: all the
coordinates agree. -/
theorem C10_add_to_energy_additive {p : Part} (c : Consistent p) (hmr : 0 < massRatioOf p)
    {dE1 dE2 : ℝ} (h1 : p.mass0 < energyOf p + dE1 / massRatioOf p)
    (h2 : p.mass0 < energyOf p + (dE1 + dE2) / massRatioOf p) (pzOnly : Bool) :
    (addToEnergy p dE1 pzOnly).bind (fun q => addToEnergy q dE2 pzOnly)
      = addToEnergy p (dE1 + dE2) pzOnly := by
  obtain ⟨q, _, cq, sq, eq1, t1, f1⟩ := addToEnergy_spec c hmr h1
  obtain ⟨r, _, cr, sr, er, t2, f2⟩ := addToEnergy_spec c hmr h2
  have hmrq : massRatioOf q = massRatioOf p := by simp [massRatioOf, sq.chi, sq.chargeRatio]
  -- the intermediate particle, for both values of the flag
  set q' : Part := { q with px := p.px * (p.rpp / q.rpp), py := p.py * (p.rpp / q.rpp) } with hq'
  have cq' : Consistent q' := ⟨⟨cq.mass, cq.p0c, cq.gamma0, cq.beta0⟩, cq.momentum_pos,
    cq.energy_pos, cq.mass_shell, cq.rpp, cq.rvv⟩
  have hE2 : q.mass0 < energyOf q + dE2 / massRatioOf q := by
    rw [sq.mass0, eq1, hmrq, add_assoc, ← add_div]; exact h2
  have hrq : q.rpp ≠ 0 := by rw [cq.rpp]; exact (div_pos cq.p0c cq.momentum_pos).ne'
  cases pzOnly with
  | true =>
    obtain ⟨u, _, cu, su, eu, t3, _⟩ := addToEnergy_spec cq (by rw [hmrq]; exact hmr) hE2
    rw [t1, t2, Option.bind_some, t3]
    congr 1
    apply Consistent.unique_ptau cr cu
    · exact { mass0 := (sq.trans su).mass0.trans sr.mass0.symm
              q0 := (sq.trans su).q0.trans sr.q0.symm
              p0c := (sq.trans su).p0c.trans sr.p0c.symm
              gamma0 := (sq.trans su).gamma0.trans sr.gamma0.symm
              beta0 := (sq.trans su).beta0.trans sr.beta0.symm
              x := (sq.trans su).x.trans sr.x.symm
              px := (sq.trans su).px.trans sr.px.symm
              y := (sq.trans su).y.trans sr.y.symm
              py := (sq.trans su).py.trans sr.py.symm
              zeta := (sq.trans su).zeta.trans sr.zeta.symm
              chi := (sq.trans su).chi.trans sr.chi.symm
              chargeRatio := (sq.trans su).chargeRatio.trans sr.chargeRatio.symm
              state := (sq.trans su).state.trans sr.state.symm }
    · have : energyOf u = energyOf r := by rw [eu, er, eq1, hmrq, add_assoc, ← add_div]
      unfold energyOf at this
      rw [(sq.trans su).refEnergy, (sq.trans su).p0c, sr.refEnergy, sr.p0c] at this
      have h3 : u.ptau * p.p0c = r.ptau * p.p0c := by linarith
      exact mul_right_cancel₀ c.p0c.ne' h3
  | false =>
    obtain ⟨u, _, cu, su, eu, _, f3⟩ := addToEnergy_spec cq'
      (show 0 < massRatioOf q' from (by rw [show massRatioOf q' = massRatioOf q from rfl, hmrq]; exact hmr)) hE2
    rw [f1, f2, Option.bind_some, f3]
    congr 1
    have hptau : u.ptau = r.ptau := by
      have : energyOf u = energyOf r := by
        rw [eu, er, show energyOf q' = energyOf q from rfl,
          show massRatioOf q' = massRatioOf q from rfl, eq1, hmrq, add_assoc, ← add_div]
      unfold energyOf at this
      rw [su.refEnergy, su.p0c, show refEnergy q' = refEnergy q from rfl,
        show q'.p0c = q.p0c from rfl, sq.refEnergy, sq.p0c, sr.refEnergy, sr.p0c] at this
      have h3 : u.ptau * p.p0c = r.ptau * p.p0c := by linarith
      exact mul_right_cancel₀ c.p0c.ne' h3
    -- compare `u` and `r` with the transverse momenta set to the same values
    have hur : ({ u with px := r.px, py := r.py } : Part) = r := by
      apply Consistent.unique_ptau cr
      · exact ⟨⟨cu.mass, cu.p0c, cu.gamma0, cu.beta0⟩, cu.momentum_pos, cu.energy_pos,
          cu.mass_shell, cu.rpp, cu.rvv⟩
      · exact { mass0 := su.mass0.trans (sq.mass0.trans sr.mass0.symm)
                q0 := su.q0.trans (sq.q0.trans sr.q0.symm)
                p0c := su.p0c.trans (sq.p0c.trans sr.p0c.symm)
                gamma0 := su.gamma0.trans (sq.gamma0.trans sr.gamma0.symm)
                beta0 := su.beta0.trans (sq.beta0.trans sr.beta0.symm)
                x := su.x.trans (sq.x.trans sr.x.symm)
                px := rfl
                y := su.y.trans (sq.y.trans sr.y.symm)
                py := rfl
                zeta := su.zeta.trans (sq.zeta.trans sr.zeta.symm)
                chi := su.chi.trans (sq.chi.trans sr.chi.symm)
                chargeRatio := su.chargeRatio.trans (sq.chargeRatio.trans sr.chargeRatio.symm)
                state := su.state.trans (sq.state.trans sr.state.symm) }
      · exact hptau
    have hrpp : u.rpp = r.rpp := by
      have := congrArg Part.rpp hur
      exact this
    have hfac : p.rpp / q.rpp * (q.rpp / u.rpp) = p.rpp / r.rpp := by
      rw [hrpp]; field_simp
    have e1 : q'.px * (q'.rpp / u.rpp) = p.px * (p.rpp / r.rpp) := by
      show p.px * (p.rpp / q.rpp) * (q.rpp / u.rpp) = _
      rw [mul_assoc, hfac]
    have e2 : q'.py * (q'.rpp / u.rpp) = p.py * (p.rpp / r.rpp) := by
      show p.py * (p.rpp / q.rpp) * (q.rpp / u.rpp) = _
      rw [mul_assoc, hfac]
    rw [e1, e2, ← hur]

example : sample.mass0 < energyOf sample + (-1) / massRatioOf sample := by
  simp only [energyOf, sample_refEnergy, massRatioOf]; norm_num [sample]

/-! ## C11 -/

/-- **C11.**  Changing the reference momentum leaves the physical particle (momentum
vector, energy, arrival time, position) unchanged. -/
theorem C11_reference_change {p : Part} (c : Consistent p) {v : ℝ} (hv : 0 < v) :
    ∃ q, updateP0c p v = some q ∧ Consistent q ∧ q.p0c = v ∧ SamePhysical p q := by
  obtain ⟨q, h1, h2, h3, h4⟩ := updateP0c_spec c hv
  exact ⟨q, h1, h2, h4, h3⟩

/-- A sequence of reference changes. -/
def changeRefs (p : Part) : List ℝ → Option Part
  | [] => some p
  | v :: vs => (updateP0c p v).bind fun q => changeRefs q vs

/-- **C11, sequences.**  After any sequence of reference changes the result is the one
of the last change alone; in particular coming back to the initial reference momentum
restores every coordinate. -/
theorem C11_reference_change_sequences {p : Part} (c : Consistent p) (vs : List ℝ)
    (hvs : ∀ v ∈ vs, 0 < v) (w : ℝ) (hw : 0 < w) :
    changeRefs p (vs ++ [w]) = updateP0c p w := by
  induction vs generalizing p with
  | nil =>
    obtain ⟨q, h1, _⟩ := updateP0c_spec c hw
    simp [changeRefs, h1]
  | cons v vs ih =>
    obtain ⟨q, h1, h2, h3, _⟩ := updateP0c_spec c (hvs v (by simp))
    obtain ⟨r, g1, g2, g3, g4⟩ := updateP0c_spec c hw
    obtain ⟨u, f1, f2, f3, f4⟩ := updateP0c_spec h2 hw
    have : u = r := SamePhysical.eq g2 f2 (g3.symm.trans (h3.trans f3)) (f4.trans g4.symm)
    rw [List.cons_append]
    show (updateP0c p v).bind _ = _
    rw [h1, Option.bind_some, ih h2 (fun x hx => hvs x (by simp [hx])), f1, g1, this]

/-- **C11, back and forth.** -/
theorem C11_round_trip {p : Part} (c : Consistent p) (vs : List ℝ) (hvs : ∀ v ∈ vs, 0 < v) :
    changeRefs p (vs ++ [p.p0c]) = some p := by
  rw [C11_reference_change_sequences c vs hvs p.p0c c.p0c]
  obtain ⟨q, h1, h2, h3, h4⟩ := updateP0c_spec c c.p0c
  rw [h1, SamePhysical.eq c h2 h3 h4]

example : changeRefs sample ([7, 1 / 2, 100] ++ [5]) = some sample :=
  C11_round_trip sample_consistent [7, 1 / 2, 100] (by intro v hv; simp at hv; rcases hv with h | h | h <;> rw [h] <;> norm_num)

/-! ## C12 -/

theorem same_of_same {p q r : Part} (a : SameButDeviation p q) (b : SameButDeviation p r) :
    SameButDeviation q r where
  mass0 := b.mass0.trans a.mass0.symm
  q0 := b.q0.trans a.q0.symm
  p0c := b.p0c.trans a.p0c.symm
  gamma0 := b.gamma0.trans a.gamma0.symm
  beta0 := b.beta0.trans a.beta0.symm
  x := b.x.trans a.x.symm
  px := b.px.trans a.px.symm
  y := b.y.trans a.y.symm
  py := b.py.trans a.py.symm
  zeta := b.zeta.trans a.zeta.symm
  chi := b.chi.trans a.chi.symm
  chargeRatio := b.chargeRatio.trans a.chargeRatio.symm
  state := b.state.trans a.state.symm

/-- **C12 (partial).**  For alive particles the Python setters of `delta`, `ptau`, the
Python `add_to_energy` and `update_p0c_and_energy_deviations` give exactly the
particle the C functions give.  Missing: `particles.p0c = ...`, which does not, see
`C12_p0c_violated`. -/
theorem C12_python_agrees_with_c_partial {p : Part} (c : Consistent p) (hmr : 0 < massRatioOf p)
    (hs : p.state > 0) :
    (∀ d, -1 < d → pySetDelta p (some d) = updateDelta p d) ∧
    (∀ t, p.mass0 < refEnergy p + t * p.p0c → pySetPtau p (some t) = updatePtau p t) ∧
    (∀ dE, p.mass0 < energyOf p + dE / massRatioOf p →
      pyAddToEnergy p dE = addToEnergy p dE true) ∧
    (∀ v, 0 < v → pyUpdateP0cAndDev p v true = updateP0c p v) := by
  have hpt : ∀ t, p.mass0 < refEnergy p + t * p.p0c → pySetPtau p (some t) = updatePtau p t := by
    intro t ht
    obtain ⟨q, h1, h2, h3, h4⟩ := pyUpdateDev_ptau_spec c.toRefOk ht
    obtain ⟨r, g1, g2, g3, g4⟩ := updatePtau_spec c.toRefOk ht
    simp only [pySetPtau, hs, if_true]
    rw [h1, g1, Consistent.unique_ptau h2 g2 (same_of_same h3 g3) (g4.trans h4.symm)]
  refine ⟨fun d hd => ?_, hpt, fun dE hE => ?_, fun v hv => ?_⟩
  · obtain ⟨q, h1, h2, h3, h4⟩ := pyUpdateDev_delta_spec c.toRefOk hd
    obtain ⟨r, g1, g2, g3, g4⟩ := updateDelta_spec c.toRefOk hd
    simp only [pySetDelta, hs, if_true]
    rw [h1, g1, Consistent.unique_delta h2 g2 (same_of_same h3 g3) (g4.trans h4.symm)]
  · obtain ⟨hchi, hm⟩ := massRatio_ne hmr
    obtain ⟨q, h1, h2, h3, h4, h5, _⟩ := addToEnergy_spec c hmr hE
    have hE' : p.mass0 < refEnergy p + (p.ptau + dE / p.p0c / massRatioOf p) * p.p0c := by
      have hpc := c.p0c.ne'
      have : refEnergy p + (p.ptau + dE / p.p0c / massRatioOf p) * p.p0c
          = energyOf p + dE / massRatioOf p := by unfold energyOf; field_simp; ring
      rw [this]; exact hE
    rw [h5, ← h1, ← hpt _ hE']
    simp only [pyAddToEnergy, Option.bind_eq_bind, cdiv_eq hchi, cdiv_eq hm, cdiv_eq c.p0c.ne',
        Option.bind_some, massRatioOf]
  · obtain ⟨q, h1, h2, h3, h4⟩ := pyUpdateP0cAndDev_spec c hs hv
    obtain ⟨r, g1, g2, g3, g4⟩ := updateP0c_spec c hv
    rw [h1, g1, SamePhysical.eq h2 g2 (h3.symm.trans g3) (g4.trans h4.symm)]

example : sample.state > 0 := by decide

/-- **C12 violated.**  `particles.p0c = 16` in Python does not do what `update_p0c` does
in C. -/
theorem C12_p0c_violated :
    ∃ p, Consistent p ∧ p.state > 0 ∧ pySetP0c p (some 16) ≠ updateP0c p 16 := by
  obtain ⟨p, q, c, hs, h1, h2⟩ := C08_violated_by_p0c_assignment
  refine ⟨p, c, hs, fun h => h2 ?_⟩
  obtain ⟨r, g1, g2, _⟩ := updateP0c_spec c (show (0 : ℝ) < 16 by norm_num)
  rw [h1, g1] at h
  rw [Option.some.inj h]; exact g2

/-! ## C13 -/

/-- **C13, setter.**  `particles.rigidity0 = r` on an alive particle and reading it gives
`r`, whatever the charge. -/
theorem C13_rigidity_setter {p : Part} (hm : 0 < p.mass0) (hs : p.state > 0) (hq : p.q0 ≠ 0)
    {r : ℝ} {q : Part} (h : pySetRigidity0 p r = some q) : pyGetRigidity0 q = some r := by
  have hc := clight_pos.ne'
  have h1 : 0 < (r * clight * p.q0) ^ 2 + p.mass0 ^ 2 := by positivity
  have hr := Real.sqrt_pos.mpr h1
  have hcs := csqrt_eq h1.le
  generalize Real.sqrt _ = e at hr hcs
  simp only [pySetRigidity0, pySetP0c, hs, if_true, pyUpdateRefs, Option.bind_eq_bind, hcs,
    Option.bind_some, cdiv_eq hr.ne', cdiv_eq hm.ne', Option.some.injEq] at h
  subst h
  simp only [pyGetRigidity0, Option.bind_eq_bind, cdiv_eq hc, Option.bind_some, cdiv_eq hq]
  congr 1; field_simp

/-- The setter always succeeds. -/
example : (pySetRigidity0 sample 3).isSome := by
  have h1 : 0 < ((3 : ℝ) * clight * sample.q0) ^ 2 + sample.mass0 ^ 2 := by
    norm_num [sample, clight]
  have hr := Real.sqrt_pos.mpr h1
  have hm : sample.mass0 ≠ 0 := by norm_num [sample]
  have hs : sample.state > 0 := by decide
  simp [pySetRigidity0, pySetP0c, hs, pyUpdateRefs, csqrt_eq h1.le, cdiv_eq hr.ne', cdiv_eq hm]

/-- **C13, constructor (partial).**  `Particles(rigidity0=r)` and reading it gives `r` for
a positive reference charge. -/
theorem C13_rigidity_constructor_partial {p : Part} (hm : 0 < p.mass0) (hq : 0 < p.q0)
    {r : ℝ} (hr : 0 < r) :
    ∃ q, pyUpdateRefs p (.rigidity0 r) = some q ∧ RefOk q ∧ pyGetRigidity0 q = some r := by
  obtain ⟨q, h1, h2, h3, h4⟩ := C08_reference hm (.rigidity0 r) ⟨hr, hq.ne'⟩
  refine ⟨q, h1, h2, ?_⟩
  have hc := clight_pos.ne'
  have hq' : q.q0 = p.q0 := h4.q0
  have h3 : q.p0c = r * |q.q0| * clight := h3
  have hqq : q.q0 ≠ 0 := by rw [hq']; exact hq.ne'
  simp only [pyGetRigidity0, Option.bind_eq_bind, cdiv_eq hc, Option.bind_some, cdiv_eq hqq]
  rw [h3, hq', abs_of_pos hq]
  have := hq.ne'
  congr 1; field_simp

/-- **C13 violated.**  For a negative reference charge the constructor and the getter use
opposite signs: the rigidity read back is minus the one given. -/
theorem C13_rigidity_violated {p : Part} (hm : 0 < p.mass0) (hq : p.q0 < 0) {r : ℝ} (hr : 0 < r) :
    ∃ q, pyUpdateRefs p (.rigidity0 r) = some q ∧ pyGetRigidity0 q = some (-r) := by
  obtain ⟨q, h1, h2, h3, h4⟩ := C08_reference hm (.rigidity0 r) ⟨hr, hq.ne⟩
  refine ⟨q, h1, ?_⟩
  have hc := clight_pos.ne'
  have hq' : q.q0 = p.q0 := h4.q0
  have h3 : q.p0c = r * |q.q0| * clight := h3
  have hqq : q.q0 ≠ 0 := by rw [hq']; exact hq.ne
  simp only [pyGetRigidity0, Option.bind_eq_bind, cdiv_eq hc, Option.bind_some, cdiv_eq hqq]
  rw [h3, hq', abs_of_neg hq]
  have := hq.ne
  congr 1; field_simp

/-- **C13 violated, setter.**  Assigning a positive rigidity with a negative reference
charge makes the reference momentum negative. -/
theorem C13_setter_negative_momentum {p : Part} (hs : p.state > 0) (hq : p.q0 < 0) {r : ℝ}
    (hr : 0 < r) {q : Part} (h : pySetRigidity0 p r = some q) : q.p0c < 0 := by
  have h1 : 0 ≤ (r * clight * p.q0) ^ 2 + p.mass0 ^ 2 := by positivity
  simp only [pySetRigidity0, pySetP0c, hs, if_true, pyUpdateRefs, Option.bind_eq_bind,
    csqrt_eq h1, Option.bind_some] at h
  unfold cdiv at h
  split_ifs at h
  all_goals cases h
  show r * clight * p.q0 < 0
  exact mul_neg_of_pos_of_neg (mul_pos hr clight_pos) hq

example : ∃ p : Part, 0 < p.mass0 ∧ p.q0 < 0 ∧ p.state > 0 :=
  ⟨{ sample with q0 := -1 }, by norm_num [sample], by norm_num, by decide⟩

/-! ## C14 -/

theorem exact_momenta {p : Part} (hr : p.rpp = 1 / (1 + p.delta)) (hd : 0 < 1 + p.delta)
    (xp yp : ℝ) :
    ∃ q r, setExactXpYp p xp yp = some q ∧ 0 < r ∧ r ^ 2 = 1 + xp * xp + yp * yp ∧
      q = { p with px := xp * (1 + p.delta) / r, py := yp * (1 + p.delta) / r } := by
  have h1 : 0 < 1 + xp * xp + yp * yp := by nlinarith [mul_self_nonneg xp, mul_self_nonneg yp]
  have hpos := Real.sqrt_pos.mpr h1
  have hsq := Real.sq_sqrt h1.le
  have hc := csqrt_eq h1.le
  generalize Real.sqrt _ = r at hpos hsq hc
  have hne : p.rpp * r ≠ 0 := by rw [hr]; positivity
  refine ⟨_, r, ?_, hpos, hsq, rfl⟩
  simp only [setExactXpYp, Option.bind_eq_bind, hc, Option.bind_some, cdiv_eq hne]
  rw [hr]
  congr 2 <;> field_simp

theorem exact_get {p : Part} (hd : 0 < 1 + p.delta) {xp yp r : ℝ} (hr : 0 < r)
    (h : r ^ 2 = 1 + xp * xp + yp * yp)
    (hx : p.px = xp * (1 + p.delta) / r) (hy : p.py = yp * (1 + p.delta) / r) :
    getExactXp p = some xp ∧ getExactYp p = some yp ∧
      p.px ^ 2 + p.py ^ 2 < (1 + p.delta) ^ 2 := by
  have hz : (1 + p.delta) * (1 + p.delta) - p.px * p.px - p.py * p.py
      = ((1 + p.delta) / r) ^ 2 := by
    have h2 : xp * xp = r ^ 2 - 1 - yp * yp := by linarith
    rw [hx, hy]
    have : xp * (1 + p.delta) / r * (xp * (1 + p.delta) / r)
        = xp * xp * (1 + p.delta) ^ 2 / r ^ 2 := by field_simp
    rw [this, h2]; field_simp; ring
  have hc := csqrt_of_sq (show 0 ≤ (1 + p.delta) / r by positivity) hz
  have hne : (1 + p.delta) / r ≠ 0 := by positivity
  refine ⟨?_, ?_, ?_⟩
  · simp only [getExactXp, Option.bind_eq_bind, hc, Option.bind_some, cdiv_eq hne]
    rw [hx]; congr 1; field_simp
  · simp only [getExactYp, Option.bind_eq_bind, hc, Option.bind_some, cdiv_eq hne]
    rw [hy]; congr 1; field_simp
  · have : 0 < ((1 + p.delta) / r) ^ 2 := by positivity
    rw [← hz] at this
    nlinarith

/-- **C14.**  Setting both exact slopes and reading them gives the same values, and the
momenta are physical. -/
theorem C14_exact_slopes {p : Part} (hr : p.rpp = 1 / (1 + p.delta)) (hd : -1 < p.delta)
    (xp yp : ℝ) :
    ∃ q, setExactXpYp p xp yp = some q ∧ getExactXp q = some xp ∧ getExactYp q = some yp ∧
      q.px ^ 2 + q.py ^ 2 < (1 + q.delta) ^ 2 ∧
      q = { p with px := q.px, py := q.py } := by
  have hd' : 0 < 1 + p.delta := by linarith
  obtain ⟨q, r, h1, h2, h3, rfl⟩ := exact_momenta hr hd' xp yp
  have := exact_get (p := { p with px := xp * (1 + p.delta) / r, py := yp * (1 + p.delta) / r })
    hd' h2 h3 rfl rfl
  exact ⟨_, h1, this.1, this.2.1, this.2.2, rfl⟩

/-- **C14.**  Adding to (scaling) both exact slopes of a physical particle does exactly
that. -/
theorem C14_exact_slopes_add_scale {p : Part} (hr : p.rpp = 1 / (1 + p.delta)) (hd : -1 < p.delta)
    {xp yp : ℝ} (hx : getExactXp p = some xp) (hy : getExactYp p = some yp) (a b : ℝ) :
    (∃ q, addToExactXpYp p a b = some q ∧ getExactXp q = some (xp + a) ∧
      getExactYp q = some (yp + b)) ∧
    (∃ q, scaleExactXpYp p a b = some q ∧ getExactXp q = some (xp * a) ∧
      getExactYp q = some (yp * b)) := by
  refine ⟨?_, ?_⟩
  · obtain ⟨q, h1, h2, h3, _⟩ := C14_exact_slopes hr hd (xp + a) (yp + b)
    exact ⟨q, by simp [addToExactXpYp, hx, hy, h1], h2, h3⟩
  · obtain ⟨q, h1, h2, h3, _⟩ := C14_exact_slopes hr hd (xp * a) (yp * b)
    exact ⟨q, by simp [scaleExactXpYp, hx, hy, h1], h2, h3⟩

/-- A particle whose exact slopes exist. -/
example : ∃ p : Part, p.rpp = 1 / (1 + p.delta) ∧ -1 < p.delta ∧ getExactXp p = some 1 := by
  obtain ⟨q, h1, h2, _, _, h5⟩ := C14_exact_slopes (p := sample) (by norm_num [sample])
    (by norm_num [sample]) 1 2
  refine ⟨q, ?_, ?_, h2⟩ <;> rw [h5] <;> norm_num [sample]

/-- The single-slope setter does not have the property: with `py ≠ 0` the slope cannot
even be read back (the momenta are unphysical). -/
theorem C14_single_slope_violated :
    ∃ p q : Part, p.rpp = 1 / (1 + p.delta) ∧ -1 < p.delta ∧ (getExactXp p).isSome ∧
      setExactXp p 3 = some q ∧ getExactXp q = none := by
  set p : Part := { sample with delta := 0, rpp := 1, px := 0, py := 3 / 5 } with hp
  have h1 : csqrt ((1 + p.delta) * (1 + p.delta) - p.px * p.px - p.py * p.py) = some (4 / 5) :=
    csqrt_of_sq (by norm_num) (by norm_num [hp])
  have h2 : getExactYp p = some (3 / 4) := by
    simp only [getExactYp, Option.bind_eq_bind, h1, Option.bind_some,
      cdiv_eq (show (4 / 5 : ℝ) ≠ 0 by norm_num)]
    norm_num [hp]
  have h3 : csqrt (1 + 3 * 3 + (3 / 4 : ℝ) * (3 / 4)) = some (13 / 4) :=
    csqrt_of_sq (by norm_num) (by norm_num)
  have h4 : setExactXp p 3 = some { p with px := 12 / 13 } := by
    have h5 : p.rpp * (13 / 4) ≠ 0 := by norm_num [hp]
    simp only [setExactXp, Option.bind_eq_bind, h2, Option.bind_some, h3, cdiv_eq h5]
    norm_num [hp]
  refine ⟨p, { p with px := 12 / 13 }, by norm_num [hp], by norm_num [hp], ?_, h4, ?_⟩
  · simp only [getExactXp, Option.bind_eq_bind, h1, Option.bind_some,
      cdiv_eq (show (4 / 5 : ℝ) ≠ 0 by norm_num)]
    rfl
  · simp only [getExactXp, Option.bind_eq_bind, csqrt]
    rw [if_neg (by norm_num [hp])]
    rfl

end

end Verif.Energy
