import Verif.Thin.Lenses
import Verif.Rf.Props

/-!
# Thin elements: where C82 to C88 fail, and cases which meet the hypotheses of the theorems
-/

namespace Verif.Thin

open Frames hiding curvature
open Symplectic Magnets Filter Topology
open Rf (Ctx clight protons)

noncomputable section

/-! ### C82 -/

/-- C82: the time of flight in a thin bend scales with `chi`, the curvature of the reference does not: for particles with `chi ≠ 1` a thin
bend is not symplectic. -/
theorem C82_bend_violated {knl0 hxl length : ℝ} (hh : hxl ≠ 0) {p : Part} (k : p.Kin) (hchi : p.chi ≠ 1) :
    ¬SymplecticAt (fun q => thinBend knl0 hxl length false q) p := by
  intro h
  have hb := k.beta0.ne'
  have fine := fine_coords k
  obtain ⟨M, hM, o⟩ := Canonical.lines h
  have e : ∀ z : Z, coords (thinBend knl0 hxl length false (place p z)) = ![z 0,
      z 1 + (-p.chi * knl0 + (hxl + hxl * (opdOf p.beta0 (z 5) - 1)) - if length ≠ 0 then p.chi * knl0 * (z 0 * hxl) / length else 0),
      z 2, z 3, z 4 + 1 / (opdOf p.beta0 (z 5) / (1 + p.beta0 ^ 2 * z 5)) * p.chi * (-(z 0 * hxl)), z 5] := by
    intro z
    ext i
    fin_cases i <;> simp [thinBend, Cleanup.simpleBend, coords, place, hh, hb]
  simp only [e] at hM
  have l := fun v => line (coords p) v
  have dO : HasDerivAt (fun t : ℝ => opdOf p.beta0 (coords p 5 + t * dir 5 5))
      ((1 + p.beta0 ^ 2 * coords p 5) / opdOf p.beta0 (coords p 5)) 0 := by
    refine (hasDerivAt_opdOf (b := p.beta0) (l (dir 5) 5) (by simpa [radOf] using fine.rad)).congr_deriv ?_
    simp [dir]
  have m00 : M (dir 0) 0 = 1 := hM _ _ _ (by simpa [dir] using l (dir 0) 0)
  have m02 : M (dir 0) 2 = 0 := hM _ _ _ (by simpa [dir] using l (dir 0) 2)
  have m03 : M (dir 0) 3 = 0 := hM _ _ _ (by simpa [dir] using l (dir 0) 3)
  have m05 : M (dir 0) 5 = 0 := hM _ _ _ (by simpa [dir] using l (dir 0) 5)
  have m04 : M (dir 0) 4 = 1 / (opdOf p.beta0 (coords p 5) / (1 + p.beta0 ^ 2 * coords p 5)) * p.chi * (-hxl) := hM _ _ _ (by
    have := ((((l (dir 0) 0).mul_const hxl).fun_neg).const_mul
      (1 / (opdOf p.beta0 (coords p 5) / (1 + p.beta0 ^ 2 * coords p 5)) * p.chi)).const_add (coords p 4)
    simpa [dir] using this)
  have m50 : M (dir 5) 0 = 0 := hM _ _ _ (by simpa [dir] using l (dir 5) 0)
  have m55 : M (dir 5) 5 = 1 := hM _ _ _ (by simpa [dir] using l (dir 5) 5)
  have m51 : M (dir 5) 1 = hxl * ((1 + p.beta0 ^ 2 * coords p 5) / opdOf p.beta0 (coords p 5)) := hM _ _ _ (by
    have := (((((dO.sub_const 1).const_mul hxl).const_add hxl).const_add (-p.chi * knl0)).sub_const
      (if length ≠ 0 then p.chi * knl0 * (coords p 0 * hxl) / length else 0)).const_add (coords p 1)
    simpa [dir] using this)
  have key := o (dir 0) (dir 5)
  have zero : omega (dir 0) (dir 5) = 0 := by simp [omega, dir]
  have hE := fine.energy
  have hO := opdOf_pos fine.rad
  rw [zero] at key
  simp only [omega, m00, m02, m03, m04, m05, m50, m51, m55] at key
  have : hxl * ((1 + p.beta0 ^ 2 * coords p 5) / opdOf p.beta0 (coords p 5)) * (1 - p.chi) = 0 := by
    rw [one_div_div] at key
    linear_combination key
  rcases mul_eq_zero.1 this with h1 | h1
  · exact absurd h1 (mul_ne_zero hh (div_pos hE hO).ne')
  · exact hchi (by linarith)

/-- C82: the kick of an electron lens depends on the momentum of the particle and there is no change of `zeta` to go with it: it is not
symplectic, wherever there is a force. -/
theorem C82_elens_violated {e : Elens} {c : Ctx} {p : Part} (k : p.Kin) (hv : 0 < e.voltage) (hr : e.innerRadius < Real.sqrt (p.x ^ 2 + p.y ^ 2))
    (h0 : 0 ≤ e.innerRadius) (hx : p.x ≠ 0) (hf : e.frr (Real.sqrt (p.x ^ 2 + p.y ^ 2)) ≠ 0) (hi : e.current ≠ 0) (hl : e.length ≠ 0)
    (ho : e.outerRadius ≠ 0) (hq : c.q0 ≠ 0) (hp : c.p0c ≠ 0) (hchi : p.chi ≠ 0) : ¬SymplecticAt (fun q => e.track c false q) p := by
  intro h
  have hb := k.beta0.ne'
  have fine := fine_coords k
  have hE := fine.energy
  have hO := opdOf_pos fine.rad
  have hBe := betaE_pos e hv
  obtain ⟨M, hM, o⟩ := Canonical.lines h
  have l := fun v => line (coords p) v
  -- the coordinates other than the momenta do not change
  have same : ∀ z : Z, (coords (e.track c false (place p z))) 0 = z 0 ∧ (coords (e.track c false (place p z))) 2 = z 2
      ∧ (coords (e.track c false (place p z))) 4 = z 4 ∧ (coords (e.track c false (place p z))) 5 = z 5 := by
    intro z
    simp only [Elens.track]
    by_cases hr : Real.sqrt ((place p z).x * (place p z).x + (place p z).y * (place p z).y) > e.innerRadius
    · simp only [if_pos hr]
      simp [coords, place, hb]
    · simp only [if_neg hr]
      simp [coords, place, hb]
  have m : ∀ v, M v 0 = v 0 ∧ M v 2 = v 2 ∧ M v 4 = v 4 ∧ M v 5 = v 5 := fun v =>
    ⟨hM _ _ _ (by simpa [(same _).1] using l v 0), hM _ _ _ (by simpa [(same _).2.1] using l v 2),
      hM _ _ _ (by simpa [(same _).2.2.1] using l v 4), hM _ _ _ (by simpa [(same _).2.2.2] using l v 5)⟩
  -- the factor in front of the terms which depend on the momentum
  let R := Real.sqrt (p.x ^ 2 + p.y ^ 2)
  have hR : R ≠ 0 := (h0.trans_lt hr).ne'
  let K := -1 * e.frr R * (1 / (4 * Real.pi * epsilon0) * (2 * e.length * e.current) / (e.outerRadius * (c.p0c / (c.q0 * clight)))
    / (clight * clight)) * (e.outerRadius / R) * (1 / p.chi) * p.x / R
  have hK : K ≠ 0 := by
    have h1 : epsilon0 ≠ 0 := by norm_num [epsilon0]
    have h2 : clight ≠ 0 := by norm_num [clight]
    have := Real.pi_ne_zero
    have h3 : e.frr R ≠ 0 := hf
    simp only [K]
    positivity
  have kick : ∀ t : ℝ, 0 < opdOf p.beta0 (coords p 5 + t) → 0 < 1 + p.beta0 ^ 2 * (coords p 5 + t) →
      (coords (e.track c false (place p (coords p + t • dir 5)))) 1 = coords p 1
        + K * ((1 + p.beta0 ^ 2 * (coords p 5 + t)) / (e.betaE * p.beta0) + opdOf p.beta0 (coords p 5 + t)) := by
    intro t ht hs
    have z0 : (coords p + t • dir 5) 0 = p.x := by simp [dir, coords]
    have z1 : (coords p + t • dir 5) 1 = coords p 1 := by simp [dir]
    have z2 : (coords p + t • dir 5) 2 = p.y := by simp [dir, coords]
    have z5 : (coords p + t • dir 5) 5 = coords p 5 + t := by simp [dir]
    have hrad : Real.sqrt (p.x ^ 2 + p.y ^ 2) > e.innerRadius := hr
    simp only [Elens.track, place, z0, z1, z2, z5, ← pow_two, Bool.false_eq_true, if_false]
    rw [if_pos hrad]
    show coords p 1 + _ = _
    have r0 : Real.sqrt (p.x ^ 2 + p.y ^ 2) = R := rfl
    simp only [r0, K, Elens.thetaMax]
    have h2 : clight ≠ 0 := by norm_num [clight]
    have hpi := Real.pi_ne_zero
    generalize opdOf p.beta0 (coords p 5 + t) = O at *
    generalize coords p 5 + t = Z at *
    have hs' := hs.ne'
    have ht' := ht.ne'
    have hBe' := hBe.ne'
    generalize e.betaE = E at *
    generalize e.frr R = F
    have h1 : epsilon0 ≠ 0 := by norm_num [epsilon0]
    generalize epsilon0 = E0 at *
    generalize clight = C at *
    congr 1
    field_simp
  have dO : HasDerivAt (fun t : ℝ => opdOf p.beta0 (coords p 5 + t)) ((1 + p.beta0 ^ 2 * coords p 5) / opdOf p.beta0 (coords p 5)) 0 := by
    have := hasDerivAt_opdOf (b := p.beta0) (l (dir 5) 5) (by simpa [radOf] using fine.rad)
    simpa [dir] using this
  have dE : HasDerivAt (fun t : ℝ => 1 + p.beta0 ^ 2 * (coords p 5 + t)) (p.beta0 ^ 2) 0 := by
    simpa using (((hasDerivAt_id' (0 : ℝ)).const_add (coords p 5)).const_mul (p.beta0 ^ 2)).const_add 1
  have m51 : M (dir 5) 1 = K * (p.beta0 ^ 2 / (e.betaE * p.beta0) + (1 + p.beta0 ^ 2 * coords p 5) / opdOf p.beta0 (coords p 5)) := by
    refine hM _ _ _ ?_
    refine HasDerivAt.congr_of_eventuallyEq (f := fun t : ℝ => coords p 1
      + K * ((1 + p.beta0 ^ 2 * (coords p 5 + t)) / (e.betaE * p.beta0) + opdOf p.beta0 (coords p 5 + t))) ?_ ?_
    · exact (((dE.div_const _).fun_add dO).const_mul K).const_add _
    · have n1 : ∀ᶠ t : ℝ in 𝓝 0, 0 < opdOf p.beta0 (coords p 5 + t) :=
        dO.continuousAt.eventually (lt_mem_nhds (by simpa using hO))
      have n2 : ∀ᶠ t : ℝ in 𝓝 0, 0 < 1 + p.beta0 ^ 2 * (coords p 5 + t) :=
        dE.continuousAt.eventually (lt_mem_nhds (by simpa using hE))
      filter_upwards [n1, n2] with t h1 h2
      exact kick t h1 h2
  have key := o (dir 0) (dir 5)
  have zero : omega (dir 0) (dir 5) = 0 := by simp [omega, dir]
  rw [zero] at key
  obtain ⟨a0, a2, a4, a5⟩ := m (dir 0)
  obtain ⟨b0, b2, b4, b5⟩ := m (dir 5)
  have d0 : dir 0 0 = 1 ∧ dir 0 2 = 0 ∧ dir 0 4 = 0 ∧ dir 0 5 = 0 ∧ dir 5 0 = 0 ∧ dir 5 2 = 0 := by simp [dir]
  simp only [omega, a0, a2, a4, a5, b0, b2, m51, d0] at key
  have : K * (p.beta0 ^ 2 / (e.betaE * p.beta0) + (1 + p.beta0 ^ 2 * coords p 5) / opdOf p.beta0 (coords p 5)) = 0 := by
    linear_combination key
  have pos : 0 < p.beta0 ^ 2 / (e.betaE * p.beta0) + (1 + p.beta0 ^ 2 * coords p 5) / opdOf p.beta0 (coords p 5) := by
    have := k.beta0
    positivity
  exact (mul_ne_zero hK pos.ne') this

/-! ### C83 -/

/-- C83: the entries of `ramp` are 32-bit numbers but 16-bit numbers when the ramp is evaluated.  With the ramp `[0, 1000, 70000, 71000]`
the envelope in turn 10000 is 1, and the dipole does nothing. -/
theorem C83_ramp_violated (volt freq lag : ℝ) (plane : ℕ) (c : Ctx) (p : Part) (ht : c.atTurn = 10000) :
    trapezoid 0 1000 70000 71000 c.atTurn = 1
      ∧ (AcDipole.mk volt freq lag 0 1000 70000 71000 plane 0 0).track c p = p := by
  constructor
  · rw [ht]
    norm_num [trapezoid]
  · simp only [AcDipole.track, rampedAc, u16, vrfScaled, ht, if_true]
    norm_num

/-- C83: the documentation gives `lag` in radians; the code takes it as a number of periods. -/
theorem C83_lag_violated (volt : ℝ) (hv : volt ≠ 0) (c : Ctx) (hc : c.p0c ≠ 0) (p : Part) (ht : c.atTurn = 10) :
    let a := AcDipole.mk volt 0 (1 / 2) 0 1 20 21 1 0 0
    let kick := 0.3 * a.volt / (c.p0c / 10 ^ 9) * trapezoid a.ramp1 a.ramp2 a.ramp3 a.ramp4 c.atTurn
      * Real.sin (2 * Real.pi * (a.freq * c.atTurn) + a.lag)
    a.track c p = p ∧ a.track c p ≠ { p with px := p.px + kick } := by
  intro a kick
  have e : a.track c p = p := by
    have := (C83_kick_partial a c p rfl (by simp [a]) (by simp [a]) (by simp [a]) (by simp [a])).2.1 rfl
    rw [this]
    have : 2 * Real.pi * (a.freq * c.atTurn + a.lag) = Real.pi := by simp only [a]; ring
    rw [this, Real.sin_pi]
    simp
  refine ⟨e, ?_⟩
  rw [e]
  intro h
  have h1 := congrArg Part.px h
  simp only [kick] at h1
  have t1 : trapezoid a.ramp1 a.ramp2 a.ramp3 a.ramp4 c.atTurn = 1 := by
    rw [ht]
    norm_num [trapezoid, a]
  have s1 : 2 * Real.pi * (a.freq * c.atTurn) + a.lag = 1 / 2 := by simp [a]
  rw [t1, s1] at h1
  have hs : Real.sin (1 / 2) ≠ 0 := (Real.sin_pos_of_pos_of_lt_pi (by norm_num) (by linarith [Real.pi_gt_three])).ne'
  have : 0.3 * a.volt / (c.p0c / 10 ^ 9) * 1 * Real.sin (1 / 2) ≠ 0 := by
    have : a.volt ≠ 0 := hv
    positivity
  exact this (by simpa using h1)

/-- C83: the documentation says that the gradient is zero when no natural tune is given; it is a division by zero. -/
theorem C83_natural_violated (freq beta : ℝ) (hb : beta ≠ 0) : (AcTwiss.new (some freq) (some beta) none).grad = none := by
  simp [AcTwiss.new, effGrad, hb]

/-! ### C84 -/

/-- C84: a particle which arrives less than a sample before the excitation begins gets the kick of the first sample. -/
theorem C84_early_violated (e : Exciter) (ho : 0 ≤ e.order) (hf : 0 < e.samplingFrequency) (hd : 0 < e.nduration) (c : Ctx) (p : Part)
    (h1 : -1 / e.samplingFrequency < sinceStart e c p) (h2 : sinceStart e c p < 0) :
    let b := (e.samples 0 : ℂ) * field e.knl e.ksl e.order.toNat p.x p.y
    e.track c false p = { p with px := p.px - p.chi * b.re, py := p.py + p.chi * b.im } := by
  have hw : e.phase c p = e.samplingFrequency * sinceStart e c p := by
    unfold Exciter.phase sinceStart
    rw [div_div]
  have l1 : -1 < e.phase c p := by
    rw [hw]
    rw [div_lt_iff₀ hf] at h1
    linarith
  have l2 : e.phase c p < 0 := by
    rw [hw]
    exact mul_neg_of_pos_of_neg hf h2
  have ht : trunc (e.phase c p) = 0 := by
    rw [trunc, if_neg (by linarith), Int.ceil_eq_iff]
    constructor <;> push_cast <;> linarith
  have hs : e.strength (trunc (e.phase c p)) = e.samples 0 := by
    unfold Exciter.strength
    rw [ht, if_pos ⟨le_rfl, hd⟩]
    split_ifs <;> simp
  intro b
  rw [exciter_track, hs, (exciter_sum e ho _ _ _).1, (exciter_sum e ho _ _ _).2]
  simp only [b, Complex.re_ofReal_mul, Complex.im_ofReal_mul, Bool.false_eq_true, if_false]
  congr 1 <;> ring

/-! ### C85 -/

/-- C85: the kick of a wire does not scale with the charge of the particle: it is the same for every `chi`. -/
theorem C85_chi_violated (w : Wire) (c : Ctx) (p : Part) (hchi : p.chi ≠ 1) (hx : p.x ≠ w.xma) (hw : 0 < w.lPhy) (hi : 0 < w.lInt)
    (hI : w.current ≠ 0) (hq : c.q0 ≠ 0) (hp : c.p0c ≠ 0) :
    let r := Real.sqrt ((p.x - w.xma) ^ 2 + (p.y - w.yma) ^ 2)
    let kick := p.chi * (c.q0 / (c.p0c / clight)) * wireIntegral mu0 w.current w.lPhy w.lInt r
    w.track c p ≠ { p with px := p.px - kick * ((p.x - w.xma) / r) - w.postPx, py := p.py - kick * ((p.y - w.yma) / r) - w.postPy } := by
  intro r kick h
  have one := C85_wire_partial w c { p with chi := 1 } (Or.inl hx) rfl
  have hd : p.x - w.xma ≠ 0 := sub_ne_zero.2 hx
  have pos : 0 < (p.x - w.xma) ^ 2 + (p.y - w.yma) ^ 2 := by positivity
  have hr : 0 < r := Real.sqrt_pos.2 pos
  have e1 : (w.track c p).px = (w.track c { p with chi := 1 }).px := rfl
  rw [h, one] at e1
  simp only [one_mul] at e1
  have r1 : Real.sqrt ((p.x - w.xma) ^ 2 + (p.y - w.yma) ^ 2) = r := rfl
  rw [r1] at e1
  have hint : wireIntegral mu0 w.current w.lPhy w.lInt r ≠ 0 := by
    rw [wireIntegral_eq _ _ _ _ hr]
    have hpi := Real.pi_ne_zero
    have h1 : mu0 ≠ 0 := by
      unfold mu0
      positivity
    have h2 : Real.sqrt ((w.lInt - w.lPhy) ^ 2 + 4 * r ^ 2) < Real.sqrt ((w.lInt + w.lPhy) ^ 2 + 4 * r ^ 2) :=
      Real.sqrt_lt_sqrt (by positivity) (by nlinarith [mul_pos hw hi])
    have h3 := (sub_pos.2 h2).ne'
    have := hr.ne'
    exact mul_ne_zero (by positivity) (div_ne_zero h3 this)
  have hcl : clight ≠ 0 := by norm_num [clight]
  have hk : c.q0 / (c.p0c / clight) * wireIntegral mu0 w.current w.lPhy w.lInt r * ((p.x - w.xma) / r) ≠ 0 := by
    have := hr.ne'
    exact mul_ne_zero (mul_ne_zero (by positivity) hint) (div_ne_zero hd this)
  apply hk
  have e2 : (p.chi - 1) * (c.q0 / (c.p0c / clight) * wireIntegral mu0 w.current w.lPhy w.lInt r * ((p.x - w.xma) / r)) = 0 := by
    simp only [kick] at e1
    linear_combination -e1
  exact (mul_eq_zero.1 e2).resolve_left (sub_ne_zero.2 hchi)

/-! ### C86 -/

/-- C86: backtracking adds the residual kick of an electron lens once more. -/
theorem C86_residual_violated (e : Elens) (c : Ctx) (p : Part) (hr : Real.sqrt (p.x ^ 2 + p.y ^ 2) ≤ e.innerRadius) (h : e.residualX ≠ 0) :
    e.track c true (e.track c false p) ≠ p := by
  unfold Elens.track
  simp only [← pow_two, if_neg (not_lt.2 hr)]
  intro h1
  have h2 := congrArg Part.px h1
  simp only at h2
  exact h (by linarith)

/-! ### C88 -/

/-- C88: the kick of an electron lens is divided by `rpp * chi` instead of being multiplied by `chi`: for particles with
`rpp * chi² ≠ 1`, for instance with twice the charge of the reference or with a momentum deviation, it is not the one of the force. -/
theorem C88_charge_violated (e : Elens) (c : Ctx) (p : Part) (ho : e.order = 0) (h1 : 0 ≤ e.innerRadius) (h : e.innerRadius < e.outerRadius)
    (hv : 0 < e.voltage) (hb : 0 < p.rvv * p.beta0) (hx : p.x ≠ 0) (hr : e.innerRadius < Real.sqrt (p.x ^ 2 + p.y ^ 2))
    (hI : e.current ≠ 0) (hl : e.length ≠ 0) (hq : c.q0 ≠ 0) (hp : c.p0c ≠ 0) (hchi : p.chi ≠ 0) (hrpp : p.rpp ≠ 0)
    (off : p.rpp * p.chi ^ 2 ≠ 1) :
    let r := Real.sqrt (p.x ^ 2 + p.y ^ 2)
    let betaP := p.rvv * p.beta0
    let i := enclosed e.current e.innerRadius e.outerRadius r
    let kick := p.chi * lensForce epsilon0 clight i e.betaE betaP r * (e.length / (betaP * clight)) / (c.p0c / (c.q0 * clight))
    e.track c false p ≠ { p with px := p.px - kick * (p.x / r), py := p.py - kick * (p.y / r) } := by
  intro r betaP i kick heq
  have one := (C88_elens_partial e c { p with chi := 1, rpp := 1 } ho h1 h hv hb rfl rfl).1 hr
  have r0 : Real.sqrt (p.x ^ 2 + p.y ^ 2) = r := rfl
  have hr0 : 0 < r := h1.trans_lt hr
  have cl : clight ≠ 0 := by norm_num [clight]
  have ce : 0 < epsilon0 := by norm_num [epsilon0]
  have hE := betaE_pos e hv
  -- the force is not zero
  have hi : i ≠ 0 := by
    simp only [i]
    rw [enclosed_eq _ h1 h]
    have a1 : e.innerRadius < max e.innerRadius (min r e.outerRadius) := lt_max_of_lt_right (lt_min hr h)
    refine div_ne_zero (mul_ne_zero hI ?_) ?_ <;> nlinarith
  have hforce : lensForce epsilon0 clight i e.betaE betaP r ≠ 0 := by
    have : lensForce epsilon0 clight i e.betaE betaP r
        = i * ((1 / (e.betaE * clight) + betaP / clight) / (2 * Real.pi * epsilon0 * r)) := by
      unfold lensForce
      have := hE.ne'
      have hpi := Real.pi_ne_zero
      have := ce.ne'
      have := hr0.ne'
      field_simp
    rw [this]
    have hc : 0 < clight := by norm_num [clight]
    have : 0 < betaP := hb
    exact mul_ne_zero hi (by positivity)
  -- the kick scales as `1 / (rpp * chi)`
  have sc : (e.track c false p).px - p.px
      = ((e.track c false { p with chi := 1, rpp := 1 }).px - p.px) * (1 / (p.rpp * p.chi)) := by
    simp only [Elens.track, ← pow_two, if_pos (show Real.sqrt (p.x ^ 2 + p.y ^ 2) > e.innerRadius from hr), Elens.thetaMax]
    ring
  rw [heq, one] at sc
  simp only [one_mul, r0] at sc
  let K := lensForce epsilon0 clight i e.betaE betaP r * (e.length / (betaP * clight)) / (c.p0c / (c.q0 * clight)) * (p.x / r)
  have hK : K ≠ 0 := by
    have hb' : betaP ≠ 0 := hb.ne'
    have := hr0.ne'
    exact mul_ne_zero (div_ne_zero (mul_ne_zero hforce (by positivity)) (by positivity)) (by positivity)
  have e1 : p.chi * K = K * (1 / (p.rpp * p.chi)) := by
    simp only [K]
    simp only [kick] at sc
    have s2 : lensForce epsilon0 clight (enclosed e.current e.innerRadius e.outerRadius r) e.betaE (p.rvv * p.beta0) r
      = lensForce epsilon0 clight i e.betaE betaP r := rfl
    rw [s2] at sc
    linear_combination -sc
  apply off
  have e2 : p.chi = 1 / (p.rpp * p.chi) := mul_right_cancel₀ hK (by linarith)
  rw [eq_div_iff (mul_ne_zero hrpp hchi)] at e2
  linarith

/-! ### Cases which meet the hypotheses -/

/-- A hollow beam of electrons. -/
def hollow : Elens := ⟨5, 1e-3, 2e-3, 3, 1e4, 1e-9, 0, 0, fun _ => 0⟩

/-- An excitation with a dipole and a quadrupole, three samples and a duration of two waveforms. -/
def shaker : Exciter := ⟨1, 3, 1e6, 1e5, 0, 6, fun k => k + 1, fun _ => 0, fun n => n + 1⟩

/-- A wire. -/
def bbcw : Wire := ⟨1, 2, 350, 1e-2, 0, 0, 0⟩

/-- The hypotheses of C82, for every kind of element. -/
example : onAxis.Kin ∧ (Element.bend 1 1 1).Runs protons onAxis ∧ (Element.quadrupole 1).Runs protons onAxis
    ∧ (Element.timeDelay 1).Runs protons onAxis ∧ (Element.wire bbcw).Runs protons onAxis
    ∧ (Element.acDipole (AcDipole.mk 1 0.3 0 0 1 20 21 1 0 0)).Runs protons onAxis
    ∧ (Element.exciter shaker).Runs protons { onAxis with zeta := -100 }
    ∧ (Element.nonlinearLens 1 1).Runs protons { onAxis with y := 1 } := by
  refine ⟨?_, Or.inr rfl, trivial, trivial, Or.inl ?_, trivial, ⟨by norm_num [shaker], fun n h => ?_⟩, ?_⟩
  · constructor <;> norm_num [onAxis]
  · norm_num [onAxis, bbcw]
  · norm_num [Exciter.phase, shaker, protons, onAxis, clight] at h
    have h1 : (1000000 : ℝ) * (3 / 100000 + 100 / 299792458) = n := by linarith
    have h2 : (30 : ℝ) < n := by rw [← h1]; norm_num
    have h3 : (n : ℝ) < 31 := by rw [← h1]; norm_num
    have h4 : (30 : ℤ) < n := by exact_mod_cast h2
    have h5 : n < (31 : ℤ) := by exact_mod_cast h3
    omega
  · norm_num [Element.Runs]

/-- The hypotheses of `C82_bend_violated` and `C82_elens_violated`. -/
example : Part.Kin { onAxis with chi := 2 } ∧ ({ onAxis with chi := 2 } : Part).chi ≠ 1
    ∧ (0 < hollow.voltage ∧ hollow.innerRadius < Real.sqrt ((3e-3 : ℝ) ^ 2 + 0 ^ 2) ∧ 0 ≤ hollow.innerRadius
      ∧ hollow.frr (Real.sqrt ((3e-3 : ℝ) ^ 2 + 0 ^ 2)) ≠ 0 ∧ hollow.current ≠ 0 ∧ hollow.length ≠ 0 ∧ hollow.outerRadius ≠ 0) := by
  have e : Real.sqrt ((3e-3 : ℝ) ^ 2 + 0 ^ 2) = 3e-3 := by
    rw [show (3e-3 : ℝ) ^ 2 + 0 ^ 2 = 3e-3 ^ 2 by norm_num, Real.sqrt_sq (by norm_num)]
  rw [e]
  refine ⟨?_, by norm_num, ?_⟩
  · constructor <;> norm_num [onAxis]
  · norm_num [hollow, Elens.frr]

/-- C83: halfway up the ramp, a quarter of a period. -/
example (p : Part) : (AcDipole.mk 2 (1 / 4) 0 0 10 20 30 1 0 0).track { protons with atTurn := 5 } p = { p with px := p.px + 0.3 } := by
  have h := (C83_kick_partial (AcDipole.mk 2 (1 / 4) 0 0 10 20 30 1 0 0) { protons with atTurn := 5 } p rfl (by simp) (by simp) (by simp)
    (by simp)).2.1 rfl
  rw [h]
  have e : 2 * Real.pi * (1 / 4 * 5 + 0) = Real.pi / 2 + 2 * Real.pi := by ring
  simp only [e, Real.sin_add_two_pi, Real.sin_pi_div_two, protons]
  norm_num [trapezoid]

/-- C83: the natural tune 1/4. -/
example : Real.sin (2 * Real.pi * ((AcTwiss.new (some 0.3) (some 10) none).run [.naturalQ (1 / 4)]).naturalQ) ≠ 0
    ∧ ((AcTwiss.new (some 0.3) (some 10) none).run [.naturalQ (1 / 4)]).beta ≠ 0 := by
  have e : 2 * Real.pi * (1 / 4) = Real.pi / 2 := by ring
  simp [AcTwiss.run, AcTwiss.step, AcTwiss.new]
  simp only [one_div] at e
  rw [e]
  simp

/-- C84: sample 4 of the excitation, which is sample 1 of the waveform. -/
example : ((4 : ℕ) : ℤ) < shaker.nduration
    ∧ (4 : ℕ) / shaker.samplingFrequency ≤ sinceStart shaker { protons with atTurn := 0 } { onAxis with zeta := -1300 }
    ∧ sinceStart shaker { protons with atTurn := 0 } { onAxis with zeta := -1300 } < ((4 : ℕ) + 1) / shaker.samplingFrequency
    ∧ sinceStart shaker { protons with atTurn := 1 } onAxis ≥ shaker.nduration / shaker.samplingFrequency
    ∧ sinceStart shaker { protons with atTurn := -1 } onAxis ≤ -1 / shaker.samplingFrequency
    ∧ (-1 / shaker.samplingFrequency < sinceStart shaker { protons with atTurn := 0 } { onAxis with zeta := 1 }
      ∧ sinceStart shaker { protons with atTurn := 0 } { onAxis with zeta := 1 } < 0) := by
  norm_num [sinceStart, shaker, protons, onAxis, clight]

/-- C85 and its violation. -/
example : bbcw.Off onAxis ∧ onAxis.chi = 1 ∧ onAxis.x ≠ bbcw.xma ∧ 0 < bbcw.lPhy ∧ 0 < bbcw.lInt ∧ bbcw.current ≠ 0 := by
  have : onAxis.x ≠ bbcw.xma := by norm_num [onAxis, bbcw]
  refine ⟨Or.inl this, rfl, this, ?_⟩
  norm_num [bbcw]

/-- C86: within the beam, and a residual kick on the axis. -/
example : hollow.innerRadius < Real.sqrt ((1.5e-3 : ℝ) ^ 2 + 0 ^ 2)
    ∧ Real.sqrt (onAxis.x ^ 2 + onAxis.y ^ 2) ≤ hollow.innerRadius ∧ hollow.residualX ≠ 0 := by
  have e : Real.sqrt ((1.5e-3 : ℝ) ^ 2 + 0 ^ 2) = 1.5e-3 := by
    rw [show (1.5e-3 : ℝ) ^ 2 + 0 ^ 2 = 1.5e-3 ^ 2 by norm_num, Real.sqrt_sq (by norm_num)]
  rw [e]
  norm_num [hollow, onAxis]

/-- C88 and its violation: a particle with twice the charge. -/
example : hollow.order = 0 ∧ 0 ≤ hollow.innerRadius ∧ hollow.innerRadius < hollow.outerRadius ∧ 0 < hollow.voltage
    ∧ 0 < onAxis.rvv * onAxis.beta0 ∧ onAxis.chi = 1 ∧ onAxis.rpp = 1 ∧ onAxis.rpp * ({ onAxis with chi := 2 } : Part).chi ^ 2 ≠ 1 := by
  norm_num [hollow, onAxis]

end

end Verif.Thin
