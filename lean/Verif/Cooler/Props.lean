import Verif.Cooler.Model
import Mathlib.Tactic.FieldSimp
import Mathlib.Tactic.Linarith
import Mathlib.Tactic.NormNum
import Mathlib.Tactic.Positivity
import Mathlib.Tactic.Ring

/-!
# C186: the electron cooler
-/

namespace Verif.Cooler

/-! ## Specification -/

/-- The constants of nature are positive. -/
structure Const.Pos (k : Const) : Prop where
  e : 0 < k.e
  m : 0 < k.m
  c : 0 < k.c
  eps : 0 < k.eps
  pi : 0 < k.pi

/-- A cooler which is switched on. -/
structure Elem.On (w : Elem) : Prop where
  current : 0 < w.current
  length : 0 < w.length
  radius : 0 < w.radius
  tempPerp : 0 ≤ w.tempPerp
  field : 0 < w.field

/-- The numbers of the reference particle belong together. -/
structure Ref.Ok (r : Ref) : Prop where
  p0c : 0 < r.p0c
  beta0 : 0 < r.beta0
  gamma0 : 1 < r.gamma0
  mass0 : 0 < r.mass0
  energy : r.gamma0 ^ 2 = 1 + (r.p0c / r.mass0) ^ 2

/-- Velocity of the particle relative to the electrons next to it, which move along the axis of the
cooler with the speed `ve` and turn round it with the angular frequency `om`. -/
noncomputable def relative (k : Const) (w : Elem) (r : Ref) (om ve : ℝ) (p : Part) : ℝ × ℝ × ℝ :=
  (k.c * ((p.px - w.offPx) * r.p0c / (r.mass0 * gammaOf r p.delta)) + om * (p.y - w.offY),
   k.c * ((p.py - w.offPy) * r.p0c / (r.mass0 * gammaOf r p.delta)) - om * (p.x - w.offX),
   k.c * Real.sqrt (1 - 1 / gammaOf r p.delta ^ 2) - ve)

/-- Inside the beam of electrons. -/
def Inside (w : Elem) (p : Part) : Prop := (p.x - w.offX) ^ 2 + (p.y - w.offY) ^ 2 < w.radius ^ 2

/-! ## Lemmas -/

theorem tau_pos {k : Const} {w : Elem} {r : Ref} (hk : k.Pos) (hw : w.On) (hr : r.Ok) : 0 < tau k w r := by
  have := hk.c; have := hw.length; have := hr.beta0; have := hr.gamma0
  unfold tau
  exact div_pos hw.length (mul_pos (mul_pos hr.beta0 hk.c) (by linarith))

theorem density_pos {k : Const} {w : Elem} {r : Ref} (hk : k.Pos) (hw : w.On) (hr : r.Ok) : 0 < density k w r := by
  have := tau_pos hk hw hr
  exact div_pos (mul_pos (div_pos hw.current hk.e) this) (mul_pos (mul_pos hk.pi (pow_pos hw.radius 2)) hw.length)

theorem diffV_eq (k : Const) (w : Elem) (r : Ref) (p : Part) : diffV k w r p =
    relative k w r (omega k w r) (betaElectron k w r (Real.sqrt ((p.x - w.offX) ^ 2 + (p.y - w.offY) ^ 2)) * k.c) p := by
  have hn : ‖(⟨p.x - w.offX, p.y - w.offY⟩ : ℂ)‖ = Real.sqrt ((p.x - w.offX) ^ 2 + (p.y - w.offY) ^ 2) := by
    rw [Complex.norm_def, Complex.normSq_mk]; congr 1; ring
  have hs : Real.sqrt ((p.x - w.offX) ^ 2 + (p.y - w.offY) ^ 2) * Real.sin (Complex.arg ⟨p.x - w.offX, p.y - w.offY⟩)
      = p.y - w.offY := by
    rw [← hn]; exact Complex.norm_mul_sin_arg _
  have hc : Real.sqrt ((p.x - w.offX) ^ 2 + (p.y - w.offY) ^ 2) * Real.cos (Complex.arg ⟨p.x - w.offX, p.y - w.offY⟩)
      = p.x - w.offX := by
    rw [← hn]; exact Complex.norm_mul_cos_arg _
  simp only [diffV, relative]
  refine Prod.ext ?_ (Prod.ext ?_ ?_)
  · simp only
    linear_combination (omega k w r) * hs
  · simp only
    linear_combination -(omega k w r) * hc
  · simp only
    ring

theorem totalV_pos {k : Const} {w : Elem} {r : Ref} (hk : k.Pos) (ht : 0 < w.tempLong) (d : ℝ × ℝ × ℝ) :
    0 < totalV k w r d := by
  have h1 : 0 < Real.sqrt (k.e * w.tempLong / k.m) := Real.sqrt_pos.mpr (div_pos (mul_pos hk.e ht) hk.m)
  exact Real.sqrt_pos.mpr (by positivity)

theorem coulombLog_pos {k : Const} {w : Elem} {r : Ref} (hk : k.Pos) (hw : w.On) (hr : r.Ok) (hq : 0 < r.q0) {V : ℝ}
    (hV : 0 < V) : ∃ l, coulombLog k w r V = some l ∧ 0 < l := by
  have ht := tau_pos hk hw hr
  have hd := density_pos hk hw hr
  have he := hk.e; have hm := hk.m; have heps := hk.eps; have hpi := hk.pi
  set larmor := k.m * Real.sqrt (k.e * w.tempPerp / k.m) / k.e / w.field with hla
  have hl0 : 0 ≤ larmor := div_nonneg (div_nonneg (mul_nonneg hm.le (Real.sqrt_nonneg _)) he.le) hw.field.le
  set plasma := Real.sqrt (density k w r * k.e ^ 2 / (k.m * k.eps)) with hpl
  have hp0 : 0 < plasma := Real.sqrt_pos.mpr (by positivity)
  set rhoMin := r.q0 * k.e ^ 2 / (4 * k.pi * k.eps * k.m * V ^ 2) with hrm
  have hr0 : 0 < rhoMin := by positivity
  have hmax : 0 < min (V / plasma) (V * tau k w r) := lt_min (by positivity) (by positivity)
  have ha : 1 < (min (V / plasma) (V * tau k w r) + rhoMin + larmor) / (rhoMin + larmor) := by
    rw [lt_div_iff₀ (by linarith)]; linarith
  refine ⟨Real.log ((min (V / plasma) (V * tau k w r) + rhoMin + larmor) / (rhoMin + larmor)), ?_, Real.log_pos ha⟩
  simp only [coulombLog, if_neg hV.ne', ← hla, ← hpl, ← hrm, if_neg hp0.ne', if_neg (show rhoMin + larmor ≠ 0 by linarith)]
  rw [if_neg (by linarith)]

theorem inside_iff {w : Elem} (hw : w.On) (p : Part) :
    Real.sqrt ((p.x - w.offX) ^ 2 + (p.y - w.offY) ^ 2) < w.radius ↔ Inside w p := by
  rw [Real.sqrt_lt' hw.radius, Inside]

/-- C186 (friction): inside the beam of electrons the kick is exactly opposite to the velocity
relative to the electrons there, and it is not zero unless that velocity is. -/
theorem C186_friction_partial (k : Const) (w : Elem) (r : Ref) (p : Part) (hk : k.Pos) (hw : w.On) (hr : r.Ok)
    (ht : 0 < w.tempLong) (hq : 0 < r.q0) (hi : Inside w p) :
    let v := relative k w r (omega k w r) (betaElectron k w r (Real.sqrt ((p.x - w.offX) ^ 2 + (p.y - w.offY) ^ 2)) * k.c) p
    ∃ a, 0 < a ∧ track k w r p =
      some { p with px := p.px - a * v.1, py := p.py - a * v.2.1, delta := p.delta - a * v.2.2 } := by
  intro v
  have hv : v = diffV k w r p := (diffV_eq k w r p).symm
  have hV := totalV_pos (r := r) hk ht (diffV k w r p)
  obtain ⟨l, hl, hl0⟩ := coulombLog_pos hk hw hr hq hV
  have hd := density_pos hk hw hr
  have htau := tau_pos hk hw hr
  have he := hk.e; have hm := hk.m; have heps := hk.eps; have hpi := hk.pi; have hc := hk.c
  have hg : 0 < r.gamma0 := by linarith [hr.gamma0]
  have hp := hr.p0c
  refine ⟨density k w r * r.q0 ^ 2 * k.e ^ 4 / (4 * k.m * (k.pi * k.eps) ^ 2) / totalV k w r (diffV k w r p) ^ 3 * l / k.e * k.c
    * r.gamma0 * tau k w r / r.p0c, by positivity, ?_⟩
  simp only [track, force, if_pos ((inside_iff hw p).2 hi), hl, hv, Option.some.injEq, Part.mk.injEq, true_and, and_true]
  refine ⟨?_, ?_, ?_⟩ <;> ring

/-- C186 (outside): outside the beam of electrons nothing changes. -/
theorem C186_outside (k : Const) (w : Elem) (r : Ref) (p : Part) (hw : w.On) (h : ¬ Inside w p) : track k w r p = some p := by
  simp only [track, force, if_neg (fun hh => h ((inside_iff hw p).1 hh))]
  simp

/-- Speed of the electrons without space charge and offset of the energy. -/
theorem betaElectron_zero {k : Const} {w : Elem} {r : Ref} (hk : k.Pos) (h1 : w.spaceCharge = 0) (h2 : w.offEnergy = 0) (a : ℝ) :
    betaElectron k w r a = Real.sqrt (1 - 1 / r.gamma0 ^ 2) := by
  have hm : massEv k ≠ 0 := by
    have := hk.e; have := hk.m; have := hk.c
    unfold massEv; positivity
  simp only [betaElectron, h1, h2]
  congr 3
  field_simp
  ring

theorem gamma_zero {r : Ref} (hr : r.Ok) : gammaOf r 0 = r.gamma0 := by
  have hg : 0 ≤ r.gamma0 := by linarith [hr.gamma0]
  simp only [gammaOf, add_zero, mul_one]
  rw [← hr.energy, Real.sqrt_sq hg]

/-- C186 (equilibrium): a particle on the axis of the cooler with the momentum of the reference
particle stays as it is. -/
theorem C186_equilibrium_partial (k : Const) (w : Elem) (r : Ref) (p : Part) (hk : k.Pos) (hw : w.On) (hr : r.Ok)
    (ht : 0 < w.tempLong) (hq : 0 < r.q0) (h1 : w.spaceCharge = 0) (h2 : w.offEnergy = 0) (hpx : p.px = w.offPx)
    (hpy : p.py = w.offPy) (hd : p.delta = 0) (hi : Inside w p) : track k w r p = some p := by
  obtain ⟨a, -, he⟩ := C186_friction_partial k w r p hk hw hr ht hq hi
  have ho : omega k w r = 0 := by simp [omega, h1]
  rw [he]
  have e1 : k.c * Real.sqrt (1 - 1 / r.gamma0 ^ 2) - Real.sqrt (1 - 1 / r.gamma0 ^ 2) * k.c = 0 := by ring
  simp only [relative, ho, betaElectron_zero hk h1 h2, hpx, hpy, hd, gamma_zero hr, sub_self, zero_mul, zero_div, mul_zero, add_zero,
    e1, sub_zero]
  obtain ⟨⟩ := p
  simp only at hpx hpy hd
  subst hpx hpy hd
  rfl

theorem gamma_mono {r : Ref} (hr : r.Ok) {a b : ℝ} (ha : -1 < a) (hab : a < b) :
    Real.sqrt (1 - 1 / gammaOf r a ^ 2) < Real.sqrt (1 - 1 / gammaOf r b ^ 2) := by
  have hp := hr.p0c; have hm := hr.mass0
  have h1 : ∀ t, gammaOf r t ^ 2 = 1 + (r.p0c * (1 + t) / r.mass0) ^ 2 := fun t => Real.sq_sqrt (by positivity)
  have h2 : r.p0c * (1 + a) / r.mass0 < r.p0c * (1 + b) / r.mass0 := by gcongr
  have h3 : 0 < r.p0c * (1 + a) / r.mass0 := div_pos (mul_pos hp (by linarith)) hm
  have h4 : (r.p0c * (1 + a) / r.mass0) ^ 2 < (r.p0c * (1 + b) / r.mass0) ^ 2 := by gcongr
  rw [h1, h1]
  refine Real.sqrt_lt_sqrt ?_ ?_
  · rw [sub_nonneg, div_le_one (by positivity)]; linarith [sq_nonneg (r.p0c * (1 + a) / r.mass0)]
  · have : 1 / (1 + (r.p0c * (1 + b) / r.mass0) ^ 2) < 1 / (1 + (r.p0c * (1 + a) / r.mass0) ^ 2) :=
      one_div_lt_one_div_of_lt (by positivity) (by linarith)
    linarith

/-- C186 (momentum): a particle which is faster than the electrons is slowed down and one which is
slower is accelerated. -/
theorem C186_momentum_partial (k : Const) (w : Elem) (r : Ref) (p : Part) (hk : k.Pos) (hw : w.On) (hr : r.Ok)
    (ht : 0 < w.tempLong) (hq : 0 < r.q0) (h1 : w.spaceCharge = 0) (h2 : w.offEnergy = 0) (hd : -1 < p.delta)
    (hi : Inside w p) : ∃ q, track k w r p = some q ∧ (0 < p.delta → q.delta < p.delta) ∧
      (p.delta < 0 → p.delta < q.delta) := by
  obtain ⟨a, ha, he⟩ := C186_friction_partial k w r p hk hw hr ht hq hi
  refine ⟨_, he, ?_, ?_⟩
  · intro h
    have := gamma_mono hr (by norm_num : (-1 : ℝ) < 0) h
    simp only [relative, betaElectron_zero hk h1 h2]
    rw [gamma_zero hr] at this
    have : 0 < k.c * Real.sqrt (1 - 1 / gammaOf r p.delta ^ 2) - Real.sqrt (1 - 1 / r.gamma0 ^ 2) * k.c := by
      nlinarith [hk.c]
    linarith [mul_pos ha this]
  · intro h
    have := gamma_mono hr hd h
    simp only [relative, betaElectron_zero hk h1 h2]
    rw [gamma_zero hr] at this
    have : 0 < -(k.c * Real.sqrt (1 - 1 / gammaOf r p.delta ^ 2) - Real.sqrt (1 - 1 / r.gamma0 ^ 2) * k.c) := by
      nlinarith [hk.c]
    linarith [mul_pos ha this]

/-- C186 (record): the recorded force times the time in the cooler, `length / (beta0 c)`, is the change of the
momentum, in the same units. -/
theorem C186_record (k : Const) (w : Elem) (r : Ref) (p q : Part) (f : ℝ × ℝ × ℝ) (hk : k.Pos) (hr : r.Ok)
    (h : track k w r p = some q) (hf : recorded k w r p = some f) :
    (q.px - p.px) * r.p0c = f.1 * k.c * (w.length / (r.beta0 * k.c)) ∧
    (q.py - p.py) * r.p0c = f.2.1 * k.c * (w.length / (r.beta0 * k.c)) ∧
    (q.delta - p.delta) * r.p0c = f.2.2 * k.c * (w.length / (r.beta0 * k.c)) := by
  have hc := hk.c.ne'; have hp := hr.p0c.ne'; have hb := hr.beta0.ne'
  have hg : r.gamma0 ≠ 0 := by linarith [hr.gamma0]
  simp only [track, recorded] at h hf
  cases hF : force k w r p with
  | none => rw [hF] at h; simp at h
  | some g =>
    rw [hF] at h hf
    simp only [Option.map_some, Option.some.injEq] at h hf
    subst h
    subst hf
    simp only [tau]
    refine ⟨?_, ?_, ?_⟩ <;> field_simp <;> ring

/-! ## Violations -/

/-- Round numbers for the constants. -/
noncomputable def k0 : Const := ⟨1, 1, 1, 1, 1, 1⟩
/-- A cooler without transverse temperature. -/
noncomputable def w0 : Elem := { current := 1, length := 1, radius := 1, tempPerp := 0, tempLong := 1, field := 1 }
/-- A reference particle with momentum 4 and mass 3. -/
noncomputable def r0 : Ref := ⟨4, 1, 4 / 5, 5 / 3, 3⟩

theorem k0_pos : k0.Pos := by constructor <;> norm_num [k0]
theorem w0_on : w0.On := by constructor <;> norm_num [w0]
theorem r0_ok : r0.Ok := by constructor <;> norm_num [r0]

/-- C186 (species), violated: the kick does not depend on the charge of the particle: one with twice the
charge of the reference particle gets the same kick, which is not zero, although the force goes with the
square of the charge. -/
theorem C186_species_violated : ∃ (k : Const) (w : Elem) (r : Ref) (p q q' : Part), k.Pos ∧ w.On ∧ r.Ok ∧ 0 < w.tempLong ∧
    0 < r.q0 ∧ p.chargeRatio = 1 ∧ p.chi = 1 ∧ track k w r p = some q ∧
    track k w r { p with chargeRatio := 2, chi := 2 } = some q' ∧ q.delta ≠ p.delta ∧ q'.delta - p.delta = q.delta - p.delta := by
  have hi : Inside w0 { x := 0, px := 0, y := 0, py := 0, delta := 1 } := by norm_num [Inside, w0]
  obtain ⟨q, hq, h1, -⟩ := C186_momentum_partial k0 w0 r0 { x := 0, px := 0, y := 0, py := 0, delta := 1 } k0_pos w0_on r0_ok
    (by norm_num [w0]) (by norm_num [r0]) rfl rfl (by norm_num) hi
  refine ⟨k0, w0, r0, _, q, { q with chargeRatio := 2, chi := 2 }, k0_pos, w0_on, r0_ok, by norm_num [w0], by norm_num [r0], rfl, rfl, hq, ?_,
    (h1 (by norm_num)).ne, rfl⟩
  simp only [track] at hq ⊢
  have hf : force k0 w0 r0 { x := 0, px := 0, y := 0, py := 0, delta := 1, chargeRatio := 2, chi := 2 }
      = force k0 w0 r0 { x := 0, px := 0, y := 0, py := 0, delta := 1 } := rfl
  rw [hf]
  cases hF : force k0 w0 r0 { x := 0, px := 0, y := 0, py := 0, delta := 1 } with
  | none => rw [hF] at hq; simp at hq
  | some f =>
    rw [hF] at hq
    simp only [Option.some.injEq] at hq ⊢
    subst hq
    rfl

/-- C186 (cold electrons), violated: with electrons without longitudinal temperature in an ideal field the
particle which moves with them gets coordinates which are not numbers. -/
theorem C186_cold_violated : ∃ (k : Const) (w : Elem) (r : Ref) (p : Part), k.Pos ∧ w.On ∧ r.Ok ∧ 0 < r.q0 ∧
    w.tempLong = 0 ∧ w.ratio = 0 ∧ p.px = 0 ∧ p.py = 0 ∧ p.delta = 0 ∧ track k w r p = none := by
  refine ⟨k0, { w0 with tempLong := 0 }, r0, { x := 0, px := 0, y := 0, py := 0, delta := 0 }, k0_pos, ?_, r0_ok, by norm_num [r0], rfl, rfl,
    rfl, rfl, rfl, ?_⟩
  · constructor <;> norm_num [w0]
  · have hd : diffV k0 { w0 with tempLong := 0 } r0 { x := 0, px := 0, y := 0, py := 0, delta := 0 } = (0, 0, 0) := by
      rw [diffV_eq]
      simp only [relative, betaElectron_zero k0_pos (w := { w0 with tempLong := 0 }) rfl rfl, gamma_zero r0_ok]
      simp [w0, k0, omega]
    have hV : totalV k0 { w0 with tempLong := 0 } r0 (0, 0, 0) = 0 := by simp [totalV, w0]
    simp only [track, force, hd, hV, coulombLog, if_true]
    norm_num [w0]

/-- C186 (negative particles), violated: with a negative reference charge the logarithm is taken of a
negative number, although the force goes with the square of the charge. -/
theorem C186_negative_violated : ∃ (k : Const) (w : Elem) (r : Ref) (p : Part), k.Pos ∧ w.On ∧ r.Ok ∧ 0 < w.tempLong ∧
    r.q0 = -1 ∧ (∃ q, track k w { r with q0 := 1 } p = some q) ∧ track k w r p = none := by
  have hw : (⟨1, 1, 1, 0, 100, 1, 0, 0, 0, 0, 0, 0, 0⟩ : Elem).On := by constructor <;> norm_num
  have hr : (⟨4, 1, 4 / 5, 5 / 3, 3⟩ : Ref).Ok := r0_ok
  have hr' : (⟨4, -1, 4 / 5, 5 / 3, 3⟩ : Ref).Ok := by constructor <;> norm_num
  have hi : Inside ⟨1, 1, 1, 0, 100, 1, 0, 0, 0, 0, 0, 0, 0⟩ { x := 0, px := 0, y := 0, py := 0, delta := 0 } := by norm_num [Inside]
  refine ⟨k0, ⟨1, 1, 1, 0, 100, 1, 0, 0, 0, 0, 0, 0, 0⟩, ⟨4, -1, 4 / 5, 5 / 3, 3⟩, { x := 0, px := 0, y := 0, py := 0, delta := 0 },
    k0_pos, hw, hr', by norm_num, rfl, ?_, ?_⟩
  · exact ⟨_, C186_equilibrium_partial _ _ _ _ k0_pos hw hr (by norm_num) (by norm_num) rfl rfl rfl rfl rfl hi⟩
  · have hd : diffV k0 ⟨1, 1, 1, 0, 100, 1, 0, 0, 0, 0, 0, 0, 0⟩ ⟨4, -1, 4 / 5, 5 / 3, 3⟩ { x := 0, px := 0, y := 0, py := 0, delta := 0 } = (0, 0, 0) := by
      rw [diffV_eq]
      simp only [relative, betaElectron_zero k0_pos (w := ⟨1, 1, 1, 0, 100, 1, 0, 0, 0, 0, 0, 0, 0⟩) rfl rfl, gamma_zero hr']
      simp [k0, omega]
    have hs : Real.sqrt 100 = 10 := by
      rw [show (100 : ℝ) = 10 ^ 2 by norm_num]; exact Real.sqrt_sq (by norm_num)
    have hV : totalV k0 ⟨1, 1, 1, 0, 100, 1, 0, 0, 0, 0, 0, 0, 0⟩ ⟨4, -1, 4 / 5, 5 / 3, 3⟩ (0, 0, 0) = 10 := by
      simp [totalV, k0, hs]
    have hl : coulombLog k0 ⟨1, 1, 1, 0, 100, 1, 0, 0, 0, 0, 0, 0, 0⟩ ⟨4, -1, 4 / 5, 5 / 3, 3⟩ 10 = none := by
      have ht : tau k0 ⟨1, 1, 1, 0, 100, 1, 0, 0, 0, 0, 0, 0, 0⟩ ⟨4, -1, 4 / 5, 5 / 3, 3⟩ = 3 / 4 := by norm_num [tau, k0]
      have hdn : density k0 ⟨1, 1, 1, 0, 100, 1, 0, 0, 0, 0, 0, 0, 0⟩ ⟨4, -1, 4 / 5, 5 / 3, 3⟩ = 3 / 4 := by
        simp only [density, ht]; norm_num [k0]
      have hp0 : 0 < Real.sqrt (3 / 4) := Real.sqrt_pos.mpr (by norm_num)
      have hp1 : Real.sqrt (3 / 4) ≤ 1 := Real.sqrt_le_one.mpr (by norm_num)
      have hm : 1 ≤ min (10 / Real.sqrt (3 / 4)) (10 * (3 / 4)) :=
        le_min (by rw [le_div_iff₀ hp0]; linarith) (by norm_num)
      have e1 : k0.m * Real.sqrt (k0.e * 0 / k0.m) / k0.e / 1 = 0 := by norm_num [k0]
      have e2 : (3 : ℝ) / 4 * k0.e ^ 2 / (k0.m * k0.eps) = 3 / 4 := by norm_num [k0]
      have e3 : (-1 : ℝ) * k0.e ^ 2 / (4 * k0.pi * k0.eps * k0.m * 10 ^ 2) = -1 / 400 := by norm_num [k0]
      simp only [coulombLog, ht, hdn, e1, e2, e3, if_neg (show (10 : ℝ) ≠ 0 by norm_num), if_neg hp0.ne']
      rw [if_neg (by norm_num), if_pos]
      exact div_nonpos_of_nonneg_of_nonpos (by linarith) (by norm_num)
    simp only [track, force, hd, hV, hl]
    norm_num

/-- A particle which is cooled. -/
example : ∃ q, track k0 w0 r0 { x := 0, px := 0, y := 0, py := 0, delta := 1 } = some q ∧ q.delta < 1 := by
  obtain ⟨q, hq, h1, -⟩ := C186_momentum_partial k0 w0 r0 { x := 0, px := 0, y := 0, py := 0, delta := 1 } k0_pos w0_on r0_ok
    (by norm_num [w0]) (by norm_num [r0]) rfl rfl (by norm_num) (by norm_num [Inside, w0])
  exact ⟨q, hq, h1 (by norm_num)⟩

end Verif.Cooler
