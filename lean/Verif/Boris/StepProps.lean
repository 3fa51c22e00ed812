import Verif.Boris.Step
import Mathlib.Tactic.FieldSimp
import Mathlib.Tactic.Linarith
import Mathlib.Tactic.LinearCombination
import Mathlib.Tactic.Ring
import Mathlib.Tactic.Positivity

/-!
# C182, C184, C185: tracking through a `SplineBoris` element
-/

namespace Verif.Boris

/-! ## Specification -/

/-- The coordinates of a particle belong together: the reference momentum, energy and speed, and the
momentum, energy and speed of the particle. -/
structure Consistent (p : Part) : Prop where
  p0c : 0 < p.p0c
  beta0 : 0 < p.beta0
  mass0 : 0 < p.mass0
  chi : 0 < p.chi
  ratio : 0 < p.chargeRatio
  reference : p.p0c = p.beta0 * p.energy0
  speed : p.rvv * (1 + p.beta0 * p.ptau) = 1 + p.delta
  rvv : 0 < p.rvv

/-- The exact drift: straight motion with constant speed (track_drift.h:26-45). -/
noncomputable def drift (L : ℝ) (p : Part) : Part :=
  let pz := Real.sqrt ((1 + p.delta) ^ 2 - p.px ^ 2 - p.py ^ 2)
  { p with x := p.x + p.px / pz * L, y := p.y + p.py / pz * L, s := p.s + L,
           zeta := p.zeta + (L - L * (1 / p.rvv) * (1 + p.delta) / pz) }

/-- What a uniform vertical field of `b` T over a length changes in `px`.  The momentum is in units of
the reference momentum times the mass over the reference mass, so the kick goes with charge over
mass, relative to the reference: chi. -/
noncomputable def bend (L b : ℝ) (p : Part) : ℝ := -(p.chi * (p.q0 * qElem * b * L / p.P0))

/-! ## Backtracking -/

theorem longP_congr {P a b c d : ℝ} (h : a * a + b * b = c * c + d * d) : longP P a b = longP P c d := by
  have : P * P - a * a - b * b = P * P - c * c - d * d := by linarith
  simp only [longP, this]

theorem step_back {B : ℝ → ℝ → ℝ → ℝ × ℝ × ℝ} {P q gm cb ds : ℝ} {l l' : Loop} (h : step B P q gm cb ds l = some l') :
    step B P q gm cb (-ds) l' = some l := by
  simp only [step] at h
  split at h
  · exact absurd h (by simp)
  rename_i h1
  split at h
  · exact absurd h (by simp)
  rename_i h2
  split at h
  · exact absurd h (by simp)
  rename_i h3
  have e := (Option.some.inj h).symm
  subst e
  set ps := longP P l.px l.py
  set xh := l.x + l.px * (1 / ps) * (1 / 2 * ds) with hxh
  set yh := l.y + l.py * (1 / ps) * (1 / 2 * ds) with hyh
  set b := B xh yh (l.sLocal + 1 / 2 * ds) with hb
  set pxm := l.px - q * (1 / 2 * ds) * b.2.1 with hpxm
  set pym := l.py + q * (1 / 2 * ds) * b.1 with hpym
  set pm := longP P pxm pym with hpm
  set t := q * b.2.2 * (1 / 2 * ds) / pm with ht
  set sR := 2 * t * (1 / (1 + t * t)) with hsR
  set c0 := (1 - t * t) * (1 / (1 + t * t)) with hc0
  set px1 := c0 * pxm + sR * pym - q * (1 / 2 * ds) * b.2.1 with hpx1
  set py1 := -sR * pxm + c0 * pym + q * (1 / 2 * ds) * b.1 with hpy1
  set ps1 := longP P px1 py1 with hps1
  have hd : (1 + t * t) ≠ 0 := by nlinarith [mul_self_nonneg t]
  have hone : c0 * c0 + sR * sR = 1 := by
    rw [hc0, hsR]; field_simp; ring
  have ex : xh + px1 * (1 / ps1) * (1 / 2 * ds) + px1 * (1 / ps1) * (1 / 2 * -ds) = xh := by ring
  have ey : yh + py1 * (1 / ps1) * (1 / 2 * ds) + py1 * (1 / ps1) * (1 / 2 * -ds) = yh := by ring
  have es : l.sLocal + ds + 1 / 2 * -ds = l.sLocal + 1 / 2 * ds := by ring
  have em : px1 - q * (1 / 2 * -ds) * b.2.1 = c0 * pxm + sR * pym := by rw [hpx1]; ring
  have en : py1 + q * (1 / 2 * -ds) * b.1 = -sR * pxm + c0 * pym := by rw [hpy1]; ring
  have el : longP P (c0 * pxm + sR * pym) (-sR * pxm + c0 * pym) = pm :=
    longP_congr (by linear_combination (pxm * pxm + pym * pym) * hone)
  have et : q * b.2.2 * (1 / 2 * -ds) / pm = -t := by rw [ht]; ring
  have e2 : -t * -t = t * t := by ring
  have ec : (1 - t * t) * (1 / (1 + t * t)) = c0 := rfl
  have er : 2 * -t * (1 / (1 + t * t)) = -sR := by rw [hsR]; ring
  have ep : c0 * (c0 * pxm + sR * pym) + -sR * (-sR * pxm + c0 * pym) = pxm := by
    linear_combination pxm * hone
  have eq : - -sR * (c0 * pxm + sR * pym) + c0 * (-sR * pxm + c0 * pym) = pym := by
    linear_combination pym * hone
  have e3 : pxm - q * (1 / 2 * -ds) * b.2.1 = l.px := by rw [hpxm]; ring
  have e4 : pym + q * (1 / 2 * -ds) * b.1 = l.py := by rw [hpym]; ring
  simp only [step]
  rw [if_neg h3]
  simp only [← hps1, ex, ey, es, ← hb, em, en, el]
  rw [if_neg h2]
  simp only [et, e2, ec, er, ep, eq, e3, e4]
  rw [if_neg h1]
  refine congrArg some (Loop.ext ?_ ?_ rfl rfl ?_ ?_) <;> simp only [hxh, hyh] <;> ring

theorem loop_snoc {B : ℝ → ℝ → ℝ → ℝ × ℝ × ℝ} {P q gm cb ds : ℝ} {n : ℕ} : ∀ {a b c : Loop},
    loop B P q gm cb ds n a = (b, true) → step B P q gm cb ds b = some c → loop B P q gm cb ds (n + 1) a = (c, true) := by
  induction n with
  | zero =>
    intro a b c h k
    simp only [loop, Prod.mk.injEq] at h
    simp [loop, h.1, k]
  | succ n ih =>
    intro a b c h k
    simp only [loop] at h
    cases hs : step B P q gm cb ds a with
    | none => rw [hs] at h; simp at h
    | some a' =>
      rw [hs] at h
      show (match step B P q gm cb ds a with
        | none => (a, false)
        | some l' => loop B P q gm cb ds (n + 1) l') = _
      rw [hs]
      exact ih h k

theorem loop_back {B : ℝ → ℝ → ℝ → ℝ × ℝ × ℝ} {P q gm cb ds : ℝ} {n : ℕ} : ∀ {a b : Loop},
    loop B P q gm cb ds n a = (b, true) → loop B P q gm cb (-ds) n b = (a, true) := by
  induction n with
  | zero => intro a b h; simp only [loop, Prod.mk.injEq] at h ⊢; exact ⟨h.1.symm, trivial⟩
  | succ n ih =>
    intro a b h
    simp only [loop] at h
    cases hs : step B P q gm cb ds a with
    | none => rw [hs] at h; simp at h
    | some a' =>
      rw [hs] at h
      exact loop_snoc (ih h) (step_back hs)

theorem step_s {B : ℝ → ℝ → ℝ → ℝ × ℝ × ℝ} {P q gm cb ds : ℝ} {l l' : Loop} (h : step B P q gm cb ds l = some l') :
    l'.sLocal = l.sLocal + ds := by
  simp only [step] at h
  split at h
  · exact absurd h (by simp)
  split at h
  · exact absurd h (by simp)
  split at h
  · exact absurd h (by simp)
  rw [← Option.some.inj h]

theorem loop_s {B : ℝ → ℝ → ℝ → ℝ × ℝ × ℝ} {P q gm cb ds : ℝ} {n : ℕ} : ∀ {a b : Loop},
    loop B P q gm cb ds n a = (b, true) → b.sLocal = a.sLocal + n * ds := by
  induction n with
  | zero => intro a b h; simp only [loop, Prod.mk.injEq] at h; rw [← h.1]; simp
  | succ n ih =>
    intro a b h
    simp only [loop] at h
    cases hs : step B P q gm cb ds a with
    | none => rw [hs] at h; simp at h
    | some a' =>
      rw [hs] at h
      rw [ih h, step_s hs]
      push_cast
      ring

/-- C182 (backtracking): a particle which got through the element is brought back exactly to where
it was, in all coordinates, whatever the field, the shifts, the scale, the multipoles and the number of
steps. -/
theorem C182_backtrack (e : Elem) (p : Part) (hn : 0 < e.nSteps) (hp : p.p0c ≠ 0) (h : (passes e false p).2 = true) :
    track e true (track e false p) = p := by
  by_cases ha : p.state ≤ 0
  · simp [track, ha]
  have hP : p.P0 ≠ 0 := by
    simp only [Part.P0]
    exact div_ne_zero (mul_ne_zero hp (by norm_num)) (by norm_num)
  have hn' : (e.nSteps : ℝ) ≠ 0 := by exact_mod_cast hn.ne'
  obtain ⟨l, hl⟩ : ∃ l, passes e false p = (l, true) := ⟨(passes e false p).1, Prod.ext rfl h⟩
  have hs : l.sLocal = e.length := by
    have := loop_s hl
    simp only [enter, Bool.false_eq_true, if_false, zero_add] at this
    rw [this]; field_simp
  have hb := loop_back hl
  have ht : track e false p = { p with x := l.x, y := l.y, s := p.s + e.length, px := l.px / p.P0, py := l.py / p.P0,
                                       zeta := l.zeta } := by
    simp only [track, if_neg ha, hl, Bool.false_eq_true, if_false]
  have hen : enter e true (track e false p) = l := by
    rw [ht]
    exact Loop.ext rfl rfl (div_mul_cancel₀ _ hP) (div_mul_cancel₀ _ hP) rfl hs.symm
  have hpass : passes e true (track e false p) = (enter e false p, true) := by
    unfold passes
    rw [hen, ht]
    have hd : (if true = true then -e.length else e.length) / (e.nSteps : ℝ)
        = -((if false = true then -e.length else e.length) / (e.nSteps : ℝ)) := by
      simp only [if_true, Bool.false_eq_true, if_false]; ring
    rw [hd]
    exact hb
  have hp1 : passes e true { p with x := l.x, y := l.y, s := p.s + e.length, px := l.px / p.P0, py := l.py / p.P0,
                                    zeta := l.zeta } = (enter e false p, true) := by rw [← ht]; exact hpass
  rw [ht]
  simp only [track, if_neg ha, hp1, if_true]
  have h0 : (Part.P0 { p with x := l.x, y := l.y, s := p.s + e.length, px := l.px / p.P0, py := l.py / p.P0,
                              zeta := l.zeta }) = p.P0 := rfl
  simp only [h0, enter, mul_div_cancel_right₀ _ hP]
  obtain ⟨⟩ := p
  simp

/-! ## Without field, and in a uniform field -/

theorem longP_pos {P px py : ℝ} (h : px * px + py * py < P * P) :
    longP P px py = Real.sqrt (P * P - px * px - py * py) ∧ longP P px py ≠ 0 := by
  have hp : 0 < P * P - px * px - py * py := by linarith
  have e : longP P px py = Real.sqrt (P * P - px * px - py * py) := by
    simp only [longP, if_neg (not_lt.mpr hp.le)]
  exact ⟨e, e ▸ (Real.sqrt_pos.mpr hp).ne'⟩

/-- The end of a loop without field. -/
theorem loop_free {P q gm cb ds : ℝ} (n : ℕ) : ∀ l : Loop, longP P l.px l.py ≠ 0 →
    loop (fun _ _ _ => (0, 0, 0)) P q gm cb ds n l =
      ({ l with x := l.x + l.px / longP P l.px l.py * (n * ds), y := l.y + l.py / longP P l.px l.py * (n * ds),
                zeta := l.zeta + (n * ds - n * ds * gm * cb / longP P l.px l.py), sLocal := l.sLocal + n * ds }, true) := by
  induction n with
  | zero => intro l _; simp [loop]
  | succ n ih =>
    intro l h
    have hs : step (fun _ _ _ => (0, 0, 0)) P q gm cb ds l =
        some { l with x := l.x + l.px / longP P l.px l.py * ds, y := l.y + l.py / longP P l.px l.py * ds,
                      zeta := l.zeta + (ds - ds * gm * cb / longP P l.px l.py), sLocal := l.sLocal + ds } := by
      simp only [step, mul_zero, zero_mul, zero_div, sub_zero, add_zero, if_neg h, div_one, mul_one, one_mul, neg_zero, zero_add]
      refine congrArg some (Loop.ext ?_ ?_ rfl rfl ?_ rfl) <;> simp only <;> ring
    simp only [loop, hs]
    refine (ih { l with x := l.x + l.px / longP P l.px l.py * ds, y := l.y + l.py / longP P l.px l.py * ds,
                        zeta := l.zeta + (ds - ds * gm * cb / longP P l.px l.py), sLocal := l.sLocal + ds } h).trans ?_
    refine Prod.ext (Loop.ext ?_ ?_ rfl rfl ?_ ?_) rfl <;> simp only <;> push_cast <;> ring

theorem step_uniform {P q gm cb ds b : ℝ} {l l' : Loop} (h : step (fun _ _ _ => (0, b, 0)) P q gm cb ds l = some l') :
    l'.px = l.px - q * ds * b ∧ l'.py = l.py := by
  simp only [step] at h
  split at h
  · exact absurd h (by simp)
  split at h
  · exact absurd h (by simp)
  split at h
  · exact absurd h (by simp)
  rw [← Option.some.inj h]
  constructor <;> simp only [mul_zero, zero_mul, zero_div, sub_zero, add_zero, div_one, mul_one, one_mul, neg_zero, zero_add] <;> ring

theorem loop_uniform {P q gm cb ds b : ℝ} {n : ℕ} : ∀ {l l' : Loop},
    loop (fun _ _ _ => (0, b, 0)) P q gm cb ds n l = (l', true) → l'.px = l.px - q * (n * ds) * b ∧ l'.py = l.py := by
  induction n with
  | zero => intro l l' h; simp only [loop, Prod.mk.injEq] at h; rw [← h.1]; simp
  | succ n ih =>
    intro l l' h
    simp only [loop] at h
    cases hs : step (fun _ _ _ => (0, b, 0)) P q gm cb ds l with
    | none => rw [hs] at h; simp at h
    | some a =>
      rw [hs] at h
      obtain ⟨h1, h2⟩ := ih h
      obtain ⟨k1, k2⟩ := step_uniform hs
      rw [h1, h2, k1, k2]
      refine ⟨?_, rfl⟩
      push_cast
      ring

theorem P0_pos {p : Part} (h : 0 < p.p0c) : 0 < p.P0 := by
  simp only [Part.P0]
  exact div_pos (mul_pos h (by norm_num)) (by norm_num)

theorem gm_eq {p : Part} (c : Consistent p) :
    p.gm * (cLight * p.beta0) = p.P0 * (p.massRatio * (1 / p.rvv) * (1 + p.delta)) := by
  have h0 := c.mass0.ne'
  have hm : p.massRatio ≠ 0 := (div_pos c.ratio c.chi).ne'
  have hr := c.rvv.ne'
  have hb := c.beta0.ne'
  have e0 : p.energy0 = p.p0c / p.beta0 := by rw [c.reference]; field_simp
  rw [← c.speed]
  simp only [Part.gm, Part.P0, e0]
  field_simp

/-- Without field: straight motion, and how zeta goes for any ratio of masses. -/
theorem track_free (e : Elem) (p : Part) (c : Consistent p) (hn : 0 < e.nSteps) (ha : 0 < p.state)
    (hf : ∀ x y s, e.field x y s = (0, 0, 0)) (hp : p.px ^ 2 + p.py ^ 2 < (1 + p.delta) ^ 2) :
    track e false p = { drift e.length p with
      zeta := p.zeta + (e.length - e.length * p.massRatio * (1 / p.rvv) * (1 + p.delta) / Real.sqrt ((1 + p.delta) ^ 2 - p.px ^ 2 - p.py ^ 2)) } := by
  have h0 := P0_pos c.p0c
  have hn' : (e.nSteps : ℝ) ≠ 0 := by exact_mod_cast hn.ne'
  have hf' : e.field = fun _ _ _ => (0, 0, 0) := by funext x y s; exact hf x y s
  set pz := Real.sqrt ((1 + p.delta) ^ 2 - p.px ^ 2 - p.py ^ 2) with hpz
  have hz : 0 < (1 + p.delta) ^ 2 - p.px ^ 2 - p.py ^ 2 := by linarith
  have hzp : 0 < pz := Real.sqrt_pos.mpr hz
  have hl := longP_pos (P := p.P0 * (1 + p.delta)) (px := p.px * p.P0) (py := p.py * p.P0) (by nlinarith [mul_pos h0 h0])
  have hlong : longP (p.P0 * (1 + p.delta)) (p.px * p.P0) (p.py * p.P0) = p.P0 * pz := by
    rw [hl.1]
    have : p.P0 * (1 + p.delta) * (p.P0 * (1 + p.delta)) - p.px * p.P0 * (p.px * p.P0) - p.py * p.P0 * (p.py * p.P0)
        = p.P0 ^ 2 * ((1 + p.delta) ^ 2 - p.px ^ 2 - p.py ^ 2) := by ring
    rw [this, Real.sqrt_mul (sq_nonneg _), Real.sqrt_sq h0.le]
  have hw := loop_free (P := p.P0 * (1 + p.delta)) (q := p.q0 * qElem) (gm := p.gm) (cb := cLight * p.beta0)
    (ds := e.length / e.nSteps) e.nSteps (enter e false p) hl.2
  have hnd : (e.nSteps : ℝ) * (e.length / e.nSteps) = e.length := by field_simp
  have hpass : passes e false p = loop (fun _ _ _ => (0, 0, 0)) (p.P0 * (1 + p.delta)) (p.q0 * qElem) p.gm
      (cLight * p.beta0) (e.length / e.nSteps) e.nSteps (enter e false p) := by
    simp only [passes, hf', Bool.false_eq_true, if_false]
  rw [hw] at hpass
  simp only [track, if_neg (not_le.mpr ha), hpass, Bool.false_eq_true, if_false, drift, ← hpz]
  simp only [enter, hlong, hnd]
  have hg := gm_eq c
  have e1 : p.px * p.P0 / (p.P0 * pz) * e.length = p.px / pz * e.length := by field_simp
  have e2 : p.py * p.P0 / (p.P0 * pz) * e.length = p.py / pz * e.length := by field_simp
  have e3 : e.length * p.gm * (cLight * p.beta0) / (p.P0 * pz) = e.length * p.massRatio * (1 / p.rvv) * (1 + p.delta) / pz := by
    rw [mul_assoc e.length, hg]
    have := c.rvv.ne'
    field_simp
  rw [e1, e2, e3, mul_div_cancel_right₀ _ h0.ne', mul_div_cancel_right₀ _ h0.ne']

/-- C184 (free space): without field a particle of the reference mass moves as in an exact drift. -/
theorem C184_drift_partial (e : Elem) (p : Part) (c : Consistent p) (hn : 0 < e.nSteps) (ha : 0 < p.state)
    (hm : p.chargeRatio = p.chi) (hf : ∀ x y s, e.field x y s = (0, 0, 0)) (hp : p.px ^ 2 + p.py ^ 2 < (1 + p.delta) ^ 2) :
    track e false p = drift e.length p := by
  rw [track_free e p c hn ha hf hp]
  have : p.massRatio = 1 := by rw [Part.massRatio, hm, div_self c.chi.ne']
  rw [this, mul_one]
  rfl

/-- A particle of twice the reference mass: charge ratio one and chi a half. -/
noncomputable def heavy : Part :=
  { x := 0, y := 0, px := 0, py := 0, zeta := 0, s := 0, delta := 0, ptau := 0, rvv := 1, chi := 1 / 2, chargeRatio := 1,
    q0 := 1, mass0 := 4, p0c := 3, beta0 := 3 / 5, energy0 := 5, state := 1 }

theorem heavy_consistent : Consistent heavy := by
  constructor <;> norm_num [heavy]

/-- An element of length one with a uniform vertical field. -/
noncomputable def dipole (b : ℝ) : Elem :=
  { length := 1, nSteps := 1, shiftX := 0, shiftY := 0, scaleB := 1, spline := fun _ _ _ => (0, b, 0),
    multipoles := fun _ _ => (0, 0, 0) }

theorem dipole_field (b x y s : ℝ) : (dipole b).field x y s = (0, b, 0) := by simp [Elem.field, dipole]

/-- C184 (free space), violated: without field a particle of twice the reference mass gets another
zeta than in a drift. -/
theorem C184_drift_violated : ∃ (e : Elem) (p : Part), Consistent p ∧ 0 < e.nSteps ∧ 0 < p.state ∧
    (∀ x y s, e.field x y s = (0, 0, 0)) ∧ p.px ^ 2 + p.py ^ 2 < (1 + p.delta) ^ 2 ∧
    (drift e.length p).zeta = 0 ∧ (track e false p).zeta = -1 := by
  have hp : heavy.px ^ 2 + heavy.py ^ 2 < (1 + heavy.delta) ^ 2 := by norm_num [heavy]
  refine ⟨dipole 0, heavy, heavy_consistent, by norm_num [dipole], by norm_num [heavy], dipole_field 0, hp, ?_, ?_⟩
  · norm_num [drift, heavy, dipole]
  · rw [track_free _ _ heavy_consistent (by norm_num [dipole]) (by norm_num [heavy]) (dipole_field 0) hp]
    norm_num [drift, heavy, dipole, Part.massRatio]

/-- What a uniform vertical field does to the momenta. -/
theorem track_uniform (e : Elem) (p : Part) (b : ℝ) (hc : 0 < p.p0c) (hn : 0 < e.nSteps) (ha : 0 < p.state)
    (hf : ∀ x y s, e.field x y s = (0, b, 0)) (ht : (passes e false p).2 = true) :
    (track e false p).px = p.px - p.q0 * qElem * b * e.length / p.P0 ∧ (track e false p).py = p.py := by
  have h0 := (P0_pos hc).ne'
  have hn' : (e.nSteps : ℝ) ≠ 0 := by exact_mod_cast hn.ne'
  have hf' : e.field = fun _ _ _ => (0, b, 0) := by funext x y s; exact hf x y s
  obtain ⟨l, hl⟩ : ∃ l, passes e false p = (l, true) := ⟨(passes e false p).1, Prod.ext rfl ht⟩
  have hl' := hl
  simp only [passes, hf', Bool.false_eq_true, if_false] at hl'
  obtain ⟨h1, h2⟩ := loop_uniform hl'
  have hnd : (e.nSteps : ℝ) * (e.length / e.nSteps) = e.length := by field_simp
  simp only [track, if_neg (not_le.mpr ha), hl, h1, h2, enter, hnd]
  constructor
  · field_simp
  · field_simp

/-- C184 (uniform field): a particle with the reference ratio of charge and mass which gets through
gets exactly the kick of the integrated field, for any number of steps. -/
theorem C184_bend_partial (e : Elem) (p : Part) (b : ℝ) (c : Consistent p) (hn : 0 < e.nSteps) (ha : 0 < p.state)
    (hchi : p.chi = 1) (hf : ∀ x y s, e.field x y s = (0, b, 0)) (ht : (passes e false p).2 = true) :
    (track e false p).px = p.px + bend e.length b p ∧ (track e false p).py = p.py := by
  have := track_uniform e p b c.p0c hn ha hf ht
  rw [this.1, this.2]
  refine ⟨?_, rfl⟩
  rw [bend, hchi]
  ring

theorem heavy_P0 : heavy.P0 = 3 * qElem / cLight := rfl

/-- Whether the one step of the dipole is completed. -/
theorem dipole_passes {b : ℝ} (h1 : (qElem * b) ^ 2 < heavy.P0 ^ 2) : (passes (dipole b) false heavy).2 = true := by
  have hf' : (dipole b).field = fun _ _ _ => (0, b, 0) := by funext x y s; exact dipole_field b x y s
  have h0 := P0_pos heavy_consistent.p0c
  have hd : heavy.delta = 0 := rfl
  have hq : heavy.q0 = 1 := rfl
  have e1 := (longP_pos (P := heavy.P0) (px := 0) (py := 0) (by nlinarith)).2
  have e2 := (longP_pos (P := heavy.P0) (px := - (qElem * (1 / 2) * b)) (py := 0) (by
    have e : -(qElem * (1 / 2) * b) * -(qElem * (1 / 2) * b) + 0 * 0 = (qElem * b) ^ 2 / 4 := by ring
    rw [e, ← pow_two]
    exact lt_of_le_of_lt (div_le_self (sq_nonneg _) (by norm_num)) h1)).2
  have e3 := (longP_pos (P := heavy.P0) (px := - (qElem * (1 / 2) * b) - qElem * (1 / 2) * b) (py := 0) (by
    have e : (-(qElem * (1 / 2) * b) - qElem * (1 / 2) * b) * (-(qElem * (1 / 2) * b) - qElem * (1 / 2) * b) + 0 * 0
        = (qElem * b) ^ 2 := by ring
    rw [e, ← pow_two]
    exact h1)).2
  have hpx : heavy.px = 0 := rfl
  have hpy : heavy.py = 0 := rfl
  have hL : (dipole b).length = 1 := rfl
  have hN : (dipole b).nSteps = 1 := rfl
  simp only [passes, hf', enter, hd, hq, hpx, hpy, hL, hN, loop, step, mul_zero, zero_mul, zero_div, sub_zero, add_zero, div_one,
    mul_one, one_mul, neg_zero, zero_add, Bool.false_eq_true, if_false, Nat.cast_one, zero_sub, if_neg e1, if_neg e2, if_neg e3]

/-- C184 (uniform field), violated: a particle of twice the reference mass gets twice the kick which
its charge and mass call for. -/
theorem C184_bend_violated : ∃ (e : Elem) (p : Part) (b : ℝ), Consistent p ∧ 0 < e.nSteps ∧ 0 < p.state ∧
    (∀ x y s, e.field x y s = (0, b, 0)) ∧ (passes e false p).2 = true ∧ bend e.length b p ≠ 0 ∧
    (track e false p).px = p.px + 2 * bend e.length b p := by
  have h0 := P0_pos heavy_consistent.p0c
  have hq : (0 : ℝ) < qElem := by norm_num
  have hb : qElem * (heavy.P0 / (2 * qElem)) = heavy.P0 / 2 := by field_simp
  have ht : (passes (dipole (heavy.P0 / (2 * qElem))) false heavy).2 = true := dipole_passes (by rw [hb]; nlinarith)
  refine ⟨dipole (heavy.P0 / (2 * qElem)), heavy, heavy.P0 / (2 * qElem), heavy_consistent, by norm_num [dipole], by norm_num [heavy],
    dipole_field _, ht, ?_, ?_⟩
  · simp only [bend]
    have : heavy.q0 * qElem * (heavy.P0 / (2 * qElem)) * (dipole (heavy.P0 / (2 * qElem))).length / heavy.P0 = 1 / 2 := by
      rw [show heavy.q0 = 1 from rfl, show (dipole (heavy.P0 / (2 * qElem))).length = 1 from rfl, one_mul, hb, mul_one, div_right_comm,
        div_self h0.ne']
    rw [this]; norm_num [heavy]
  · rw [(track_uniform _ _ _ heavy_consistent.p0c (by norm_num [dipole]) (by norm_num [heavy]) (dipole_field _) ht).1]
    have hc : heavy.chi = 1 / 2 := rfl
    rw [bend, hc]
    ring

/-- C184 (stopped), violated: a particle on the axis in a field so strong that half a step bends it by
ninety degrees or more comes out at the end of the element alive, with all its coordinates as they were. -/
theorem C184_stopped_violated (e : Elem) (p : Part) (b : ℝ) (hc : 0 < p.p0c) (hn : 0 < e.nSteps) (ha : 0 < p.state)
    (hf : ∀ x y s, e.field x y s = (0, b, 0)) (hp : p.px = 0) (hy : p.py = 0)
    (hb : (p.P0 * (1 + p.delta)) ^ 2 ≤ (p.q0 * qElem * (1 / 2 * (e.length / e.nSteps)) * b) ^ 2) :
    track e false p = { p with s := p.s + e.length } := by
  have hf' : e.field = fun _ _ _ => (0, b, 0) := by funext x y s; exact hf x y s
  obtain ⟨n, hn'⟩ : ∃ n, e.nSteps = n + 1 := ⟨e.nSteps - 1, by omega⟩
  have hz : longP (p.P0 * (1 + p.delta)) (0 - p.q0 * qElem * (1 / 2 * (e.length / e.nSteps)) * b) 0 = 0 := by
    simp only [longP]
    split
    · exact Real.sqrt_zero
    · exact Real.sqrt_eq_zero_of_nonpos (by nlinarith)
  have hs : step (fun _ _ _ => (0, b, 0)) (p.P0 * (1 + p.delta)) (p.q0 * qElem) p.gm (cLight * p.beta0)
      (e.length / e.nSteps) (enter e false p) = none := by
    simp only [step]
    split
    · rfl
    · rw [if_pos]
      simp only [enter, hp, hy, zero_mul, mul_zero, add_zero]
      exact hz
  have hpass : (passes e false p).1 = enter e false p := by
    simp only [passes, hf', Bool.false_eq_true, if_false]
    generalize hds : e.length / (e.nSteps : ℝ) = ds at hs
    rw [hn', loop, hs]
  simp only [track, if_neg (not_le.mpr ha), hpass, enter, Bool.false_eq_true, if_false, hp, hy, zero_mul, zero_div]

/-- There are such fields. -/
example : ∃ b, (heavy.P0 * (1 + heavy.delta)) ^ 2
    ≤ (heavy.q0 * qElem * (1 / 2 * ((dipole b).length / (dipole b).nSteps)) * b) ^ 2 := by
  refine ⟨2 * heavy.P0 / qElem, le_of_eq ?_⟩
  simp only [heavy, dipole]
  norm_num [heavy, Part.P0]

/-- A particle which gets through a field and is brought back. -/
example : track (dipole 0) true (track (dipole 0) false heavy) = heavy :=
  C182_backtrack _ _ (by norm_num [dipole]) (by norm_num [heavy])
    (dipole_passes (by have := P0_pos heavy_consistent.p0c; rw [mul_zero]; nlinarith))

end Verif.Boris
