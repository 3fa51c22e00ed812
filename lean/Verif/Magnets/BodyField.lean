import Verif.Magnets.BodyProps

/-!
# C61: all models of a magnet are made of the same field

`C61_weights`: the pieces of each integrator add up to the whole length and the kicks to the whole field.  `C61_path`: `s` advances
by the (curved) length of the magnet or slice.  `C61_same_field`: whatever the model, drift part and kick part together are the field
of the magnet: nothing is counted twice or forgotten.  `C61_slices`: the kicks of slices add up to those of the magnet;
`C61_hxl_slices_violated`: not so the horizontal curvature `hxl` of a multipole.  `C61_no_kicks`: when the number of kicks is chosen
automatically to be zero there is nothing to kick; `C61_hxl_auto_violated`: except for `hxl`.
-/

namespace Verif.Magnets

open Frames

noncomputable section

/-! ## Weights -/

/-- The length covered, relative to the length of the body. -/
def Step.length : Step → ℝ
  | .drift r => r
  | .kick _ => 0

/-- The fraction of the integrated field which is applied. -/
def Step.strength : Step → ℝ
  | .drift _ => 0
  | .kick w => w

theorem sum_flatten {α : Type} (f : α → ℝ) (n : ℕ) (L : List α) :
    ((List.replicate n L).flatten.map f).sum = n * (L.map f).sum := by
  induction n with
  | zero => simp
  | succ n ih =>
    rw [List.replicate_succ, List.flatten_cons, List.map_append, List.sum_append, ih]
    push_cast
    ring

theorem yoshida_slices {n : ℕ} (hn : 1 ≤ n) : n / 7 + (if n % 7 ≠ 0 then 1 else 0) ≠ 0 := by
  split_ifs with h
  · omega
  · omega

/-- The lengths of all drifts add up to the length of the body and the weights of all kicks to one. -/
theorem C61_weights (i : ℤ) (hi : i = 1 ∨ i = 2 ∨ i = 3) (n : ℕ) (hn : 1 ≤ n) :
    ((steps i n).map Step.length).sum = 1 ∧ ((steps i n).map Step.strength).sum = 1 := by
  have n0 : (n : ℝ) ≠ 0 := by
    have : n ≠ 0 := by omega
    exact_mod_cast this
  obtain h | h | h := hi <;> subst h
  · have e : steps 1 n = teapot n := rfl
    rw [e]
    unfold teapot
    simp only [List.map_append, List.sum_append, sum_flatten, List.map_cons, List.map_nil, List.sum_cons, List.sum_nil]
    have c : ((n - 1 : ℕ) : ℝ) = n - 1 := by
      rw [Nat.cast_sub hn]
      simp
    rw [c]
    simp only [Step.length, Step.strength]
    constructor
    · by_cases h1 : n > 1
      · have h2 : (n : ℝ) * n - 1 ≠ 0 := by
          have : (1 : ℝ) < n := by exact_mod_cast h1
          nlinarith
        have h3 : (1 : ℝ) + n ≠ 0 := by positivity
        simp only [if_pos h1]
        have h4 : (n : ℝ) * n - 1 = (n - 1) * (1 + n) := by ring
        have h5 : (n : ℝ) - 1 ≠ 0 := by
          intro h
          rw [h4, h] at h2
          simp at h2
        rw [h4]
        field_simp
        ring
      · have : n = 1 := by omega
        subst this
        norm_num
    · simp only [zero_add, add_zero]
      field_simp
      ring
  · have e : steps 2 n = yoshida n := rfl
    rw [e]
    unfold yoshida
    have m0 := yoshida_slices hn
    simp only
    generalize n / 7 + (if n % 7 ≠ 0 then 1 else 0) = m at *
    have m1 : (m : ℝ) ≠ 0 := by exact_mod_cast m0
    simp only [sum_flatten, yoshidaSlice, List.map_cons, List.map_nil, List.sum_cons, List.sum_nil, Step.length, Step.strength, yd, yk]
    constructor
    · field_simp
      norm_num
    · field_simp
      norm_num
  · have e : steps 3 n = uniform n := rfl
    rw [e]
    unfold uniform
    simp only [sum_flatten, List.map_cons, List.map_nil, List.sum_cons, List.sum_nil, Step.length, Step.strength]
    constructor
    · field_simp
      norm_num
    · field_simp
      norm_num

/-- No piece goes far back and forth: the absolute lengths add up to at most three times the length. -/
theorem abs_weights (i : ℤ) (n : ℕ) (hn : 1 ≤ n) : ((steps i n).map fun s => |s.length|).sum ≤ 3 := by
  by_cases hi : i = 1 ∨ i = 3
  · have e : ((steps i n).map fun s => |s.length|) = (steps i n).map Step.length := by
      apply List.map_congr_left
      intro s hs
      rw [abs_of_nonneg]
      have n0 : (0 : ℝ) ≤ n := Nat.cast_nonneg n
      obtain h | h := hi <;> subst h
      · have e : steps 1 n = teapot n := rfl
        rw [e] at hs
        unfold teapot at hs
        simp only [List.mem_append, List.mem_cons, List.not_mem_nil, or_false, List.mem_flatten, List.mem_replicate] at hs
        have h1 : (0 : ℝ) ≤ if n > 1 then 1 / (2 * (1 + (n : ℝ))) else 0.5 := by
          split_ifs
          · positivity
          · norm_num
        have h2 : (0 : ℝ) ≤ if n > 1 then (n : ℝ) / ((n : ℝ) * n - 1) else 0 := by
          split_ifs with h
          · have : (1 : ℝ) < n := by exact_mod_cast h
            apply div_nonneg n0
            nlinarith
          · exact le_rfl
        rcases hs with (rfl | ⟨l, ⟨_, rfl⟩, hl⟩) | rfl | rfl
        · exact h1
        · simp only [List.mem_cons, List.not_mem_nil, or_false] at hl
          obtain rfl | rfl := hl
          · exact le_rfl
          · exact h2
        · exact le_rfl
        · exact h1
      · have e : steps 3 n = uniform n := rfl
        rw [e] at hs
        unfold uniform at hs
        simp only [List.mem_flatten, List.mem_replicate] at hs
        obtain ⟨l, ⟨_, rfl⟩, hl⟩ := hs
        have h1 : (0 : ℝ) ≤ 0.5 * (1 / n) := by positivity
        simp only [List.mem_cons, List.not_mem_nil, or_false] at hl
        obtain rfl | rfl | rfl := hl
        · exact h1
        · exact le_rfl
        · exact h1
    rw [e, (C61_weights i (by tauto) n hn).1]
    norm_num
  · by_cases hi2 : i = 2
    · subst hi2
      have e : steps 2 n = yoshida n := rfl
      rw [e]
      unfold yoshida
      have m0 := yoshida_slices hn
      simp only
      generalize n / 7 + (if n % 7 ≠ 0 then 1 else 0) = m at *
      have m1 : (m : ℝ) ≠ 0 := by exact_mod_cast m0
      have m2 : |1 / (m : ℝ)| = 1 / m := abs_of_nonneg (by positivity)
      simp only [sum_flatten, yoshidaSlice, List.map_cons, List.map_nil, List.sum_cons, List.sum_nil, Step.length, yd, abs_mul, m2,
        abs_zero]
      rw [show ∀ a b c d : ℝ, (m : ℝ) * (1 / m * a + (0 + (1 / m * b + (0 + (1 / m * c + (0 + (1 / m * d + (0 + (1 / m * d + (0 +
        (1 / m * c + (0 + (1 / m * b + (0 + (1 / m * a + 0))))))))))))))) = 2 * (a + b + c + d) from fun a b c d => by field_simp; ring]
      norm_num [abs_of_pos, abs_of_neg]
    · have : steps i n = [] := by
        unfold steps
        rw [if_neg (by tauto), if_neg (by tauto), if_neg hi2]
      rw [this]
      norm_num

/-! ## The path -/

theorem kick_s (k : KickArgs) (w : ℝ) (p : Part) : (magnetKick k w p).s = p.s := by
  rw [C58_kick]

/-- What the drift part of any model adds to `s`. -/
theorem drift_s (d : DriftArgs) (hd : 0 ≤ d.model ∧ d.model ≤ 5 ∨ d.model = 7 ∨ d.model = 8) (l : ℝ) (p : Part) :
    |(magnetDrift d l p).s - (p.s + l)| ≤ (if d.model ≤ 5 then 0 else 1e-15) * |l| := by
  obtain ⟨h1, h2⟩ | h := hd
  · rw [(C59_touched d l p).2.1 h1 h2, if_pos h2]
    simp
  · rw [if_neg (by omega)]
    exact (C59_nested_path d h l p).1

theorem steps_s (d : DriftArgs) (hd : 0 ≤ d.model ∧ d.model ≤ 5 ∨ d.model = 7 ∨ d.model = 8) (k : KickArgs) (l : ℝ) (L : List Step)
    (p : Part) : |(runSteps d k l L p).s - (p.s + (L.map Step.length).sum * l)| ≤
      (if d.model ≤ 5 then 0 else 1e-15) * ((L.map fun s => |s.length|).sum * |l|) := by
  induction L generalizing p with
  | nil => simp [runSteps]
  | cons o rest ih =>
    have e : runSteps d k l (o :: rest) p = runSteps d k l rest (o.run d k l p) := rfl
    rw [e, List.map_cons, List.sum_cons, List.map_cons, List.sum_cons]
    have := ih (o.run d k l p)
    have ds := fun r => drift_s d hd (r * l) p
    generalize (if d.model ≤ 5 then (0 : ℝ) else 1e-15) = t at *
    cases o with
    | kick w =>
      simp only [Step.run, Step.length, kick_s, abs_zero, zero_add] at this ⊢
      exact this
    | drift r =>
      simp only [Step.run, Step.length] at this ⊢
      have hs := ds r
      generalize (magnetDrift d (r * l) p).s = s1 at *
      generalize (runSteps d k l rest (magnetDrift d (r * l) p)).s = s2 at *
      generalize (rest.map Step.length).sum = u at *
      have tri := abs_add_le (s2 - (s1 + u * l)) (s1 - (p.s + r * l))
      rw [show s2 - (s1 + u * l) + (s1 - (p.s + r * l)) = s2 - (p.s + (r + u) * l) by ring] at tri
      rw [abs_mul] at hs
      calc _ ≤ _ := tri
        _ ≤ _ := by linarith

theorem body_s (d : DriftArgs) (hd : 0 ≤ d.model ∧ d.model ≤ 5 ∨ d.model = 7 ∨ d.model = 8) (k : KickArgs) (l : ℝ) (n : ℕ) (i : ℤ)
    (hi : i = 1 ∨ i = 2 ∨ i = 3) (hn : n = 0 → k.k0 = 0 ∧ k.k1 = 0 ∧ k.h = 0) (p : Part) :
    |(body d k l n i p).s - (p.s + l)| ≤ (if d.model ≤ 5 then 0 else 3e-15) * |l| := by
  have t3 : ((if d.model ≤ 5 then 0 else 3e-15 : ℝ)) = 3 * (if d.model ≤ 5 then 0 else 1e-15) := by
    split_ifs <;> norm_num
  have t0 : (0 : ℝ) ≤ if d.model ≤ 5 then 0 else 1e-15 := by
    split_ifs <;> norm_num
  rw [t3]
  by_cases c : n = 0
  · have := drift_s d hd l p
    simp only [body, if_pos (show n = 0 ∧ k.k0 = 0 ∧ k.k1 = 0 ∧ k.h = 0 from ⟨c, hn c⟩)]
    refine this.trans (mul_le_mul_of_nonneg_right ?_ (abs_nonneg l))
    linarith
  · have := steps_s d hd k l (steps i n) p
    rw [(C61_weights i hi n (by omega)).1, one_mul] at this
    simp only [body, if_neg (show ¬ (n = 0 ∧ k.k0 = 0 ∧ k.k1 = 0 ∧ k.h = 0) from fun h => c h.1)]
    refine this.trans ?_
    have h3 := abs_weights i n (by omega)
    have : (List.map (fun s => |s.length|) (steps i n)).sum * |l| ≤ 3 * |l| := mul_le_mul_of_nonneg_right h3 (abs_nonneg l)
    calc _ ≤ _ := mul_le_mul_of_nonneg_left this t0
      _ = _ := by ring

/-- If the number of kicks is zero, then main strengths, arrays and curvature are zero: the body is a drift. -/
theorem C61_no_kicks (m : Magnet) (w h l : ℝ) (hn : kickNumber m w h l = 0) :
    kickInactive m.order m.knl m.ksl m.k0 m.k1 m.k2 m.k3 m.k0s m.k1s m.k2s m.k3s h := by
  unfold kickNumber at hn
  simp only at hn
  generalize (if w ≠ 1 ∧ (if (if m.model = 0 then m.defaultModel else m.model) = -1 then 1 else m.numKicks) > 0 then _ else _ : ℕ) = n1 at hn
  by_cases c : n1 = 0
  · rw [if_pos c] at hn
    by_contra hk
    rw [if_neg hk] at hn
    by_cases c2 : |h| < 1e-8
    · rw [if_pos c2] at hn
      omega
    · rw [if_neg c2] at hn
      omega
  · rw [if_neg c] at hn
    exact absurd hn c

theorem no_kicks_conf {m : Magnet} {w h l : ℝ} (hn : kickNumber m w h l = 0) :
    (configure (modelOf m) m.k0 m.k1 h m.ks).k0Kick = 0 ∧ (configure (modelOf m) m.k0 m.k1 h m.ks).k1Kick = 0 ∧
    (configure (modelOf m) m.k0 m.k1 h m.ks).hKick = 0 := by
  obtain ⟨h1, h2, h3, _⟩ := C61_no_kicks m w h l hn
  unfold configure
  simp only
  split_ifs <;> simp [h1, h2, h3]

theorem edge_s {m : Magnet} {fullEdge : Bool → Part → Part} (hf : ∀ x p, (fullEdge x p).s = p.s) {l : ℝ} {e : Edge} {x b : Bool}
    {p q : Part} (h : edge m fullEdge l e x b p = some q) : q.s = p.s := by
  unfold edge at h
  by_cases c : e.model = 0
  · simp only [if_pos c, Option.some.injEq] at h
    rw [← h]
    rfl
  · rw [if_neg c] at h
    by_cases c2 : e.model = 1 ∨ e.model = 2
    · rw [if_pos c2] at h
      cases b
      · simp only [Bool.false_eq_true, if_false, Option.some.injEq] at h
        rw [← h, hf]
      · simp at h
    · rw [if_neg c2] at h
      cases h
      rfl

theorem yRot_s (p : Part) (a b c : ℝ) : (yRot p a b c).s = p.s := by
  unfold yRot
  simp only
  split_ifs <;> rfl

/-- Tracking advances `s` by the length of the magnet along the reference trajectory times the weight of the slice, tracking back takes
it back by as much, exactly or, for the models with nested integrators, to 15 digits. -/
theorem C61_path (m : Magnet) (fullEdge : Bool → Part → Part) (hf : ∀ x p, (fullEdge x p).s = p.s) (w : ℝ) (back : Bool) (p q : Part)
    (hb : m.bodyActive = true) (hmod : 1 ≤ modelOf m ∧ modelOf m ≤ 8) (hi : integratorOf m = 1 ∨ integratorOf m = 2 ∨ integratorOf m = 3)
    (h : trackMagnet m fullEdge w back p = some q) :
    |q.s - (p.s + (if back then -1 else 1) * (w * m.length))| ≤ 3e-15 * |w * (geometry m).length| ∧
    (modelOf m ≠ 1 → modelOf m ≠ 3 → modelOf m ≠ 8 → q.s = p.s + (if back then -1 else 1) * (w * m.length)) := by
  have hcl : (geometry m).straight = true → (geometry m).lengthCurved = m.length := by
    rw [straight_iff]
    intro h2
    simp [geometry, h2]
  have hl : ¬ (geometry m).straight = true → (geometry m).length = m.length := by
    rw [straight_iff]
    intro h2
    simp only [geometry, if_neg h2]
    split_ifs <;> rfl
  have hB : ∀ sg x, |(trackBody m (geometry m) w sg x).s - (x.s + sg * (w * m.length))| ≤ 3e-15 * |sg * (w * (geometry m).length)| ∧
      (modelOf m ≠ 1 → modelOf m ≠ 3 → modelOf m ≠ 8 → (trackBody m (geometry m) w sg x).s = x.s + sg * (w * m.length)) := by
    intro sg x
    rw [trackBody_eq]
    simp only
    generalize hc : configure (modelOf m) m.k0 m.k1 (geometry m).h m.ks = c
    have hd : 0 ≤ c.driftModel ∧ c.driftModel ≤ 5 ∨ c.driftModel = 7 ∨ c.driftModel = 8 := by
      rw [← hc]
      obtain h | h | h | h | h | h | h | h : modelOf m = 1 ∨ modelOf m = 2 ∨ modelOf m = 3 ∨ modelOf m = 4 ∨ modelOf m = 5 ∨
        modelOf m = 6 ∨ modelOf m = 7 ∨ modelOf m = 8 := by omega
      all_goals
        rw [h]
        unfold configure driftModelOf
        by_cases hz : |(geometry m).h| < 1e-8 <;> simp [hz]
    have hd5 : modelOf m ≠ 1 → modelOf m ≠ 3 → modelOf m ≠ 8 → c.driftModel ≤ 5 := by
      intro n1 n3 n8
      rw [← hc]
      obtain h | h | h | h | h : modelOf m = 2 ∨ modelOf m = 4 ∨ modelOf m = 5 ∨ modelOf m = 6 ∨ modelOf m = 7 := by omega
      all_goals
        rw [h]
        unfold configure driftModelOf
        by_cases hz : |(geometry m).h| < 1e-8 <;> simp [hz]
    have hk := no_kicks_conf (m := m) (w := w) (h := (geometry m).h) (l := sg * (geometry m).length * w)
    rw [hc] at hk
    have := body_s (driftArgs m c) hd (kickArgs m c (sg * (geometry m).length * w) (sg * w) (sg * m.hxl)) (sg * (geometry m).length * w)
      (kickNumber m w (geometry m).h (sg * (geometry m).length * w)) (integratorOf m) hi hk x
    generalize body (driftArgs m c) (kickArgs m c (sg * (geometry m).length * w) (sg * w) (sg * m.hxl)) (sg * (geometry m).length * w)
      (kickNumber m w (geometry m).h (sg * (geometry m).length * w)) (integratorOf m) x = b at *
    have es : (later (if (geometry m).straight = true ∧ modelOf m ≥ 0 then
          sg * (geometry m).lengthCurved * w - sg * (geometry m).length * w else 0)
        (if (geometry m).straight = true ∧ modelOf m ≥ 0 then
          sg * (geometry m).lengthCurved * w - sg * (geometry m).length * w else 0) b).s - (x.s + sg * (w * m.length)) =
        b.s - (x.s + sg * (geometry m).length * w) := by
      unfold later
      simp only
      by_cases hs : (geometry m).straight = true
      · rw [if_pos ⟨hs, by omega⟩, hcl hs]
        ring
      · rw [if_neg (fun h => hs h.1), hl hs]
        ring
    constructor
    · rw [es]
      refine this.trans ?_
      rw [show sg * (w * (geometry m).length) = sg * (geometry m).length * w by ring]
      refine mul_le_mul_of_nonneg_right ?_ (abs_nonneg _)
      split_ifs <;> norm_num
    · intro n1 n3 n8
      have h5 : (driftArgs m c).model ≤ 5 := hd5 n1 n3 n8
      rw [if_pos h5, zero_mul] at this
      have := abs_nonpos_iff.1 this
      rw [← es] at this
      linarith
  unfold trackMagnet at h
  simp only [hb, if_true] at h
  have hin : ∀ g e t x y, trackEntry m fullEdge g e t back x = some y → y.s = x.s := by
    intro g e t x y hy
    unfold trackEntry at hy
    by_cases ha : e.active = true
    · rw [if_pos ha] at hy
      rw [edge_s hf hy]
      split_ifs
      · simp only [tiltIn, yRot_s]
      · rfl
    · rw [if_neg ha] at hy
      cases hy
      rfl
  have hout : ∀ g e t x y, trackExit m fullEdge g e t back x = some y → y.s = x.s := by
    intro g e t x y hy
    unfold trackExit at hy
    by_cases ha : e.active = true
    · rw [if_pos ha] at hy
      cases he : edge m fullEdge g.length e true back x with
      | none => rw [he] at hy; cases hy
      | some z =>
        rw [he] at hy
        simp only [Option.some.injEq] at hy
        rw [← edge_s hf he, ← hy]
        split_ifs
        · simp only [tiltOut, yRot_s]
        · rfl
    · rw [if_neg ha] at hy
      cases hy
      rfl
  generalize hq : trackEntry m fullEdge (geometry m) _ _ back p = r at h
  cases r with
  | none => cases h
  | some r =>
    simp only at h
    have e1 := hin _ _ _ _ _ hq
    have e2 := hout _ _ _ _ _ h
    have := hB (if back = true then -1 else 1) r
    rw [e2, ← e1]
    refine ⟨?_, this.2⟩
    refine this.1.trans (le_of_eq ?_)
    rw [abs_mul (if back = true then (-1 : ℝ) else 1)]
    cases back <;> simp

/-! ## The field -/

/-- Multipoles per length, besides the main components. -/
structure Multipoles where
  /-- the complex field `By + i Bx` of everything, including the main components -/
  field : Part → ℂ
  /-- normal dipole -/
  K0 : ℝ
  /-- normal quadrupole -/
  K1 : ℝ

/-- Hamilton's equations in a magnet: the exact kinetic part in a frame with curvature `h`, and the multipoles with the terms which the
curvature adds to dipole and quadrupole. -/
def exactRates (h : ℝ) (M : Multipoles) (p : Part) : Rates where
  x := (1 + h * p.x) * p.px / p.pz
  px := h * p.pz - p.chi * ((M.field p).re + h * (M.K0 * p.x + M.K1 * (p.x ^ 2 - p.y ^ 2 / 2)))
  y := (1 + h * p.x) * p.py / p.pz
  py := p.chi * ((M.field p).im + h * M.K1 * (p.x * p.y))
  zeta := 1 - (1 + h * p.x) * (1 + p.delta) / p.pz / p.rvv

/-- The same with the kinetic part to second order. -/
def secondOrderRates (h : ℝ) (M : Multipoles) (p : Part) : Rates where
  x := p.px / (1 + p.delta)
  px := h * (1 + p.delta) - p.chi * ((M.field p).re + h * (M.K0 * p.x + M.K1 * (p.x ^ 2 - p.y ^ 2 / 2)))
  y := p.py / (1 + p.delta)
  py := p.chi * ((M.field p).im + h * M.K1 * (p.x * p.y))
  zeta := 1 - (1 + h * p.x + ((p.px / (1 + p.delta)) ^ 2 + (p.py / (1 + p.delta)) ^ 2) / 2) / p.rvv

/-- The same with the exact kinetic part of a straight magnet, the curvature being added to first order. -/
def mixedRates (h : ℝ) (M : Multipoles) (p : Part) : Rates where
  x := p.px / p.pz
  px := h * (1 + p.delta) - p.chi * ((M.field p).re + h * (M.K0 * p.x + M.K1 * (p.x ^ 2 - p.y ^ 2 / 2)))
  y := p.py / p.pz
  py := p.chi * ((M.field p).im + h * M.K1 * (p.x * p.y))
  zeta := 1 - (1 + p.delta) / p.pz / p.rvv - h * p.x / p.rvv

/-- The same in a longitudinal field, without curvature. -/
def solenoidMultRates (ks x0 y0 : ℝ) (M : Multipoles) (p : Part) : Rates :=
  { solenoidRates ks x0 y0 p with
    px := (solenoidRates ks x0 y0 p).px - p.chi * (M.field p).re
    py := (solenoidRates ks x0 y0 p).py + p.chi * (M.field p).im }

/-- The multipoles of a magnet of length `L`: main components, `knl` and `ksl`, and the relative ones. -/
def multipolesOf (m : Magnet) (L : ℝ) : Multipoles where
  field p := ⟨m.k0, m.k0s⟩ + ⟨m.k1, m.k1s⟩ * ⟨p.x, p.y⟩ + ⟨m.k2, m.k2s⟩ * ⟨p.x, p.y⟩ ^ 2 / 2 + ⟨m.k3, m.k3s⟩ * ⟨p.x, p.y⟩ ^ 3 / 6
    + (field m.knl m.ksl m.order p.x p.y + (m.relRef : ℂ) * field m.knlRel m.kslRel m.orderRel p.x p.y) / (L : ℂ)
  K0 := m.k0 + (m.knl 0 + m.relRef * m.knlRel 0) / L
  K1 := m.k1 + ((if 1 ≤ m.order then m.knl 1 else 0) + (if 1 ≤ m.orderRel then m.relRef * m.knlRel 1 else 0)) / L

/-- What a drift part does: for the models of C59 the equations it solves, for the nested integrators the sum of their parts
(`C59_nested_path`). -/
def partRates (d : DriftArgs) (p : Part) : Rates :=
  if d.model = 7 ∨ d.model = 8 then { bendRates 0 d.h p with px := (bendRates 0 d.h p).px - p.chi * d.k0 }
  else driftRates d.model d.k0 d.k1 d.ks d.h d.x0 d.y0 p

/-- What the kicks of a body of length `L` add. -/
def addKicks (k : KickArgs) (L : ℝ) (p : Part) (r : Rates) : Rates :=
  { r with px := r.px + forceX k p / L, py := r.py + forceY k p / L, zeta := r.zeta + forceZ k p / L }

/-- What each model stands for. -/
def modelRates (model : ℤ) (h ks x0 y0 : ℝ) (M : Multipoles) : Part → Rates :=
  if model = 4 ∨ model = 6 then secondOrderRates h M
  else if model = 5 then mixedRates h M
  else if model = -2 then solenoidMultRates ks x0 y0 M
  else exactRates h M

theorem bodyField_main (m : Magnet) (c : Conf) (L w : ℝ) (hL : L ≠ 0) (p : Part) :
    (bodyField (kickArgs m c (L * w) w 0) p.x p.y).re = L * w * (((multipolesOf m L).field p).re + (c.k0Kick - m.k0)
      + (c.k1Kick - m.k1) * p.x) ∧
    (bodyField (kickArgs m c (L * w) w 0) p.x p.y).im = L * w * (((multipolesOf m L).field p).im + (c.k1Kick - m.k1) * p.y) := by
  have hL' : (L : ℂ) ≠ 0 := by exact_mod_cast hL
  have e : bodyField (kickArgs m c (L * w) w 0) p.x p.y = ((L * w : ℝ) : ℂ) * ((multipolesOf m L).field p + ((c.k0Kick - m.k0 : ℝ) : ℂ)
      + ((c.k1Kick - m.k1 : ℝ) : ℂ) * ⟨p.x, p.y⟩) := by
    simp only [bodyField, kickArgs, multipolesOf]
    have a1 : (⟨c.k0Kick, m.k0s⟩ : ℂ) = ⟨m.k0, m.k0s⟩ + ((c.k0Kick - m.k0 : ℝ) : ℂ) := by
      apply Complex.ext <;> simp
    have a2 : (⟨c.k1Kick, m.k1s⟩ : ℂ) = ⟨m.k1, m.k1s⟩ + ((c.k1Kick - m.k1 : ℝ) : ℂ) := by
      apply Complex.ext <;> simp
    rw [a1, a2]
    push_cast
    field_simp
    ring
  rw [e]
  constructor
  · rw [Complex.re_ofReal_mul, Complex.add_re, Complex.add_re, Complex.re_ofReal_mul, Complex.ofReal_re]
  · rw [Complex.im_ofReal_mul, Complex.add_im, Complex.add_im, Complex.im_ofReal_mul, Complex.ofReal_im]
    ring

theorem kick_forces (m : Magnet) (c : Conf) (L w : ℝ) (hL : L ≠ 0) (hw : w ≠ 0) (p : Part) :
    forceX (kickArgs m c (L * w) w 0) p / (L * w) = -(p.chi * (((multipolesOf m L).field p).re + (c.k0Kick - m.k0)
        + (c.k1Kick - m.k1) * p.x)) + (if c.rot then c.hKick * (1 + p.delta) else 0)
      - p.chi * c.hKick * ((multipolesOf m L).K0 - m.k0 + c.k0h) * p.x
      - p.chi * c.hKick * ((multipolesOf m L).K1 - m.k1 + c.k1h) * (p.x ^ 2 - p.y ^ 2 / 2) ∧
    forceY (kickArgs m c (L * w) w 0) p / (L * w) = p.chi * (((multipolesOf m L).field p).im + (c.k1Kick - m.k1) * p.y)
      + p.chi * c.hKick * ((multipolesOf m L).K1 - m.k1 + c.k1h) * (p.x * p.y) ∧
    forceZ (kickArgs m c (L * w) w 0) p / (L * w) = if c.rot then -(c.hKick * p.x / p.rvv) else 0 := by
  obtain ⟨hre, him⟩ := bodyField_main m c L w hL p
  have hT : hTot (kickArgs m c (L * w) w 0) = c.hKick := by
    simp [hTot, kickArgs]
  have h0 : k0lMult (kickArgs m c (L * w) w 0) = L * w * ((multipolesOf m L).K0 - m.k0) := by
    simp only [k0lMult, kickArgs, multipolesOf]
    field_simp
    ring
  have h1 : k1lMult (kickArgs m c (L * w) w 0) = L * w * ((multipolesOf m L).K1 - m.k1) := by
    simp only [k1lMult, kickArgs, multipolesOf]
    by_cases c : 1 ≤ m.order <;> by_cases c' : 1 ≤ m.orderRel <;> simp only [c, c', if_true, if_false] <;> field_simp <;> ring
  refine ⟨?_, ?_, ?_⟩
  · simp only [forceX, hre, hT, h0, h1]
    simp only [kickArgs]
    by_cases cr : c.rot = true <;> simp only [cr, if_true, if_false, Bool.false_eq_true] <;> field_simp <;> ring
  · simp only [forceY, him, hT, h1]
    simp only [kickArgs]
    field_simp
    ring
  · simp only [forceZ]
    simp only [kickArgs]
    by_cases cr : c.rot = true <;> simp only [cr, if_true, if_false, Bool.false_eq_true]
    · field_simp
      ring
    · simp

/-- The kicks inside a nested integrator are the kicks of C58 of a dipole. -/
theorem C61_nested_kick (c L k0 : ℝ) (p : Part) :
    k0Kick c L k0 p = kickSimple p 0 (invFact 0) (fun _ => k0 * L) (fun _ => 0) 1 c := by
  ext <;> simp [k0Kick, kickSimple, kickCoords, horner, invFact]
  ring

theorem Rates.eq {r q : Rates} (h1 : r.x = q.x) (h2 : r.px = q.px) (h3 : r.y = q.y) (h4 : r.py = q.py) (h5 : r.zeta = q.zeta) :
    r = q := by
  cases r
  cases q
  simp_all

/-- For every model and every slice: drift part and kicks together are the equations of motion in the field of the magnet.  The models
2, 3, 7 and 8 are the same exact equations, 4 and 6 the same to second order, 5 coincides with the exact equations if there is no
curvature. -/
theorem C61_same_field (m : Magnet) (model : ℤ) (h L w : ℝ) (hL : L ≠ 0) (hw : w ≠ 0) (hh : h = 0 ∨ 1e-8 ≤ |h|)
    (hm : 1 ≤ model ∧ model ≤ 8 ∨ model = -2 ∧ h = 0) (p : Part) :
    addKicks (kickArgs m (configure model m.k0 m.k1 h m.ks) (L * w) w 0) (L * w) p
      (partRates (driftArgs m (configure model m.k0 m.k1 h m.ks)) p) =
    modelRates model h m.ks m.x0 m.y0 (multipolesOf m L) p := by
  generalize hc : configure model m.k0 m.k1 h m.ks = c
  obtain ⟨fx, fy, fz⟩ := kick_forces m c L w hL hw p
  generalize multipolesOf m L = M at *
  unfold addKicks
  rw [fx, fy, fz]
  clear fx fy fz
  have hz : (|h| < 1e-8) = (h = 0) := by
    apply propext
    constructor
    · intro e
      obtain h | h := hh
      · exact h
      · exact absurd e (not_lt.2 h)
    · rintro rfl
      norm_num
  unfold configure driftModelOf at hc
  simp only [hz] at hc
  obtain e | e | e | e | e | e | e | e | ⟨e, e'⟩ : model = 1 ∨ model = 2 ∨ model = 3 ∨ model = 4 ∨ model = 5 ∨ model = 6 ∨ model = 7 ∨
    model = 8 ∨ model = -2 ∧ h = 0 := by
    obtain ⟨h1, h2⟩ | h3 := hm
    · have : model = 1 ∨ model = 2 ∨ model = 3 ∨ model = 4 ∨ model = 5 ∨ model = 6 ∨ model = 7 ∨ model = 8 := by omega
      tauto
    · tauto
  all_goals
    subst e
    by_cases h0 : h = 0
    · subst h0
      norm_num at hc
      subst hc
      apply Rates.eq <;>
        norm_num [modelRates, partRates, driftArgs, driftRates, exactRates, secondOrderRates, mixedRates, solenoidMultRates, bendRates,
          expandedRates] <;> ring
    · first
        | exact absurd e' h0
        | (norm_num [h0] at hc
           subst hc
           apply Rates.eq <;>
             norm_num [modelRates, partRates, driftArgs, driftRates, exactRates, secondOrderRates, mixedRates, solenoidMultRates,
               bendRates, expandedRates] <;> ring)

/-! ## Slices -/

/-- The kicks of the slices of a magnet add up to those of the magnet, if `hxl` is zero. -/
theorem C61_slices (m : Magnet) (c : Conf) (L : ℝ) (ws : List ℝ) (hw : ws.sum = 1) (p : Part) :
    (ws.map fun w => forceX (kickArgs m c (L * w) w 0) p).sum = forceX (kickArgs m c L 1 0) p ∧
    (ws.map fun w => forceY (kickArgs m c (L * w) w 0) p).sum = forceY (kickArgs m c L 1 0) p ∧
    (ws.map fun w => forceZ (kickArgs m c (L * w) w 0) p).sum = forceZ (kickArgs m c L 1 0) p := by
  have hT : ∀ l w, hTot (kickArgs m c l w 0) = c.hKick := by
    intro l w
    simp [hTot, kickArgs]
  have h0 : ∀ l w, k0lMult (kickArgs m c l w 0) = w * k0lMult (kickArgs m c L 1 0) := by
    intro l w
    simp only [k0lMult, kickArgs]
    ring
  have h1 : ∀ l w, k1lMult (kickArgs m c l w 0) = w * k1lMult (kickArgs m c L 1 0) := by
    intro l w
    simp only [k1lMult, kickArgs]
    by_cases c : 1 ≤ m.order <;> by_cases c' : 1 ≤ m.orderRel <;> simp only [c, c', if_true, if_false] <;> ring
  have hB : ∀ w x y, bodyField (kickArgs m c (L * w) w 0) x y = (w : ℂ) * bodyField (kickArgs m c L 1 0) x y := by
    intro w x y
    simp only [bodyField, kickArgs]
    push_cast
    ring
  have hX : ∀ w, forceX (kickArgs m c (L * w) w 0) p = w * forceX (kickArgs m c L 1 0) p := by
    intro w
    simp only [forceX, hT, h0 (L * w) w, h1 (L * w) w, hB, Complex.re_ofReal_mul]
    simp only [kickArgs]
    by_cases cr : c.rot = true <;> simp only [cr, if_true, if_false, Bool.false_eq_true] <;> ring
  have hY : ∀ w, forceY (kickArgs m c (L * w) w 0) p = w * forceY (kickArgs m c L 1 0) p := by
    intro w
    simp only [forceY, hT, h1 (L * w) w, hB, Complex.im_ofReal_mul]
    simp only [kickArgs]
    ring
  have hZ : ∀ w, forceZ (kickArgs m c (L * w) w 0) p = w * forceZ (kickArgs m c L 1 0) p := by
    intro w
    simp only [forceZ]
    simp only [kickArgs]
    by_cases cr : c.rot = true <;> simp only [cr, if_true, if_false, Bool.false_eq_true] <;> ring
  have sum : ∀ f : ℝ, (ws.map fun w => w * f).sum = f := by
    intro f
    rw [List.sum_map_mul_right, List.map_id'', hw, one_mul]
    exact fun _ => rfl
  simp only [hX, hY, hZ, sum]
  exact ⟨trivial, trivial, trivial⟩

/-- An inactive edge. -/
def noEdge : Edge := ⟨false, 0, 0, 0, 0, 0⟩

/-- A multipole of length 1 without any field, the reference trajectory of which bends by `hxl = 1`. -/
def bareMultipole (model : ℤ) (n : ℕ) : Magnet :=
  { length := 1, order := 0, knl := fun _ => 0, ksl := fun _ => 0, orderRel := 0, knlRel := fun _ => 0, kslRel := fun _ => 0
    relRef := 0, numKicks := n, model := model, defaultModel := 6, integrator := 0, defaultIntegrator := 3, h := 0, hxl := 1, k0 := 0
    k1 := 0, k2 := 0, k3 := 0, k0s := 0, k1s := 0, k2s := 0, k3s := 0, ks := 0, x0 := 0, y0 := 0, rbendModel := -1
    compensateSagitta := false, rbendShift := 0, rbendAngleDiff := 0, lengthStraight := 0, bodyActive := true
    entry := noEdge, exit := noEdge }

theorem bare_geometry (model : ℤ) (n : ℕ) : geometry (bareMultipole model n) =
    ⟨false, 1, 0, 0, ⟨0, 1, 0⟩, ⟨0, 1, 0⟩, noEdge, noEdge⟩ := by
  simp [geometry, bareMultipole]

theorem bare_track (model : ℤ) (n : ℕ) (fullEdge : Bool → Part → Part) (w : ℝ) (p : Part) :
    trackMagnet (bareMultipole model n) fullEdge w false p =
      some (trackBody (bareMultipole model n) ⟨false, 1, 0, 0, ⟨0, 1, 0⟩, ⟨0, 1, 0⟩, noEdge, noEdge⟩ w 1 p) := by
  simp only [trackMagnet, bare_geometry, trackEntry, trackExit, noEdge, Bool.false_eq_true, if_false]
  rfl

theorem field_zero (N : ℕ) (x y : ℝ) : field (fun _ => 0) (fun _ => 0) N x y = 0 := by
  unfold field
  have h0 : (⟨0, 0⟩ : ℂ) = 0 := rfl
  simp [h0]

theorem bare_force (model : ℤ) (n : ℕ) (l w : ℝ) (p : Part) : forceX (kickArgs (bareMultipole model n)
    ⟨0, 0, 0, 0, 0, 0, 0, 0, 0, true, -1⟩ l w 1) p = 1 + p.delta := by
  have h0 : (⟨0, 0⟩ : ℂ) = 0 := rfl
  simp [forceX, kickArgs, bareMultipole, bodyField, field_zero, h0, k0lMult, k1lMult]

/-- With the curvature `hxl` slices do not add up: two halves of a multipole turn the reference frame by twice the angle. -/
theorem C61_hxl_slices_violated : ∃ (m : Magnet) (fullEdge : Bool → Part → Part) (p q r r' : Part),
    trackMagnet m fullEdge 1 false p = some q ∧ trackMagnet m fullEdge (1 / 2) false p = some r ∧
    trackMagnet m fullEdge (1 / 2) false r = some r' ∧ q.px = 1 ∧ r'.px = 2 := by
  have run : ∀ w p, 0 < w → w ≤ 1 → (trackBody (bareMultipole (-1) 1) ⟨false, 1, 0, 0, ⟨0, 1, 0⟩, ⟨0, 1, 0⟩, noEdge, noEdge⟩ w 1 p).px =
      p.px + (1 + p.delta) ∧
      (trackBody (bareMultipole (-1) 1) ⟨false, 1, 0, 0, ⟨0, 1, 0⟩, ⟨0, 1, 0⟩, noEdge, noEdge⟩ w 1 p).delta = p.delta := by
    intro w p hw hw1
    have hn : kickNumber (bareMultipole (-1) 1) w 0 (1 * 1 * w) = 1 := by
      have : ⌈w⌉₊ = 1 := by
        rw [Nat.ceil_eq_iff (by norm_num)]
        constructor
        · simpa using hw
        · simpa using hw1
      simp [kickNumber, bareMultipole, this]
    have hc : configure (modelOf (bareMultipole (-1) 1)) (bareMultipole (-1) 1).k0 (bareMultipole (-1) 1).k1 0 (bareMultipole (-1) 1).ks =
        ⟨0, 0, 0, 0, 0, 0, 0, 0, 0, true, -1⟩ := by
      simp [configure, driftModelOf, modelOf, bareMultipole]
    have hi : integratorOf (bareMultipole (-1) 1) = 3 := by simp [integratorOf, modelOf, bareMultipole]
    simp only [trackBody, hn, hc, hi, Bool.false_eq_true, false_and, if_false, body, one_ne_zero]
    have hs : steps 3 1 = [.drift (0.5 * (1 / (1 : ℕ))), .kick (1 / (1 : ℕ)), .drift (0.5 * (1 / (1 : ℕ)))] := by
      simp [steps, uniform]
    have hd : ∀ l q, magnetDrift (driftArgs (bareMultipole (-1) 1) ⟨0, 0, 0, 0, 0, 0, 0, 0, 0, true, -1⟩) l q = q := by
      intro l q
      simp [magnetDrift, driftArgs]
    rw [hs]
    simp only [runSteps, List.foldl_cons, List.foldl_nil, Step.run, hd]
    rw [C58_kick]
    have hx : (bareMultipole (-1) 1).hxl = 1 := rfl
    simp only [hx, mul_one, bare_force]
    norm_num
  refine ⟨bareMultipole (-1) 1, fun _ p => p, onAxis, _, _, _, bare_track .., bare_track .., bare_track .., ?_, ?_⟩
  · rw [(run 1 _ (by norm_num) (by norm_num)).1]
    norm_num [onAxis]
  · rw [(run (1 / 2) _ (by norm_num) (by norm_num)).1, (run (1 / 2) _ (by norm_num) (by norm_num)).1,
      (run (1 / 2) _ (by norm_num) (by norm_num)).2]
    norm_num [onAxis]

/-- When the number of kicks is left to be chosen automatically, the curvature `hxl` is forgotten: the same multipole with one kick
turns the frame. -/
theorem C61_hxl_auto_violated : ∃ (m m' : Magnet) (fullEdge : Bool → Part → Part) (p q q' : Part), m' = { m with numKicks := 1 } ∧
    m.numKicks = 0 ∧ trackMagnet m fullEdge 1 false p = some q ∧ trackMagnet m' fullEdge 1 false p = some q' ∧ q.px = 0 ∧ q'.px = 1 := by
  refine ⟨bareMultipole 0 0, bareMultipole 0 1, fun _ p => p, onAxis, _, _, rfl, rfl, bare_track .., bare_track .., ?_, ?_⟩
  · have hk : kickNumber (bareMultipole 0 0) 1 0 (1 * 1 * 1) = 0 := by
      simp [kickNumber, bareMultipole, kickInactive]
    have hc : configure (modelOf (bareMultipole 0 0)) (bareMultipole 0 0).k0 (bareMultipole 0 0).k1 0 (bareMultipole 0 0).ks =
        ⟨0, 0, 0, 0, 0, 0, 0, 0, 0, true, 0⟩ := by
      simp [configure, driftModelOf, modelOf, bareMultipole]
    simp only [trackBody, hk, hc, Bool.false_eq_true, false_and, if_false, body]
    norm_num [kickArgs, magnetDrift, driftArgs, driftExpanded, onAxis]
  · have hk : kickNumber (bareMultipole 0 1) 1 0 (1 * 1 * 1) = 1 := by
      simp [kickNumber, bareMultipole]
    have hc : configure (modelOf (bareMultipole 0 1)) (bareMultipole 0 1).k0 (bareMultipole 0 1).k1 0 (bareMultipole 0 1).ks =
        ⟨0, 0, 0, 0, 0, 0, 0, 0, 0, true, 0⟩ := by
      simp [configure, driftModelOf, modelOf, bareMultipole]
    have hi : integratorOf (bareMultipole 0 1) = 3 := by simp [integratorOf, modelOf, bareMultipole]
    have hs : steps 3 1 = [.drift (0.5 * (1 / (1 : ℕ))), .kick (1 / (1 : ℕ)), .drift (0.5 * (1 / (1 : ℕ)))] := by
      simp [steps, uniform]
    have hd : ∀ l q, magnetDrift (driftArgs (bareMultipole 0 1) ⟨0, 0, 0, 0, 0, 0, 0, 0, 0, true, 0⟩) l q = driftExpanded q l := by
      intro l q
      exact congrFun (md0 rfl q) l
    simp only [trackBody, hk, hc, hi, Bool.false_eq_true, false_and, if_false, body, one_ne_zero]
    rw [hs]
    simp only [runSteps, List.foldl_cons, List.foldl_nil, Step.run, hd]
    rw [C58_kick]
    have hx : (bareMultipole 0 1).hxl = 1 := rfl
    have hf : ∀ l w p, forceX (kickArgs (bareMultipole 0 1) ⟨0, 0, 0, 0, 0, 0, 0, 0, 0, true, 0⟩ l w 1) p = 1 + p.delta :=
      fun l w p => bare_force 0 1 l w p
    simp only [hx, mul_one, hf]
    norm_num [onAxis, driftExpanded]

end

end Verif.Magnets
