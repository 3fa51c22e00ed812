import Verif.Cleanup.Merge
import Verif.Magnets.KickProps
import Mathlib.Tactic.LinearCombination

/-!
# Lemmas on the field of multipoles and on elements which do nothing
-/

namespace Verif.Cleanup

open Frames Magnets

noncomputable section

/-! ## Fields -/

theorem field_smul (c : ℝ) (kn ks : ℕ → ℝ) (N : ℕ) (x y : ℝ) :
    (c : ℂ) * field kn ks N x y = field (fun n => c * kn n) (fun n => c * ks n) N x y := by
  unfold field
  rw [Finset.mul_sum]
  apply Finset.sum_congr rfl
  intro n _
  have : (⟨c * kn n, c * ks n⟩ : ℂ) = (c : ℂ) * ⟨kn n, ks n⟩ := by apply Complex.ext <;> simp
  rw [this]
  ring

theorem field_congr (kn ks kn' ks' : ℕ → ℝ) (N : ℕ) (x y : ℝ) (h : ∀ n ≤ N, kn n = kn' n ∧ ks n = ks' n) :
    field kn ks N x y = field kn' ks' N x y := by
  unfold field
  apply Finset.sum_congr rfl
  intro n hn
  obtain ⟨h1, h2⟩ := h n (by simpa [Nat.lt_succ_iff] using hn)
  rw [h1, h2]

theorem field_zero (N : ℕ) (x y : ℝ) : field (fun _ => 0) (fun _ => 0) N x y = 0 := by
  unfold field
  apply Finset.sum_eq_zero
  intro n _
  have h0 : (⟨0, 0⟩ : ℂ) = 0 := rfl
  simp [h0]

/-- Orders with components zero do not matter. -/
theorem field_extend (kn ks : ℕ → ℝ) (N M : ℕ) (hN : N ≤ M) (x y : ℝ) (h : ∀ n, N < n → n ≤ M → kn n = 0 ∧ ks n = 0) :
    field kn ks N x y = field kn ks M x y := by
  have := C58_superpose kn ks (fun _ => 0) (fun _ => 0) N 0 M hN (Nat.zero_le _) x y
  rw [field_zero, add_zero] at this
  rw [this]
  apply field_congr
  intro n hn
  by_cases c : n ≤ N
  · simp [c]
  · obtain ⟨h1, h2⟩ := h n (by omega) hn
    simp [c, h1, h2]

theorem field_add (kn ks kn' ks' : ℕ → ℝ) (N : ℕ) (x y : ℝ) :
    field kn ks N x y + field kn' ks' N x y = field (fun n => kn n + kn' n) (fun n => ks n + ks' n) N x y := by
  rw [C58_superpose kn ks kn' ks' N N N le_rfl le_rfl]
  apply field_congr
  intro n hn
  simp [hn]

/-! ## The field of a multipole -/

/-- Everything that a multipole applies: the field of the totals that Python reports. -/
def Mult.field (m : Mult) (x y : ℝ) : ℂ := Magnets.field m.totalN m.totalS m.totalLen x y

theorem total_zero (m : Mult) (n : ℕ) (h : m.totalLen ≤ n) : m.totalN n = 0 ∧ m.totalS n = 0 := by
  unfold Mult.totalLen at h
  have h1 : ¬ n ≤ m.order := by omega
  have h2 : ¬ n ≤ m.orderRel := by omega
  simp [Mult.totalN, Mult.totalS, h1, h2]

theorem field_total (m : Mult) (N : ℕ) (hN : m.totalLen ≤ N + 1) (x y : ℝ) : Magnets.field m.totalN m.totalS N x y = m.field x y := by
  unfold Mult.field
  rcases Nat.le_total N m.totalLen with h | h
  · exact field_extend _ _ _ _ h x y (fun n hn _ => total_zero m n (by omega))
  · exact (field_extend _ _ _ _ h x y (fun n hn _ => total_zero m n (by omega))).symm

theorem field_parts (m : Mult) (x y : ℝ) :
    Magnets.field m.knl m.ksl m.order x y + (m.main : ℂ) * Magnets.field m.knlRel m.kslRel m.orderRel x y = m.field x y := by
  rw [field_smul, C58_superpose _ _ _ _ m.order m.orderRel m.totalLen (by unfold Mult.totalLen; omega) (by unfold Mult.totalLen; omega)]
  rfl

/-! ## The kick of a multipole without curvature -/

/-- The kick of a field. -/
def fieldKick (F : ℂ) (p : Part) : Part := { p with px := p.px - p.chi * F.re, py := p.py + p.chi * F.im }

theorem fieldKick_zero (p : Part) : fieldKick 0 p = p := by
  ext <;> simp [fieldKick]

/-- One kick of weight `w` of the body of a multipole with `hxl = 0`. -/
theorem mult_kick (m : Mult) (hx : m.hxl = 0) (c : Conf) (hk0 : c.k0Kick = 0) (hk1 : c.k1Kick = 0) (hh : c.hKick = 0) (len w : ℝ) (p : Part) :
    magnetKick (kickArgs m.magnet c len (1 * 1) (1 * m.hxl)) w p = fieldKick ((w : ℂ) * m.field p.x p.y) p := by
  rw [C58_kick]
  have hT : hTot (kickArgs m.magnet c len (1 * 1) (1 * m.hxl)) = 0 := by
    simp [hTot, kickArgs, hh, hx]
  have hf : bodyField (kickArgs m.magnet c len (1 * 1) (1 * m.hxl)) p.x p.y = m.field p.x p.y := by
    rw [← field_parts]
    have h0 : (⟨0, 0⟩ : ℂ) = 0 := rfl
    simp [bodyField, kickArgs, Mult.magnet, hk0, hk1, h0]
  ext
  · rfl
  · simp only [forceX, hT, hf, fieldKick, Complex.re_ofReal_mul]
    simp [kickArgs, hh, hx]
    ring
  · rfl
  · simp only [forceY, hT, hf, fieldKick, Complex.im_ofReal_mul]
    ring
  · simp [forceZ, fieldKick, kickArgs, hh, hx]
  all_goals rfl

theorem body_eq (m : Mult) (p : Part) : m.body false p = trackBody m.magnet (geometry m.magnet) 1 1 p := by
  have hg : (geometry m.magnet).entry.active = false ∧ (geometry m.magnet).exit.active = false := by
    constructor <;> simp [geometry, Mult.magnet, offEdge]
  have hb : m.magnet.bodyActive = true := rfl
  unfold Mult.body trackMagnet trackEntry trackExit
  simp only [Bool.false_eq_true, if_false, hg.1, hg.2, hb, if_true]

theorem geometry_mult (m : Mult) : (geometry m.magnet).straight = false ∧ (geometry m.magnet).length = m.length ∧
    (geometry m.magnet).h = 0 := by
  simp [geometry, Mult.magnet]

/-- A thin multipole with `hxl = 0` gives the kick of its total field. -/
theorem thin_body (m : Mult) (ht : m.thick = false) (hx : m.hxl = 0) (p : Part) : m.body false p = fieldKick (m.field p.x p.y) p := by
  rw [body_eq]
  obtain ⟨g1, g2, g3⟩ := geometry_mult m
  have hm : modelOf m.magnet = -1 := by simp [modelOf, Mult.magnet, ht]
  have hc : configure (-1) m.magnet.k0 m.magnet.k1 0 m.magnet.ks = ⟨0, 0, 0, 0, 0, 0, 0, 0, 0, true, -1⟩ := by
    simp [configure, driftModelOf, Mult.magnet]
  have hn : ∀ l, kickNumber m.magnet 1 0 l = 1 := by
    intro l
    simp [kickNumber, Mult.magnet, ht]
  have hi : integratorOf m.magnet = 3 := by simp [integratorOf, hm]
  unfold trackBody
  simp only [g1, g2, g3, hm, hc, hn, hi]
  have hk := fun q => mult_kick m hx ⟨0, 0, 0, 0, 0, 0, 0, 0, 0, true, -1⟩ rfl rfl rfl (1 * m.length * 1) 1 q
  have hmx : m.magnet.hxl = m.hxl := rfl
  rw [hmx]
  simp [body, steps, uniform, runSteps, Step.run, magnetDrift, driftArgs, -mul_one, -one_mul, hk]
  norm_num [hk]

/-- A multipole without field, curvature and length does nothing, thick or thin. -/
theorem zero_body (m : Mult) (hl : ¬ (m.thick = true ∧ m.length ≠ 0)) (hx : m.hxl = 0) (hf : ∀ x y, m.field x y = 0) (p : Part) :
    m.body false p = p := by
  by_cases ht : m.thick = true
  · have hl0 : m.length = 0 := by
      by_contra h
      exact hl ⟨ht, h⟩
    rw [body_eq]
    obtain ⟨g1, g2, g3⟩ := geometry_mult m
    have hd : ∀ a q, magnetDrift a 0 q = q := by
      intro a q
      unfold magnetDrift
      by_cases c : a.model = -1
      · rw [if_pos c]
      · rw [if_neg c, if_pos rfl]
    have hmx : m.magnet.hxl = m.hxl := rfl
    have hc : ∀ model, (configure model m.magnet.k0 m.magnet.k1 0 m.magnet.ks).k0Kick = 0 ∧
        (configure model m.magnet.k0 m.magnet.k1 0 m.magnet.ks).k1Kick = 0 ∧
        (configure model m.magnet.k0 m.magnet.k1 0 m.magnet.ks).hKick = 0 := by
      intro model
      have e1 : m.magnet.k0 = 0 := rfl
      have e2 : m.magnet.k1 = 0 := rfl
      have e3 : m.magnet.ks = 0 := rfl
      rw [e1, e2, e3]
      unfold configure
      simp only
      split_ifs <;> exact ⟨rfl, rfl, rfl⟩
    unfold trackBody
    simp only [g1, g2, g3, hmx, hl0]
    obtain ⟨c1, c2, c3⟩ := hc (modelOf m.magnet)
    generalize configure (modelOf m.magnet) m.magnet.k0 m.magnet.k1 0 m.magnet.ks = c at *
    have hk := fun w q => mult_kick m hx c c1 c2 c3 (1 * 0 * 1) w q
    simp only [Bool.false_eq_true, false_and, if_false]
    unfold body
    split
    · rw [show (1 : ℝ) * 0 * 1 = 0 by ring, hd]
    · generalize steps _ _ = L
      unfold runSteps
      induction L with
      | nil => rfl
      | cons s L ih =>
        rw [List.foldl_cons]
        have : s.run (driftArgs m.magnet c) (kickArgs m.magnet c (1 * 0 * 1) (1 * 1) (1 * m.hxl)) (1 * 0 * 1) p = p := by
          cases s with
          | drift r =>
            simp only [Step.run]
            rw [show r * ((1 : ℝ) * 0 * 1) = 0 by ring, hd]
          | kick w =>
            simp only [Step.run]
            rw [hk, hf, mul_zero, fieldKick_zero]
        rw [this, ih]
  · rw [thin_body m (by simpa using ht) hx, hf, fieldKick_zero]

/-! ## Misalignments without rotation -/

theorem sRotate_back (p : Part) (t : ℝ) : sRotate (sRotate p t) (-t) = p := by
  by_cases h : t = 0
  · simp [sRotate, h]
  · have sc := Real.sin_sq_add_cos_sq t
    have n : -t ≠ 0 := neg_ne_zero.2 h
    unfold sRotate
    rw [if_pos n, if_pos h, Real.sin_neg, Real.cos_neg]
    generalize Real.sin t = s at *
    generalize Real.cos t = c at *
    by_cases hs : p.spinX ≠ 0 ∨ p.spinY ≠ 0
    · have hs' : c * p.spinX + s * p.spinY ≠ 0 ∨ -s * p.spinX + c * p.spinY ≠ 0 := by
        by_contra hcon
        push Not at hcon
        obtain ⟨h1, h2⟩ := hcon
        have e1 : p.spinX = 0 := by linear_combination c * h1 - s * h2 - p.spinX * sc
        have e2 : p.spinY = 0 := by linear_combination s * h1 + c * h2 - p.spinY * sc
        rcases hs with hs | hs <;> contradiction
      have e1 : sRot p s c = { p with
          x := c * p.x + s * p.y, y := -s * p.x + c * p.y, px := c * p.px + s * p.py, py := -s * p.px + c * p.py
          spinX := c * p.spinX + s * p.spinY, spinY := -s * p.spinX + c * p.spinY } := by
        unfold sRot
        simp only
        rw [if_pos hs]
      rw [e1]
      unfold sRot
      simp only
      rw [if_pos hs']
      ext <;> simp only
      · linear_combination p.x * sc
      · linear_combination p.px * sc
      · linear_combination p.y * sc
      · linear_combination p.py * sc
      · linear_combination p.spinX * sc
      · linear_combination p.spinY * sc
    · have e1 : sRot p s c = { p with
          x := c * p.x + s * p.y, y := -s * p.x + c * p.y, px := c * p.px + s * p.py, py := -s * p.px + c * p.py } := by
        unfold sRot
        simp only
        rw [if_neg hs]
      rw [e1]
      unfold sRot
      simp only
      rw [if_neg hs]
      ext <;> simp only
      · linear_combination p.x * sc
      · linear_combination p.px * sc
      · linear_combination p.y * sc
      · linear_combination p.py * sc

theorem sShift_back (p : Part) (a : ℝ) : sShift (sShift p a) (-a) = p := by
  by_cases h : a = 0
  · simp [sShift, h]
  · have n : -a ≠ 0 := neg_ne_zero.2 h
    unfold sShift
    rw [if_pos n, if_pos h]
    ext <;> simp only [driftExact] <;> ring

/-- An element which does nothing and is not rotated about a transverse axis does nothing when it is misaligned. -/
theorem placed_nothing (e : Placed) (hc : e.curved = none) (ht : e.mis.theta = 0) (hp : e.mis.phi = 0) (body : Bool → Part → Part) (p : Part)
    (hb : ∀ q, body false q = q) : trackPlaced e body false p = p := by
  unfold trackPlaced
  split
  · simp only [Bool.not_false, if_true, hb]
    unfold misalignEntry misalignExit
    simp only [hc]
    simp only [entryStraight, exitStraight, sliceMis, ht, hp, Bool.not_false, if_true]
    simp only [Real.sin_zero, Real.cos_zero, mul_zero, sub_zero, mul_one, sub_self, zero_sub, xRotate, yRotate, neg_zero, ne_eq,
      not_true_eq_false, if_false, sRotate_back, sShift_back]
    ext <;> simp [xyShift]
  · exact hb p

end

end Verif.Cleanup
