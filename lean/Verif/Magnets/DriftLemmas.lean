import Verif.Magnets.Drift
import Verif.Frames.Props
import Mathlib.Tactic.Ring
import Mathlib.Tactic.FieldSimp
import Mathlib.Tactic.Linarith
import Mathlib.Tactic.NormNum

/-!
# Lemmas about the drift parts of the magnet models: composition of lengths
-/

namespace Verif.Magnets

open Frames

noncomputable section

theorem focC_zero (K : ℝ) : focC K 0 = 1 := by unfold focC; split_ifs <;> simp

theorem focS_zero (K : ℝ) : focS K 0 = 0 := by unfold focS; split_ifs <;> simp

theorem foc_sq (K l : ℝ) : focC K l ^ 2 + K * focS K l ^ 2 = 1 := by
  unfold focC focS
  split_ifs with h1 h2
  · have hs : Real.sqrt K ≠ 0 := (Real.sqrt_pos.2 h1).ne'
    have e : K * (Real.sin (Real.sqrt K * l) / Real.sqrt K) ^ 2 = Real.sin (Real.sqrt K * l) ^ 2 := by
      rw [div_pow, Real.sq_sqrt h1.le]
      field_simp
    rw [e]
    exact Real.cos_sq_add_sin_sq _
  · have h3 : 0 < -K := by linarith
    have e : K * (Real.sinh (Real.sqrt (-K) * l) / Real.sqrt (-K)) ^ 2 = -Real.sinh (Real.sqrt (-K) * l) ^ 2 := by
      rw [div_pow, Real.sq_sqrt h3.le]
      have : K ≠ 0 := h2.ne
      field_simp
    rw [e]
    have := Real.cosh_sq_sub_sinh_sq (Real.sqrt (-K) * l)
    linarith
  · have : K = 0 := le_antisymm (not_lt.1 h1) (not_lt.1 h2)
    rw [this]
    ring

theorem focC_add (K a b : ℝ) : focC K (a + b) = focC K a * focC K b - K * focS K a * focS K b := by
  unfold focC focS
  split_ifs with h1 h2
  · have hs : Real.sqrt K ≠ 0 := (Real.sqrt_pos.2 h1).ne'
    have e : K * (Real.sin (Real.sqrt K * a) / Real.sqrt K) * (Real.sin (Real.sqrt K * b) / Real.sqrt K)
        = Real.sin (Real.sqrt K * a) * Real.sin (Real.sqrt K * b) := by
      have := Real.mul_self_sqrt h1.le
      field_simp
      rw [show Real.sqrt K ^ 2 = K by rw [sq]; exact this]
    rw [mul_add, Real.cos_add, e]
  · have h3 : 0 < -K := by linarith
    have hs : Real.sqrt (-K) ≠ 0 := (Real.sqrt_pos.2 h3).ne'
    have e : K * (Real.sinh (Real.sqrt (-K) * a) / Real.sqrt (-K)) * (Real.sinh (Real.sqrt (-K) * b) / Real.sqrt (-K))
        = -(Real.sinh (Real.sqrt (-K) * a) * Real.sinh (Real.sqrt (-K) * b)) := by
      have := Real.sq_sqrt h3.le
      field_simp
      rw [this]
      ring
    rw [mul_add, Real.cosh_add, e]
    ring
  · have : K = 0 := le_antisymm (not_lt.1 h1) (not_lt.1 h2)
    rw [this]
    ring

theorem focS_add (K a b : ℝ) : focS K (a + b) = focS K a * focC K b + focC K a * focS K b := by
  unfold focC focS
  split_ifs with h1 h2
  · rw [mul_add, Real.sin_add]
    ring
  · rw [mul_add, Real.sinh_add]
    ring
  · ring

theorem pathQuad_eq {K : ℝ} (hK : K ≠ 0) (l a b : ℝ) :
    pathQuad K l a b = ((K * b ^ 2 - a ^ 2) * focC K l * focS K l + (a ^ 2 + K * b ^ 2) * l + 2 * a * b * (1 - focC K l ^ 2)) / (4 * K) := by
  unfold pathQuad
  field_simp
  ring

theorem pathQuad_add {K : ℝ} (hK : K ≠ 0) (l1 l2 a b : ℝ) :
    pathQuad K (l1 + l2) a b = pathQuad K l1 a b +
      pathQuad K l2 (a * focC K l1 - K * b * focS K l1) (a * focS K l1 + b * focC K l1) := by
  rw [pathQuad_eq hK, pathQuad_eq hK, pathQuad_eq hK, ← add_div]
  congr 1
  rw [focC_add, focS_add]
  have h1 := foc_sq K l1
  have h2 := foc_sq K l2
  generalize focC K l1 = c1 at *
  generalize focC K l2 = c2 at *
  generalize focS K l1 = s1 at *
  generalize focS K l2 = s2 at *
  grind

/-- Position and path length of the expanded body in one plane, for the focusing strength `K`, the constant `g` and the curvature `h`. -/
def planeX (K g l x b : ℝ) : ℝ :=
  if K ≠ 0 then x * focC K l + b * focS K l + g * (focC K l - 1) / K else x * focC K l + b * focS K l - g * 0.5 * l ^ 2

/-- The slope. -/
def planeB (K g l x b : ℝ) : ℝ := (-K * x - g) * focS K l + b * focC K l

/-- The path length due to this plane. -/
def planeL (K g h l x b : ℝ) : ℝ :=
  if K ≠ 0 then -(h * ((focC K l - 1) * b + focS K l * (-K * x - g) + l * g)) / K + pathQuad K l (-K * x - g) b
  else h * l * (3 * l * b + 6 * x - g * l ^ 2) / 6 + 0.5 * b ^ 2 * l

theorem focC_K0 (l : ℝ) : focC 0 l = 1 := by simp [focC]

theorem focS_K0 (l : ℝ) : focS 0 l = l := by simp [focS]

theorem planeX_add (K g l1 l2 x b : ℝ) : planeX K g (l1 + l2) x b = planeX K g l2 (planeX K g l1 x b) (planeB K g l1 x b) := by
  unfold planeX planeB
  by_cases hK : K = 0
  · subst hK
    simp only [ne_eq, not_true_eq_false, if_false, focC_K0, focS_K0]
    ring
  · simp only [ne_eq, hK, not_false_eq_true, if_true]
    rw [focC_add, focS_add]
    field_simp
    ring

theorem planeA (K g l x b : ℝ) :
    -K * planeX K g l x b - g = (-K * x - g) * focC K l - K * b * focS K l := by
  unfold planeX
  by_cases hK : K = 0
  · subst hK
    simp [focC_K0]
  · simp only [ne_eq, hK, not_false_eq_true, if_true]
    field_simp
    ring

theorem planeB_add (K g l1 l2 x b : ℝ) : planeB K g (l1 + l2) x b = planeB K g l2 (planeX K g l1 x b) (planeB K g l1 x b) := by
  have h := planeA K g l1 x b
  unfold planeB
  rw [h, focC_add, focS_add]
  ring

theorem planeL_add (K g h l1 l2 x b : ℝ) (ok : K ≠ 0 ∨ g = 0) :
    planeL K g h (l1 + l2) x b = planeL K g h l1 x b + planeL K g h l2 (planeX K g l1 x b) (planeB K g l1 x b) := by
  by_cases hK : K = 0
  · subst hK
    have hg : g = 0 := by simpa using ok
    subst hg
    simp only [planeL, planeX, planeB, ne_eq, not_true_eq_false, if_false, focC_K0, focS_K0]
    ring
  · have hA := planeA K g l1 x b
    have hB := planeB_add K g l1 l2 x b
    simp only [planeL, ne_eq, hK, not_false_eq_true, if_true]
    rw [hA, pathQuad_add hK]
    have e : (-K * x - g) * focS K l1 + b * focC K l1 = planeB K g l1 x b := rfl
    rw [e]
    have e2 : ∀ l x b, (focC K l - 1) * b + focS K l * (-K * x - g) + l * g = planeB K g l x b - b + l * g := by
      intro l x b
      unfold planeB
      ring
    have e3 : (focC K l2 - 1) * planeB K g l1 x b + focS K l2 * ((-K * x - g) * focC K l1 - K * b * focS K l1) + l2 * g
        = planeB K g l2 (planeX K g l1 x b) (planeB K g l1 x b) - planeB K g l1 x b + l2 * g := by
      rw [← hA]
      exact e2 _ _ _
    rw [e2, e2, e3, hB]
    ring

/-- The expanded body in terms of the planes. -/
theorem combined_eq (l k0 k1 h : ℝ) (p : Part) :
    combined l k0 k1 h p =
      { p with
        x := planeX (p.chi * k0 / (p.delta + 1) * h + p.chi * k1 / (p.delta + 1)) (p.chi * k0 / (p.delta + 1) - h) l p.x
          (p.px / (p.delta + 1))
        px := planeB (p.chi * k0 / (p.delta + 1) * h + p.chi * k1 / (p.delta + 1)) (p.chi * k0 / (p.delta + 1) - h) l p.x
          (p.px / (p.delta + 1)) * (p.delta + 1)
        y := planeX (-(p.chi * k1 / (p.delta + 1))) 0 l p.y (p.py / (p.delta + 1))
        py := planeB (-(p.chi * k1 / (p.delta + 1))) 0 l p.y (p.py / (p.delta + 1)) * (p.delta + 1)
        zeta := p.zeta + (l - (l
          + planeL (p.chi * k0 / (p.delta + 1) * h + p.chi * k1 / (p.delta + 1)) (p.chi * k0 / (p.delta + 1) - h) h l p.x
              (p.px / (p.delta + 1))
          + planeL (-(p.chi * k1 / (p.delta + 1))) 0 0 l p.y (p.py / (p.delta + 1))) / p.rvv)
        s := p.s + l } := by
  have hA : ∀ a b x, -a * x - b + h = -a * x - (b - h) := fun a b x => by ring
  unfold combined
  simp only [hA]
  generalize p.chi * k0 / (p.delta + 1) = a0
  generalize p.chi * k1 / (p.delta + 1) = a1
  generalize p.px / (p.delta + 1) = b
  generalize p.py / (p.delta + 1) = d
  ext <;> simp only [planeX, planeB, planeL]
  · split_ifs <;> ring
  · ring
  · split_ifs <;> (try simp only [sub_zero]) <;> ring

/-- Two expanded bodies in a row are one. -/
theorem combined_add (l1 l2 k0 k1 h : ℝ) (p : Part) (hd : p.delta + 1 ≠ 0)
    (ok : p.chi * k0 / (p.delta + 1) * h + p.chi * k1 / (p.delta + 1) ≠ 0 ∨ p.chi * k0 / (p.delta + 1) - h = 0) :
    combined l2 k0 k1 h (combined l1 k0 k1 h p) = combined (l1 + l2) k0 k1 h p := by
  rw [combined_eq l1 k0 k1 h p, combined_eq l2 k0 k1 h _, combined_eq (l1 + l2) k0 k1 h p]
  ext <;> simp only [planeX_add, planeB_add, planeL_add _ _ _ _ _ _ _ ok, planeL_add _ _ _ _ _ _ _ (Or.inr rfl),
    mul_div_cancel_right₀ _ hd]
  · ring
  · ring

/-! ## Bends -/

/-- The angle in the horizontal plane of a particle with momenta `px`, `py`. -/
def ang (opd py px : ℝ) : ℝ := Real.arcsin (1 / Real.sqrt (opd ^ 2 - py ^ 2) * px)

/-- The longitudinal momentum. -/
def pzOf (opd py px : ℝ) : ℝ := Real.sqrt (opd ^ 2 - px ^ 2 - py ^ 2)

theorem pzOf_pos {opd py px : ℝ} (h : 0 < opd ^ 2 - px ^ 2 - py ^ 2) : 0 < pzOf opd py px := Real.sqrt_pos.2 h

theorem pzOf_sq {opd py px : ℝ} (h : 0 < opd ^ 2 - px ^ 2 - py ^ 2) : pzOf opd py px ^ 2 = opd ^ 2 - px ^ 2 - py ^ 2 :=
  Real.sq_sqrt h.le

theorem ang_spec {opd py px : ℝ} (h : 0 < opd ^ 2 - px ^ 2 - py ^ 2) :
    Real.sqrt (opd ^ 2 - py ^ 2) * Real.sin (ang opd py px) = px ∧
    Real.sqrt (opd ^ 2 - py ^ 2) * Real.cos (ang opd py px) = pzOf opd py px ∧
    -(Real.pi / 2) < ang opd py px ∧ ang opd py px < Real.pi / 2 := by
  have hr : 0 < opd ^ 2 - py ^ 2 := by nlinarith [sq_nonneg px]
  obtain ⟨r, hr'⟩ : ∃ r, r = Real.sqrt (opd ^ 2 - py ^ 2) := ⟨_, rfl⟩
  have r0 : 0 < r := hr' ▸ Real.sqrt_pos.2 hr
  have rsq : r ^ 2 = opd ^ 2 - py ^ 2 := hr' ▸ Real.sq_sqrt hr.le
  have hu : (1 / r * px) ^ 2 < 1 := by
    rw [mul_pow, div_pow, one_pow, rsq, one_div_mul_eq_div, div_lt_one hr]
    linarith
  have habs := abs_lt.1 ((sq_lt_one_iff_abs_lt_one _).1 hu)
  unfold ang pzOf
  rw [← hr']
  refine ⟨?_, ?_, ?_, ?_⟩
  · rw [Real.sin_arcsin habs.1.le habs.2.le]
    field_simp
  · rw [Real.cos_arcsin]
    have e : r * Real.sqrt (1 - (1 / r * px) ^ 2) = Real.sqrt (r ^ 2 * (1 - (1 / r * px) ^ 2)) := by
      rw [Real.sqrt_mul (sq_nonneg r), Real.sqrt_sq r0.le]
    rw [e]
    congr 1
    field_simp
    linarith
  · exact Real.neg_pi_div_two_lt_arcsin.2 habs.1
  · exact Real.arcsin_lt_pi_div_two.2 habs.2

theorem ang_diff {opd py a b : ℝ} (ha : 0 < opd ^ 2 - a ^ 2 - py ^ 2) (hb : 0 < opd ^ 2 - b ^ 2 - py ^ 2) :
    atan2 (a * pzOf opd py b - pzOf opd py a * b) (pzOf opd py a * pzOf opd py b + a * b) = ang opd py a - ang opd py b := by
  obtain ⟨a1, a2, a3, a4⟩ := ang_spec ha
  obtain ⟨b1, b2, b3, b4⟩ := ang_spec hb
  have hr : 0 < opd ^ 2 - py ^ 2 := by nlinarith [sq_nonneg a]
  have hR := Real.sqrt_pos.2 hr
  unfold atan2
  generalize Real.sqrt (opd ^ 2 - py ^ 2) = R at *
  have := Complex.arg_mul_cos_add_sin_mul_I (r := R ^ 2) (θ := ang opd py a - ang opd py b) (by positivity)
    ⟨by linarith, by linarith⟩
  rw [← this]
  congr 1
  rw [← Complex.ofReal_cos, ← Complex.ofReal_sin]
  apply Complex.ext
  · simp only [Complex.mul_re, Complex.add_re, Complex.ofReal_re, Complex.ofReal_im, Complex.I_re, Complex.I_im, Complex.mul_im,
      Complex.add_im, Real.cos_sub]
    simp [← a2, ← b2]
    linear_combination (-b) * a1 - R * Real.sin (ang opd py a) * b1
  · simp only [Complex.mul_re, Complex.add_re, Complex.ofReal_re, Complex.ofReal_im, Complex.I_re, Complex.I_im, Complex.mul_im,
      Complex.add_im, Real.sin_sub]
    simp [← a2, ← b2]
    linear_combination (-(R * Real.cos (ang opd py b))) * a1 + R * Real.cos (ang opd py a) * b1

/-- The quantity which turns with the momentum in a curved bend. -/
def bendC (k h : ℝ) (p : Part) : ℝ := pzOf (p.delta + 1) p.py p.px - k * (1 / h + p.x)

/-- Horizontal momentum behind a curved bend. -/
def bendPx (k h l : ℝ) (p : Part) : ℝ := p.px * Real.cos (h * l) + bendC k h p * Real.sin (h * l)

/-- The particle is not turned around: its longitudinal momentum exists at the entrance and at the exit. -/
structure BendOk (k h l : ℝ) (p : Part) : Prop where
  big : ¬ |k| < 1e-8
  at0 : 0 < (p.delta + 1) ^ 2 - p.px ^ 2 - p.py ^ 2
  at1 : 0 < (p.delta + 1) ^ 2 - bendPx k h l p ^ 2 - p.py ^ 2

theorem ne_of_not_small {k : ℝ} (h : ¬ |k| < 1e-8) : k ≠ 0 := by
  rintro rfl
  apply h
  norm_num

theorem curvedBend_eq {l k0 h : ℝ} {p : Part} (ok : BendOk (k0 * p.chi) h l p) :
    curvedBend l k0 h p = { p with
      x := p.x + (pzOf (p.delta + 1) p.py (bendPx (k0 * p.chi) h l p) - pzOf (p.delta + 1) p.py p.px
        - (bendC (k0 * p.chi) h p * Real.cos (h * l) - p.px * Real.sin (h * l) - bendC (k0 * p.chi) h p)) / (k0 * p.chi)
      px := bendPx (k0 * p.chi) h l p
      y := p.y + p.py * ((h * l + (ang (p.delta + 1) p.py p.px - ang (p.delta + 1) p.py (bendPx (k0 * p.chi) h l p))) / (k0 * p.chi))
      zeta := p.zeta + (l - (p.delta + 1) * ((h * l + (ang (p.delta + 1) p.py p.px
        - ang (p.delta + 1) p.py (bendPx (k0 * p.chi) h l p))) / (k0 * p.chi)) / p.rvv)
      s := p.s + l } := by
  obtain ⟨hk, h0, h1⟩ := ok
  have hz0 := pzOf_pos h0
  have hz1 := pzOf_pos h1
  have q0 := pzOf_sq h0
  have q1 := pzOf_sq h1
  have hhalf : Real.cos (h * l) = 1 - 2 * Real.sin (h * l / 2) ^ 2 := by
    have e1 := Real.cos_two_mul (h * l / 2)
    have e2 := Real.sin_sq_add_cos_sq (h * l / 2)
    rw [show 2 * (h * l / 2) = h * l by ring] at e1
    rw [e1]; linear_combination 2 * e2
  have ha := ang_diff h0 h1
  have hpx : p.px * Real.cos (h * l) + (Real.sqrt ((p.delta + 1) ^ 2 - p.px ^ 2 - p.py ^ 2) - k0 * p.chi * (1 / h + p.x)) * Real.sin (h * l)
      = bendPx (k0 * p.chi) h l p := rfl
  have hC : Real.sqrt ((p.delta + 1) ^ 2 - p.px ^ 2 - p.py ^ 2) - k0 * p.chi * (1 / h + p.x) = bendC (k0 * p.chi) h p := rfl
  have hP0 : Real.sqrt ((p.delta + 1) ^ 2 - p.px ^ 2 - p.py ^ 2) = pzOf (p.delta + 1) p.py p.px := rfl
  have hP1 : Real.sqrt ((p.delta + 1) ^ 2 - bendPx (k0 * p.chi) h l p ^ 2 - p.py ^ 2) = pzOf (p.delta + 1) p.py (bendPx (k0 * p.chi) h l p) := rfl
  unfold curvedBend
  simp only [if_neg hk]
  rw [hpx]
  simp only [hC]
  simp only [hP0, hP1]
  have dpx : -2 * p.px * Real.sin (h * l / 2) ^ 2 + bendC (k0 * p.chi) h p * Real.sin (h * l) = bendPx (k0 * p.chi) h l p - p.px := by
    unfold bendPx
    rw [hhalf]
    ring
  have dpz : (p.px - bendPx (k0 * p.chi) h l p) * (p.px + bendPx (k0 * p.chi) h l p)
      / (pzOf (p.delta + 1) p.py p.px + pzOf (p.delta + 1) p.py (bendPx (k0 * p.chi) h l p))
      = pzOf (p.delta + 1) p.py (bendPx (k0 * p.chi) h l p) - pzOf (p.delta + 1) p.py p.px := by
    rw [div_eq_iff (by positivity)]
    linear_combination q0 - q1
  rw [dpz, dpx]
  have nn : p.px * (pzOf (p.delta + 1) p.py (bendPx (k0 * p.chi) h l p) - pzOf (p.delta + 1) p.py p.px)
      - pzOf (p.delta + 1) p.py p.px * (bendPx (k0 * p.chi) h l p - p.px)
      = p.px * pzOf (p.delta + 1) p.py (bendPx (k0 * p.chi) h l p) - pzOf (p.delta + 1) p.py p.px * bendPx (k0 * p.chi) h l p := by
    ring
  rw [nn, ha]
  have dd : -2 * bendC (k0 * p.chi) h p * Real.sin (h * l / 2) ^ 2 - p.px * Real.sin (h * l)
      = bendC (k0 * p.chi) h p * Real.cos (h * l) - p.px * Real.sin (h * l) - bendC (k0 * p.chi) h p := by
    rw [hhalf]
    ring
  rw [dd]

/-- The momentum and `bendC` turn by the angle of the bend. -/
theorem bendC_curvedBend {l k0 h : ℝ} {p : Part} (ok : BendOk (k0 * p.chi) h l p) :
    bendC (k0 * p.chi) h (curvedBend l k0 h p) = bendC (k0 * p.chi) h p * Real.cos (h * l) - p.px * Real.sin (h * l) := by
  have hk := ne_of_not_small ok.big
  rw [curvedBend_eq ok]
  unfold bendC
  simp only
  generalize k0 * p.chi = k at *
  field_simp
  ring

theorem curvedBend_add {l1 l2 k0 h : ℝ} {p : Part} (ok1 : BendOk (k0 * p.chi) h l1 p) (ok2 : BendOk (k0 * p.chi) h (l1 + l2) p) :
    curvedBend l2 k0 h (curvedBend l1 k0 h p) = curvedBend (l1 + l2) k0 h p ∧ BendOk (k0 * p.chi) h l2 (curvedBend l1 k0 h p) := by
  have hk := ne_of_not_small ok1.big
  have hC := bendC_curvedBend ok1
  have e := curvedBend_eq ok1
  obtain ⟨q, hq⟩ : ∃ q, q = curvedBend l1 k0 h p := ⟨_, rfl⟩
  rw [← hq] at hC e ⊢
  have hchi : q.chi = p.chi := by rw [e]
  have hpx : q.px = bendPx (k0 * p.chi) h l1 p := by rw [e]
  have hpy : q.py = p.py := by rw [e]
  have hde : q.delta = p.delta := by rw [e]
  have hrv : q.rvv = p.rvv := by rw [e]
  have hP : bendPx (k0 * p.chi) h l2 q = bendPx (k0 * p.chi) h (l1 + l2) p := by
    unfold bendPx
    rw [hC, hpx]
    unfold bendPx
    rw [mul_add, Real.cos_add, Real.sin_add]
    ring
  have okq : BendOk (k0 * p.chi) h l2 q := by
    refine ⟨ok1.big, ?_, ?_⟩
    · rw [hde, hpx, hpy]
      exact ok1.at1
    · rw [hP, hde, hpy]
      exact ok2.at1
  have okq' : BendOk (k0 * q.chi) h l2 q := by rw [hchi]; exact okq
  refine ⟨?_, okq⟩
  rw [curvedBend_eq okq', curvedBend_eq ok2]
  simp only [hchi, hP, hC, hpx, hpy, hde, hrv]
  rw [e]
  generalize k0 * p.chi = k at *
  ext <;> simp only [mul_add, Real.cos_add, Real.sin_add]
  · field_simp
    unfold bendPx
    ring
  · ring
  · ring
  · ring

theorem curvedBend_zero {k0 h : ℝ} {p : Part} (hk : ¬ |k0 * p.chi| < 1e-8) (h0 : 0 < (p.delta + 1) ^ 2 - p.px ^ 2 - p.py ^ 2) :
    curvedBend 0 k0 h p = p := by
  have e : bendPx (k0 * p.chi) h 0 p = p.px := by simp [bendPx]
  rw [curvedBend_eq ⟨hk, h0, by rw [e]; exact h0⟩]
  ext <;> simp [e]

/-- The same for the straight bend. -/
structure StraightOk (k l : ℝ) (p : Part) : Prop where
  at0 : 0 < (p.delta + 1) ^ 2 - p.px ^ 2 - p.py ^ 2
  at1 : 0 < (p.delta + 1) ^ 2 - (p.px - k * l) ^ 2 - p.py ^ 2

/-- No condition is needed for the algebra of the straight bend. -/
theorem straightBend_add (l1 l2 k0 : ℝ) (p : Part) :
    straightBend l2 k0 (straightBend l1 k0 p) = straightBend (l1 + l2) k0 p := by
  by_cases hk : |k0 * p.chi| < 1e-8
  · have e : ∀ l, straightBend l k0 p = driftExact p l := fun l => by unfold straightBend; simp only [if_pos hk]
    have e2 : straightBend l2 k0 (driftExact p l1) = driftExact (driftExact p l1) l2 := by
      have : (driftExact p l1).chi = p.chi := rfl
      unfold straightBend
      rw [this]
      simp only [if_pos hk]
    rw [e, e, e2, (C50_compose p l1 l2).1]
  · unfold straightBend
    simp only [if_neg hk]
    ext <;> simp only
    · rw [show p.px - k0 * p.chi * l1 - k0 * p.chi * l2 = p.px - k0 * p.chi * (l1 + l2) by ring]
      ring
    · ring
    · rw [show p.px - k0 * p.chi * l1 - k0 * p.chi * l2 = p.px - k0 * p.chi * (l1 + l2) by ring]
      ring
    · rw [show p.px - k0 * p.chi * l1 - k0 * p.chi * l2 = p.px - k0 * p.chi * (l1 + l2) by ring]
      ring
    · ring

end

end Verif.Magnets
