import Verif.Thin.Model
import Verif.Symplectic.Frame
import Verif.Magnets.KickProps
import Mathlib.Analysis.Calculus.FDeriv.Symmetric
import Mathlib.Analysis.SpecialFunctions.Log.Deriv
import Mathlib.Analysis.SpecialFunctions.Sqrt
import Mathlib.Analysis.SpecialFunctions.Trigonometric.InverseDeriv
import Mathlib.Topology.Algebra.Order.Floor

/-!
# Thin elements: which of them are symplectic
-/

namespace Verif.Thin

open Frames hiding curvature
open Symplectic Edges Magnets Filter Topology
open Rf (Ctx clight)

noncomputable section

/-- A kick whose gradient is symmetric, for particles near `p`. -/
theorem good_kick {F : Part → Part} {p : Part} {A B : ℝ × ℝ → ℝ} {a b d : ℝ} (lF : Lawful F)
    (dA : HasFDerivAt A (a • ContinuousLinearMap.fst ℝ ℝ ℝ + b • ContinuousLinearMap.snd ℝ ℝ ℝ) (p.x, p.y))
    (dB : HasFDerivAt B (b • ContinuousLinearMap.fst ℝ ℝ ℝ + d • ContinuousLinearMap.snd ℝ ℝ ℝ) (p.x, p.y))
    (near : ∀ᶠ z in 𝓝 (coords p), coords (F (place p z)) = ![z 0, z 1 + A (z 0, z 2), z 2, z 3 + B (z 0, z 2), z 4, z 5]) : Good F p := by
  refine ⟨lF, ?_⟩
  have hl : ∀ u : Z, HasDerivAt (fun t : ℝ => ((coords p + t • u) 0, (coords p + t • u) 2)) (u 0, u 2) 0 :=
    fun u => (line (coords p) u 0).prodMk (line (coords p) u 2)
  have e : ∀ u : Z, ((coords p + (0 : ℝ) • u) 0, (coords p + (0 : ℝ) • u) 2) = (p.x, p.y) := fun u => by simp [coords]
  have hp : DifferentiableAt ℝ (fun z : Z => (z 0, z 2)) (coords p) := by fun_prop
  have h := canonical_kick (z := coords p) (A := fun z => A (z 0, z 2)) (B := fun z => B (z 0, z 2)) (C := fun _ => 0)
    (DifferentiableAt.comp (coords p) (g := A) (by simpa [coords] using dA.differentiableAt) hp)
    (DifferentiableAt.comp (coords p) (g := B) (by simpa [coords] using dB.differentiableAt) hp) (by fun_prop) a b 0 d 0 0
    (fun u => by
      refine ((show HasFDerivAt A _ _ by rw [e u]; exact dA).comp_hasDerivAt (0 : ℝ) (hl u)).congr_deriv ?_
      simp)
    (fun u => by
      refine ((show HasFDerivAt B _ _ by rw [e u]; exact dB).comp_hasDerivAt (0 : ℝ) (hl u)).congr_deriv ?_
      simp)
    fun u => (hasDerivAt_const (0 : ℝ) (0 : ℝ)).congr_deriv (by ring)
  refine h.congr ?_
  filter_upwards [near] with z hz
  rw [hz]
  ext i
  fin_cases i <;> simp

/-- A kick which is the gradient of a potential. -/
theorem gradient_symm {U A B : ℝ × ℝ → ℝ} {w : ℝ × ℝ} (hU : ContDiffAt ℝ 2 U w)
    (h : ∀ᶠ v in 𝓝 w, HasFDerivAt U (A v • ContinuousLinearMap.fst ℝ ℝ ℝ + B v • ContinuousLinearMap.snd ℝ ℝ ℝ) v) :
    ∃ a b d : ℝ, HasFDerivAt A (a • ContinuousLinearMap.fst ℝ ℝ ℝ + b • ContinuousLinearMap.snd ℝ ℝ ℝ) w
      ∧ HasFDerivAt B (b • ContinuousLinearMap.fst ℝ ℝ ℝ + d • ContinuousLinearMap.snd ℝ ℝ ℝ) w := by
  have sym := hU.isSymmSndFDerivAt (by simp)
  have hd : DifferentiableAt ℝ (fderiv ℝ U) w := (hU.fderiv_right (m := 1) (by norm_num)).differentiableAt (by simp)
  have hD : ∀ e : ℝ × ℝ, HasFDerivAt (fun v => fderiv ℝ U v e) ((ContinuousLinearMap.apply ℝ ℝ e).comp (fderiv ℝ (fderiv ℝ U) w)) w :=
    fun e => (ContinuousLinearMap.apply ℝ ℝ e).hasFDerivAt.comp w hd.hasFDerivAt
  have hA : (fun v => fderiv ℝ U v (1, 0)) =ᶠ[𝓝 w] A := by
    filter_upwards [h] with v hv
    rw [hv.fderiv]
    simp
  have hB : (fun v => fderiv ℝ U v (0, 1)) =ᶠ[𝓝 w] B := by
    filter_upwards [h] with v hv
    rw [hv.fderiv]
    simp
  refine ⟨fderiv ℝ (fderiv ℝ U) w (1, 0) (1, 0), fderiv ℝ (fderiv ℝ U) w (0, 1) (1, 0), fderiv ℝ (fderiv ℝ U) w (0, 1) (0, 1), ?_, ?_⟩
  · refine ((hD (1, 0)).congr_of_eventuallyEq hA.symm).congr_fderiv ?_
    ext <;> simp
  · refine ((hD (0, 1)).congr_of_eventuallyEq hB.symm).congr_fderiv ?_
    ext
    · simpa using sym (1, 0) (0, 1)
    · simp

/-! ### Bends and quadrupoles -/

theorem good_thinQuad {p : Part} (k : p.Kin) (knl1 : ℝ) (back : Bool) : Good (fun q => thinQuad knl1 back q) p := by
  unfold thinQuad
  generalize (if back then -knl1 else knl1) = g
  refine good_kick (A := fun w => -(p.chi * g) * w.1) (B := fun w => p.chi * g * w.2) (a := -(p.chi * g)) (b := 0) (d := p.chi * g) ?_ ?_ ?_
    (Eventually.of_forall fun z => ?_)
  · exact Lawful.of_kind (fun _ => ⟨rfl, rfl, rfl, rfl, rfl, rfl⟩) fun p q e => by
      simp [coords, Cleanup.simpleQuad, e.x, e.px, e.y, e.py, e.zeta, e.ptau, e.beta0, e.chi]
  · refine (hasFDerivAt_fst.const_mul _).congr_fderiv ?_
    ext <;> simp
  · refine (hasFDerivAt_snd.const_mul _).congr_fderiv ?_
    ext <;> simp
  · ext i
    fin_cases i <;> simp [coords, Cleanup.simpleQuad, place, k.beta0.ne', sub_eq_add_neg]

theorem good_simpleBend {p : Part} (k : p.Kin) (K H L : ℝ) (hc : H = 0 ∨ p.chi = 1) : Good (fun q => Cleanup.simpleBend K H L q) p := by
  have fz := fine_coords k
  have h5 := (opdOf_pos fz.rad).ne'
  have h1 : radOf p.beta0 (coords p 5) ≠ 0 := fz.rad.ne'
  refine ⟨?_, ?_⟩
  · exact Lawful.of_kind (fun q => by unfold Cleanup.simpleBend; split_ifs <;> exact ⟨rfl, rfl, rfl, rfl, rfl, rfl⟩) fun p q e => by
      unfold Cleanup.simpleBend
      split_ifs <;> simp [coords, e.x, e.px, e.y, e.py, e.zeta, e.ptau, e.beta0, e.chi, e.delta, e.rvv]
  · let P : ℝ := if L ≠ 0 then -(K * H / L) else 0
    have hl := fun u : Z => line (coords p) u
    by_cases hH : H = 0
    · have h := canonical_kick (z := coords p) (A := fun _ => -p.chi * K) (B := fun _ => 0) (C := fun _ => 0)
        (by fun_prop) (by fun_prop) (by fun_prop) 0 0 0 0 0 0 (fun u => (hasDerivAt_const (0 : ℝ) _).congr_deriv (by ring))
        (fun u => (hasDerivAt_const (0 : ℝ) _).congr_deriv (by ring)) fun u => (hasDerivAt_const (0 : ℝ) _).congr_deriv (by ring)
      refine h.congr (Eventually.of_forall fun z => ?_)
      ext i
      fin_cases i <;> simp [coords, Cleanup.simpleBend, hH, place, k.beta0.ne']
    · have hc := hc.resolve_left hH
      have c := canonical_kick (z := coords p) (A := fun z => -K + H * opdOf p.beta0 (z 5) + P * z 0) (B := fun _ => 0)
        (C := fun z => -(H * ((1 + p.beta0 ^ 2 * z 5) / opdOf p.beta0 (z 5)) * z 0))
        (ContDiffAt.differentiableAt (n := 2) (by fun_prop (disch := assumption)) (by norm_num)) (by fun_prop)
        (ContDiffAt.differentiableAt (n := 2) (by fun_prop (disch := assumption)) (by norm_num))
        P 0 (H * ((1 + p.beta0 ^ 2 * coords p 5) / opdOf p.beta0 (coords p 5))) 0 0
        (-(H * (p.beta0 ^ 2 / opdOf p.beta0 (coords p 5) - (1 + p.beta0 ^ 2 * coords p 5) ^ 2 / opdOf p.beta0 (coords p 5) ^ 3) * coords p 0))
        (fun u => by
          refine ((((hasDerivAt_opdOf (b := p.beta0) (hl u 5) (by simpa [radOf] using fz.rad)).const_mul H).const_add (-K)).add
            ((hl u 0).const_mul P)).congr_deriv ?_
          simp
          ring)
        (fun u => (hasDerivAt_const (0 : ℝ) _).congr_deriv (by ring))
        fun u => by
          refine ((((hasDerivAt_energy (b := p.beta0) (hl u 5) (by simpa [radOf] using fz.rad)).const_mul H).mul (hl u 0)).neg).congr_deriv ?_
          simp
          ring
      refine c.congr (Eventually.of_forall fun z => ?_)
      ext i
      simp only [P]
      by_cases hL : L = 0 <;> fin_cases i <;> simp [coords, Cleanup.simpleBend, hH, hL, hc, place, k.beta0.ne'] <;> ring

theorem good_thinBend {p : Part} (k : p.Kin) (knl0 hxl length : ℝ) (back : Bool) (hc : hxl = 0 ∨ p.chi = 1) :
    Good (fun q => thinBend knl0 hxl length back q) p :=
  good_simpleBend k _ _ _ (hc.imp (fun h => by rw [h, mul_zero]) fun h => h)

theorem good_timeDelay {p : Part} (k : p.Kin) (s : ℝ) (back : Bool) : Good (fun q => timeDelay s back q) p := by
  unfold timeDelay
  generalize (if back then -s else s) = c
  constructor
  · exact Lawful.of_kind (fun _ => ⟨rfl, rfl, rfl, rfl, rfl, rfl⟩) fun p q e => by
      simp only [coords, e.x, e.px, e.y, e.py, e.zeta, e.ptau, e.beta0]
  · exact (good_zetaShift k (-c)).2.congr (Eventually.of_forall fun z => by simp only [coords])

/-! ### Wire -/

/-- A kick along the radius. -/
theorem radial_symm {f : ℝ → ℝ} {f' X Y x0 y0 : ℝ} (h : HasDerivAt f f' ((X - x0) * (X - x0) + (Y - y0) * (Y - y0))) (c e : ℝ) :
    ∃ a b d : ℝ, HasFDerivAt (fun w : ℝ × ℝ => (w.1 - x0) * f ((w.1 - x0) * (w.1 - x0) + (w.2 - y0) * (w.2 - y0)) - c)
        (a • ContinuousLinearMap.fst ℝ ℝ ℝ + b • ContinuousLinearMap.snd ℝ ℝ ℝ) (X, Y)
      ∧ HasFDerivAt (fun w : ℝ × ℝ => (w.2 - y0) * f ((w.1 - x0) * (w.1 - x0) + (w.2 - y0) * (w.2 - y0)) - e)
        (b • ContinuousLinearMap.fst ℝ ℝ ℝ + d • ContinuousLinearMap.snd ℝ ℝ ℝ) (X, Y) := by
  have h1 : HasFDerivAt (fun w : ℝ × ℝ => w.1 - x0) (ContinuousLinearMap.fst ℝ ℝ ℝ) (X, Y) := hasFDerivAt_fst.sub_const _
  have h2 : HasFDerivAt (fun w : ℝ × ℝ => w.2 - y0) (ContinuousLinearMap.snd ℝ ℝ ℝ) (X, Y) := hasFDerivAt_snd.sub_const _
  have hr := (h1.mul h1).add (h2.mul h2)
  have hf := h.comp_hasFDerivAt (X, Y) hr
  refine ⟨f ((X - x0) * (X - x0) + (Y - y0) * (Y - y0)) + 2 * (X - x0) ^ 2 * f', 2 * (X - x0) * (Y - y0) * f',
    f ((X - x0) * (X - x0) + (Y - y0) * (Y - y0)) + 2 * (Y - y0) ^ 2 * f', ?_, ?_⟩
  · refine ((h1.mul hf).sub_const c).congr_fderiv ?_
    ext <;> simp <;> ring
  · refine ((h2.mul hf).sub_const e).congr_fderiv ?_
    ext <;> simp <;> ring

/-- The particle is not on the wire. -/
def Wire.Off (w : Wire) (p : Part) : Prop := p.x ≠ w.xma ∨ p.y ≠ w.yma

theorem good_wire {p : Part} (k : p.Kin) (w : Wire) (c : Ctx) (off : w.Off p) : Good (fun q => w.track c q) p := by
  let n := mu0 * w.current * c.q0 / (4 * Real.pi * c.p0c / clight)
  let l1 := w.lInt + w.lPhy
  let l2 := w.lInt - w.lPhy
  have pos : 0 < (p.x - w.xma) * (p.x - w.xma) + (p.y - w.yma) * (p.y - w.yma) := by
    rcases off with h | h
    · have := mul_self_pos.2 (sub_ne_zero.2 h)
      nlinarith [mul_self_nonneg (p.y - w.yma)]
    · have := mul_self_pos.2 (sub_ne_zero.2 h)
      nlinarith [mul_self_nonneg (p.x - w.xma)]
  have d : DifferentiableAt ℝ (fun r => -n * (Real.sqrt (l1 * l1 + 4 * r) - Real.sqrt (l2 * l2 + 4 * r)) / r)
      ((p.x - w.xma) * (p.x - w.xma) + (p.y - w.yma) * (p.y - w.yma)) := by
    generalize (p.x - w.xma) * (p.x - w.xma) + (p.y - w.yma) * (p.y - w.yma) = r at pos
    have q1 : l1 * l1 + 4 * r ≠ 0 := by nlinarith [mul_self_nonneg l1]
    have q2 : l2 * l2 + 4 * r ≠ 0 := by nlinarith [mul_self_nonneg l2]
    have q3 : r ≠ 0 := pos.ne'
    fun_prop (disch := assumption)
  obtain ⟨a, b, e, hA, hB⟩ := radial_symm d.hasDerivAt w.postPx w.postPy
  refine good_kick ?_ hA hB (Eventually.of_forall fun z => ?_)
  · exact Lawful.of_kind (fun _ => ⟨rfl, rfl, rfl, rfl, rfl, rfl⟩) fun p q e => by
      simp [coords, Wire.track, e.x, e.px, e.y, e.py, e.zeta, e.ptau, e.beta0]
  · ext i
    fin_cases i <;> simp [coords, Wire.track, place, k.beta0.ne', n, l1, l2] <;> ring

/-! ### AC dipole -/

theorem good_const {p : Part} (k : p.Kin) (a b : ℝ) : Good (fun q : Part => { q with px := q.px + a, py := q.py + b }) p := by
  refine good_kick (A := fun _ => a) (B := fun _ => b) (a := 0) (b := 0) (d := 0) ?_ ?_ ?_ (Eventually.of_forall fun z => ?_)
  · exact Lawful.of_kind (fun _ => ⟨rfl, rfl, rfl, rfl, rfl, rfl⟩) fun p q e => by
      simp [coords, e.x, e.px, e.y, e.py, e.zeta, e.ptau, e.beta0]
  · exact (hasFDerivAt_const _ _).congr_fderiv (by ext <;> simp)
  · exact (hasFDerivAt_const _ _).congr_fderiv (by ext <;> simp)
  · ext i
    fin_cases i <;> simp [coords, place, k.beta0.ne']

theorem good_linear {p : Part} (k : p.Kin) (a b : ℝ) : Good (fun q : Part => { q with px := q.px + a * q.x, py := q.py + b * q.y }) p := by
  refine good_kick (A := fun w => a * w.1) (B := fun w => b * w.2) (a := a) (b := 0) (d := b) ?_ ?_ ?_ (Eventually.of_forall fun z => ?_)
  · exact Lawful.of_kind (fun _ => ⟨rfl, rfl, rfl, rfl, rfl, rfl⟩) fun p q e => by
      simp [coords, e.x, e.px, e.y, e.py, e.zeta, e.ptau, e.beta0]
  · exact (hasFDerivAt_fst.const_mul _).congr_fderiv (by ext <;> simp)
  · exact (hasFDerivAt_snd.const_mul _).congr_fderiv (by ext <;> simp)
  · ext i
    fin_cases i <;> simp [coords, place, k.beta0.ne']

theorem good_acDipole {p : Part} (k : p.Kin) (a : AcDipole) (c : Ctx) : Good (fun q => a.track c q) p := by
  unfold AcDipole.track rampedAc effGradAc
  by_cases h0 : a.plane = 0
  · simp only [if_pos h0]
    exact Good.id k
  simp only [if_neg h0]
  by_cases ht : a.twissMode = 0
  · simp only [if_pos ht]
    by_cases h1 : a.plane = 1
    · simp only [if_pos h1]
      simpa using good_const k _ 0
    · simp only [if_neg h1]
      simpa using good_const k 0 _
  · simp only [if_neg ht]
    by_cases hg : a.effGrad = 0
    · simp only [if_pos hg]
      exact Good.id k
    simp only [if_neg hg]
    by_cases h1 : a.plane = 1
    · simp only [if_pos h1]
      simpa using good_linear k a.effGrad 0
    · simp only [if_neg h1]
      simpa using good_linear k 0 a.effGrad

/-! ### Exciter -/

theorem exciter_loop (e : Exciter) (sign x y : ℝ) (n : ℕ) :
    let v := (List.range n).foldl (e.step sign x y) ⟨0, 0, 1, 0, 1⟩
    let S : ℂ := ∑ i ∈ Finset.range n, (⟨e.knl i, e.ksl i⟩ : ℂ) * (⟨x, y⟩ : ℂ) ^ i / (i.factorial : ℂ)
    v.dpx = sign * S.re ∧ v.dpy = sign * S.im ∧ v.zre = ((⟨x, y⟩ : ℂ) ^ n).re ∧ v.zim = ((⟨x, y⟩ : ℂ) ^ n).im
      ∧ v.factorial = ((n - 1).factorial : ℝ) := by
  induction n with
  | zero => simp
  | succ n ih =>
    obtain ⟨h1, h2, h3, h4, h5⟩ := ih
    simp only [List.range_succ, List.foldl_append, List.foldl_cons, List.foldl_nil, Finset.sum_range_succ]
    generalize (List.range n).foldl (e.step sign x y) ⟨0, 0, 1, 0, 1⟩ = v at *
    have hf : (if n > 0 then v.factorial * n else v.factorial) = (n.factorial : ℝ) := by
      rw [h5]
      rcases n with _ | n
      · simp
      · simp [Nat.factorial_succ, mul_comm]
    have hd : ∀ c : ℂ, c / (n.factorial : ℂ) = ⟨c.re / n.factorial, c.im / n.factorial⟩ := fun c => by
      apply Complex.ext
      · exact Complex.div_natCast_re c _
      · exact Complex.div_natCast_im c _
    simp only [Exciter.step, hf, h1, h2, h3, h4, hd, Complex.add_re, Complex.add_im, Complex.mul_re, Complex.mul_im, pow_succ]
    exact ⟨by ring, by ring, trivial, by ring, by simp⟩

/-- The kick is the field of the multipoles. -/
theorem exciter_sum (e : Exciter) (ho : 0 ≤ e.order) (sign x y : ℝ) :
    (e.sum sign x y).dpx = sign * (field e.knl e.ksl e.order.toNat x y).re
      ∧ (e.sum sign x y).dpy = sign * (field e.knl e.ksl e.order.toNat x y).im := by
  obtain ⟨h1, h2, -⟩ := exciter_loop e sign x y (e.order.toNat + 1)
  have : (e.order + 1).toNat = e.order.toNat + 1 := by omega
  unfold Exciter.sum field
  rw [this]
  exact ⟨h1, h2⟩

theorem field_gradient (kn ks : ℕ → ℝ) (N : ℕ) (w : ℝ × ℝ) :
    ∃ a b : ℝ, HasFDerivAt (fun w : ℝ × ℝ => (field kn ks N w.1 w.2).re)
        (a • ContinuousLinearMap.fst ℝ ℝ ℝ + (-b) • ContinuousLinearMap.snd ℝ ℝ ℝ) w
      ∧ HasFDerivAt (fun w : ℝ × ℝ => (field kn ks N w.1 w.2).im)
        (b • ContinuousLinearMap.fst ℝ ℝ ℝ + a • ContinuousLinearMap.snd ℝ ℝ ℝ) w := by
  let f : ℂ → ℂ := fun z => ∑ n ∈ Finset.range (N + 1), (⟨kn n, ks n⟩ : ℂ) * z ^ n / (n.factorial : ℂ)
  have hf : DifferentiableAt ℂ f (⟨w.1, w.2⟩ : ℂ) := by
    unfold f
    fun_prop
  have h1 : HasFDerivAt (fun w : ℝ × ℝ => (⟨w.1, w.2⟩ : ℂ)) (Complex.equivRealProdCLM.symm : ℝ × ℝ →L[ℝ] ℂ) w :=
    Complex.equivRealProdCLM.symm.hasFDerivAt
  have h2 := (hf.hasDerivAt.hasFDerivAt.restrictScalars ℝ).comp w h1
  have h3 := Complex.reCLM.hasFDerivAt.comp w h2
  have h4 := Complex.imCLM.hasFDerivAt.comp w h2
  refine ⟨(deriv f ⟨w.1, w.2⟩).re, (deriv f ⟨w.1, w.2⟩).im, h3.congr_fderiv ?_, h4.congr_fderiv ?_⟩
  · ext <;> simp
  · ext <;> simp

theorem trunc_near {w : ℝ} (h : ∀ n : ℤ, w ≠ n) : ∀ᶠ v in 𝓝 w, trunc v = trunc w := by
  have hf : ∀ᶠ v in 𝓝 w, ⌊v⌋ = ⌊w⌋ := by
    have h1 : (⌊w⌋ : ℝ) < w := lt_of_le_of_ne (Int.floor_le w) fun e => h _ e.symm
    have h2 : w < ⌊w⌋ + 1 := Int.lt_floor_add_one w
    filter_upwards [Ioo_mem_nhds h1 h2] with v hv
    exact Int.floor_eq_iff.2 ⟨hv.1.le, hv.2⟩
  have hc : ∀ᶠ v in 𝓝 w, ⌈v⌉ = ⌈w⌉ := by
    have h1 : w < (⌈w⌉ : ℝ) := lt_of_le_of_ne (Int.le_ceil w) (h _)
    have h2 : (⌈w⌉ : ℝ) - 1 < w := by linarith [Int.ceil_lt_add_one w]
    filter_upwards [Ioo_mem_nhds h2 h1] with v hv
    exact Int.ceil_eq_iff.2 ⟨hv.1, hv.2.le⟩
  have h0 : w ≠ 0 := by simpa using h 0
  rcases lt_or_gt_of_ne h0 with hw | hw
  · filter_upwards [hc, Iio_mem_nhds hw] with v hv hv'
    rw [trunc, trunc, if_neg (not_le.2 hv'), if_neg (not_le.2 hw), hv]
  · filter_upwards [hf, Ioi_mem_nhds hw] with v hv hv'
    rw [trunc, trunc, if_pos (le_of_lt hv'), if_pos hw.le, hv]

/-- The particle arrives while a sample lasts, not when one sample follows another. -/
def Exciter.Steady (e : Exciter) (c : Ctx) (p : Part) : Prop := ∀ n : ℤ, e.phase c p ≠ n

/-- The strength at sample `i`. -/
def Exciter.strength (e : Exciter) (i : ℤ) : ℝ :=
  if 0 ≤ i ∧ i < e.nduration then e.samples (if i ≥ e.nsamples then i % e.nsamples else i).toNat else 0

theorem exciter_track (e : Exciter) (c : Ctx) (back : Bool) (q : Part) :
    e.track c back q = { q with
      px := q.px + -q.chi * ((e.sum (if back then -1 else 1) q.x q.y).dpx * e.strength (trunc (e.phase c q)))
      py := q.py + q.chi * ((e.sum (if back then -1 else 1) q.x q.y).dpy * e.strength (trunc (e.phase c q))) } := by
  unfold Exciter.track Exciter.strength
  simp only
  by_cases h : 0 ≤ trunc (e.phase c q) ∧ trunc (e.phase c q) < e.nduration
  · simp only [if_pos h]
  · simp only [if_neg h, mul_zero, add_zero]

theorem good_exciter {p : Part} (k : p.Kin) (e : Exciter) (ho : 0 ≤ e.order) (c : Ctx) (back : Bool) (st : e.Steady c p) :
    Good (fun q => e.track c back q) p := by
  obtain ⟨a, b, hA, hB⟩ := field_gradient e.knl e.ksl e.order.toNat (p.x, p.y)
  let s : ℝ := (if back then -1 else 1) * e.strength (trunc (e.phase c p))
  refine good_kick (A := fun w => -p.chi * s * (field e.knl e.ksl e.order.toNat w.1 w.2).re)
    (B := fun w => p.chi * s * (field e.knl e.ksl e.order.toNat w.1 w.2).im) (a := -p.chi * s * a) (b := p.chi * s * b)
    (d := p.chi * s * a) ?_ ?_ ?_ ?_
  · refine Lawful.of_kind (fun q => by rw [exciter_track]; exact ⟨rfl, rfl, rfl, rfl, rfl, rfl⟩) fun q r h => ?_
    have hp : e.phase c r = e.phase c q := by simp [Exciter.phase, h.zeta, h.beta0]
    simp only [exciter_track, coords, hp, h.x, h.px, h.y, h.py, h.zeta, h.ptau, h.beta0, h.chi]
  · exact (hA.const_mul _).congr_fderiv (by ext <;> simp)
  · exact (hB.const_mul _).congr_fderiv (by ext <;> simp)
  · have hc : ContinuousAt (fun z : Z => e.phase c (place p z)) (coords p) := by
      have : Continuous fun z : Z => e.samplingFrequency * ((c.atTurn - e.startTurn) / e.frev - z 4 / p.beta0 / clight) := by fun_prop
      exact this.continuousAt
    have h0 : e.phase c (place p (coords p)) = e.phase c p := by rw [place_coords k]
    have near : ∀ᶠ z in 𝓝 (coords p), trunc (e.phase c (place p z)) = trunc (e.phase c p) := by
      have := trunc_near (w := e.phase c (place p (coords p))) (by rw [h0]; exact st)
      rw [h0] at this
      exact hc.eventually (show ∀ᶠ v in 𝓝 (e.phase c (place p (coords p))), trunc v = trunc (e.phase c p) by rw [h0]; exact this)
    filter_upwards [near] with z hz
    rw [exciter_track, hz, (exciter_sum e ho _ _ _).1, (exciter_sum e ho _ _ _).2]
    ext i
    simp only [s]
    generalize e.strength (trunc (e.phase c p)) = t
    generalize (if back then -1 else 1 : ℝ) = g
    fin_cases i <;> simp [coords, place, k.beta0.ne'] <;> ring

/-! ### Nonlinear lens -/

/-- The elliptic potential of Danilov and Nagaitsev, in elliptic coordinates. -/
def potUV (u v : ℝ) : ℝ :=
  (u * Real.sqrt (u ^ 2 - 1) * Real.log (u + Real.sqrt (u ^ 2 - 1)) + v * Real.sqrt (1 - v ^ 2) * (Real.arccos v - Real.pi / 2))
    / (u ^ 2 - v ^ 2)

/-- The same in the coordinates of the plane. -/
def potXY (x y : ℝ) : ℝ := potUV (uOf x y) (vOf x y)

theorem uv_bounds {x y : ℝ} (hy : y ≠ 0) : 1 < uOf x y ∧ -1 < vOf x y ∧ vOf x y < 1 := by
  unfold uOf vOf
  have h1 : |x - 1| < Real.sqrt ((x - 1) ^ 2 + y ^ 2) := by
    rw [← Real.sqrt_sq_eq_abs]
    exact Real.sqrt_lt_sqrt (sq_nonneg _) (by have := sq_pos_of_ne_zero hy; linarith)
  have h2 : |x + 1| < Real.sqrt ((x + 1) ^ 2 + y ^ 2) := by
    rw [← Real.sqrt_sq_eq_abs]
    exact Real.sqrt_lt_sqrt (sq_nonneg _) (by have := sq_pos_of_ne_zero hy; linarith)
  have s1 := Real.sq_sqrt (show 0 ≤ (x - 1) ^ 2 + y ^ 2 by positivity)
  have s2 := Real.sq_sqrt (show 0 ≤ (x + 1) ^ 2 + y ^ 2 by positivity)
  have n1 := Real.sqrt_nonneg ((x - 1) ^ 2 + y ^ 2)
  have n2 := Real.sqrt_nonneg ((x + 1) ^ 2 + y ^ 2)
  have hy2 := sq_pos_of_ne_zero hy
  generalize Real.sqrt ((x - 1) ^ 2 + y ^ 2) = a at *
  generalize Real.sqrt ((x + 1) ^ 2 + y ^ 2) = b at *
  have b1 := neg_abs_le (x - 1)
  have b2 := le_abs_self (x + 1)
  refine ⟨by linarith, ?_, ?_⟩
  · -- a < b + 2
    have h3 : a < b + 2 := by
      by_contra h
      have h4 := neg_abs_le (x + 1)
      nlinarith
    linarith
  · have h3 : b < a + 2 := by
      by_contra h
      have h4 := le_abs_self (x - 1)
      nlinarith
    linarith

/-- The derivatives of the potential in elliptic coordinates, along curves. -/
theorem hasDerivAt_potUV {u v : ℝ → ℝ} {u' v' t : ℝ} (hu : HasDerivAt u u' t) (hv : HasDerivAt v v' t) (h1 : 1 < u t) (h2 : -1 < v t)
    (h3 : v t < 1) : HasDerivAt (fun t => potUV (u t) (v t)) (dUu (u t) (v t) * u' + dUv (u t) (v t) * v') t := by
  have p1 : 0 < u t ^ 2 - 1 := by nlinarith
  have p2 : 0 < 1 - v t ^ 2 := by nlinarith
  have p3 : u t ^ 2 - v t ^ 2 ≠ 0 := by nlinarith
  have s1 := Real.sqrt_pos.2 p1
  have s2 := Real.sqrt_pos.2 p2
  have q1 := Real.sq_sqrt p1.le
  have q2 := Real.sq_sqrt p2.le
  have p4 : u t + Real.sqrt (u t ^ 2 - 1) ≠ 0 := by linarith
  have d1 := ((hu.fun_pow 2).sub_const 1).sqrt p1.ne'
  have d2 := ((hv.fun_pow 2).const_sub 1).sqrt p2.ne'
  have d3 := (hu.fun_add d1).log p4
  have d4 := ((Real.hasDerivAt_arccos h2.ne' h3.ne).comp t hv).sub_const (Real.pi / 2)
  have d5 := (((hu.fun_mul d1).fun_mul d3).fun_add ((hv.fun_mul d2).fun_mul d4)).fun_div ((hu.fun_pow 2).fun_sub (hv.fun_pow 2)) p3
  refine d5.congr_deriv ?_
  unfold dUu dUv
  have ne : u t ≠ 1 := h1.ne'
  simp only [if_neg ne, Function.comp, ← pow_two]
  generalize Real.log (u t + Real.sqrt (u t ^ 2 - 1)) = L
  generalize Real.arccos (v t) - Real.pi / 2 = α
  generalize Real.sqrt (u t ^ 2 - 1) = a at *
  generalize Real.sqrt (1 - v t ^ 2) = b at *
  have hlog : (u' + 2 * u t * u' / (2 * a)) / (u t + a) = u' / a := by
    field_simp
    ring
  simp only [Nat.cast_ofNat, Nat.add_one_sub_one, pow_one]
  rw [hlog]
  generalize u t ^ 2 - v t ^ 2 = D at *
  field_simp
  ring

theorem potXY_smooth {w : ℝ × ℝ} (hy : w.2 ≠ 0) : ContDiffAt ℝ 2 (fun w : ℝ × ℝ => potXY w.1 w.2) w := by
  obtain ⟨h1, h2, h3⟩ := uv_bounds (x := w.1) hy
  have p1 : uOf w.1 w.2 ^ 2 - 1 ≠ 0 := by nlinarith
  have p2 : 1 - vOf w.1 w.2 ^ 2 ≠ 0 := by nlinarith
  have p3 : uOf w.1 w.2 ^ 2 - vOf w.1 w.2 ^ 2 ≠ 0 := by nlinarith
  have p4 : uOf w.1 w.2 + Real.sqrt (uOf w.1 w.2 ^ 2 - 1) ≠ 0 := by
    have := Real.sqrt_nonneg (uOf w.1 w.2 ^ 2 - 1)
    linarith
  have r1 : (w.1 - 1) ^ 2 + w.2 ^ 2 ≠ 0 := by
    have := sq_pos_of_ne_zero hy
    positivity
  have r2 : (w.1 + 1) ^ 2 + w.2 ^ 2 ≠ 0 := by
    have := sq_pos_of_ne_zero hy
    positivity
  have cu : ContDiffAt ℝ 2 (fun w : ℝ × ℝ => uOf w.1 w.2) w := by
    unfold uOf
    fun_prop (disch := assumption)
  have cv : ContDiffAt ℝ 2 (fun w : ℝ × ℝ => vOf w.1 w.2) w := by
    unfold vOf
    fun_prop (disch := assumption)
  have ca : ContDiffAt ℝ 2 (fun w : ℝ × ℝ => Real.arccos (vOf w.1 w.2)) w :=
    ContDiffAt.comp (g := Real.arccos) (f := fun w : ℝ × ℝ => vOf w.1 w.2) w (Real.contDiffAt_arccos h2.ne' h3.ne) cv
  unfold potXY potUV
  fun_prop (disch := assumption)

theorem hasDerivAt_uv {X Y : ℝ → ℝ} {X' Y' t : ℝ} (hX : HasDerivAt X X' t) (hY : HasDerivAt Y Y' t) (hy : Y t ≠ 0) :
    HasDerivAt (fun t => uOf (X t) (Y t)) (dux (X t) (Y t) * X' + duy (X t) (Y t) * Y') t
      ∧ HasDerivAt (fun t => vOf (X t) (Y t)) (dvx (X t) (Y t) * X' + dvy (X t) (Y t) * Y') t := by
  have := sq_pos_of_ne_zero hy
  have r1 : 0 < (X t - 1) ^ 2 + Y t ^ 2 := by positivity
  have r2 : 0 < (X t + 1) ^ 2 + Y t ^ 2 := by positivity
  have s1 := (Real.sqrt_pos.2 r1).ne'
  have s2 := (Real.sqrt_pos.2 r2).ne'
  have d1 := (((hX.sub_const 1).fun_pow 2).fun_add (hY.fun_pow 2)).sqrt r1.ne'
  have d2 := (((hX.add_const 1).fun_pow 2).fun_add (hY.fun_pow 2)).sqrt r2.ne'
  refine ⟨((d1.const_mul 0.5).fun_add (d2.const_mul 0.5)).congr_deriv ?_, ((d2.const_mul 0.5).fun_sub (d1.const_mul 0.5)).congr_deriv ?_⟩ <;>
    simp only [dux, duy, dvx, dvy, Nat.cast_ofNat, Nat.add_one_sub_one, pow_one] <;>
    field_simp <;> ring

/-- The gradient of the potential. -/
theorem hasFDerivAt_potXY {w : ℝ × ℝ} (hy : w.2 ≠ 0) :
    HasFDerivAt (fun w : ℝ × ℝ => potXY w.1 w.2)
      ((dUu (uOf w.1 w.2) (vOf w.1 w.2) * dux w.1 w.2 + dUv (uOf w.1 w.2) (vOf w.1 w.2) * dvx w.1 w.2) • ContinuousLinearMap.fst ℝ ℝ ℝ
        + (dUu (uOf w.1 w.2) (vOf w.1 w.2) * duy w.1 w.2 + dUv (uOf w.1 w.2) (vOf w.1 w.2) * dvy w.1 w.2)
          • ContinuousLinearMap.snd ℝ ℝ ℝ) w := by
  have hd := (potXY_smooth hy).differentiableAt (by norm_num)
  refine hd.hasFDerivAt.congr_fderiv (ContinuousLinearMap.ext fun e => ?_)
  obtain ⟨h1, h2, h3⟩ := uv_bounds (x := w.1) hy
  have l1 : HasDerivAt (fun t : ℝ => w.1 + t * e.1) e.1 0 := by simpa using ((hasDerivAt_id' (0 : ℝ)).mul_const e.1).const_add w.1
  have l2 : HasDerivAt (fun t : ℝ => w.2 + t * e.2) e.2 0 := by simpa using ((hasDerivAt_id' (0 : ℝ)).mul_const e.2).const_add w.2
  obtain ⟨du, dv⟩ := hasDerivAt_uv l1 l2 (by simpa using hy)
  have h := hasDerivAt_potUV du dv (by simpa using h1) (by simpa using h2) (by simpa using h3)
  rw [fderiv_line hd (v := e) (by simpa [potXY] using h)]
  simp
  ring

/-- The potential of the kick of a `NonLinearLens`. -/
def lensPotential (knll cnll x y : ℝ) : ℝ := knll * potXY (x / cnll) (y / cnll)

/-- The kick of a `NonLinearLens`. -/
def lensKick (knll cnll x y : ℝ) : ℝ × ℝ :=
  (knll / cnll * (dUu (uOf (x / cnll) (y / cnll)) (vOf (x / cnll) (y / cnll)) * dux (x / cnll) (y / cnll)
      + dUv (uOf (x / cnll) (y / cnll)) (vOf (x / cnll) (y / cnll)) * dvx (x / cnll) (y / cnll)),
    knll / cnll * (dUu (uOf (x / cnll) (y / cnll)) (vOf (x / cnll) (y / cnll)) * duy (x / cnll) (y / cnll)
      + dUv (uOf (x / cnll) (y / cnll)) (vOf (x / cnll) (y / cnll)) * dvy (x / cnll) (y / cnll)))

theorem lens_track (knll cnll : ℝ) (p : Part) :
    nonlinearLens knll cnll p = { p with px := p.px + (lensKick knll cnll p.x p.y).1, py := p.py + (lensKick knll cnll p.x p.y).2 } := rfl

theorem lens_gradient {knll cnll : ℝ} (hc : cnll ≠ 0) {w : ℝ × ℝ} (hy : w.2 ≠ 0) :
    HasFDerivAt (fun w : ℝ × ℝ => lensPotential knll cnll w.1 w.2) ((lensKick knll cnll w.1 w.2).1 • ContinuousLinearMap.fst ℝ ℝ ℝ
      + (lensKick knll cnll w.1 w.2).2 • ContinuousLinearMap.snd ℝ ℝ ℝ) w := by
  have hs : HasFDerivAt (fun w : ℝ × ℝ => (w.1 / cnll, w.2 / cnll))
      ((cnll⁻¹ • ContinuousLinearMap.fst ℝ ℝ ℝ).prod (cnll⁻¹ • ContinuousLinearMap.snd ℝ ℝ ℝ)) w := by
    simp only [div_eq_mul_inv]
    exact (hasFDerivAt_fst.mul_const _).prodMk (hasFDerivAt_snd.mul_const _)
  have hp := hasFDerivAt_potXY (w := (w.1 / cnll, w.2 / cnll)) (div_ne_zero hy hc)
  refine ((hp.comp w hs).const_mul knll).congr_fderiv ?_
  ext <;> simp [lensKick] <;> ring

theorem lens_smooth {knll cnll : ℝ} (hc : cnll ≠ 0) {w : ℝ × ℝ} (hy : w.2 ≠ 0) :
    ContDiffAt ℝ 2 (fun w : ℝ × ℝ => lensPotential knll cnll w.1 w.2) w := by
  have hs : ContDiffAt ℝ 2 (fun w : ℝ × ℝ => (w.1 / cnll, w.2 / cnll)) w := by fun_prop
  have hp := potXY_smooth (w := (w.1 / cnll, w.2 / cnll)) (div_ne_zero hy hc)
  have h := hp.comp w hs
  have e : ((fun w : ℝ × ℝ => potXY w.1 w.2) ∘ fun w : ℝ × ℝ => (w.1 / cnll, w.2 / cnll)) = fun w => potXY (w.1 / cnll) (w.2 / cnll) := rfl
  rw [e] at h
  unfold lensPotential
  exact contDiffAt_const.mul h

theorem good_lens {p : Part} (k : p.Kin) {knll cnll : ℝ} (hc : cnll ≠ 0) (hy : p.y ≠ 0) : Good (fun q => nonlinearLens knll cnll q) p := by
  have near : ∀ᶠ v in 𝓝 (p.x, p.y), (v : ℝ × ℝ).2 ≠ 0 := (continuous_snd.continuousAt).eventually_ne hy
  obtain ⟨a, b, d, hA, hB⟩ := gradient_symm (w := (p.x, p.y)) (lens_smooth (knll := knll) hc hy)
    (near.mono fun v hv => lens_gradient (knll := knll) hc hv)
  refine good_kick ?_ hA hB (Eventually.of_forall fun z => ?_)
  · exact Lawful.of_kind (fun _ => ⟨rfl, rfl, rfl, rfl, rfl, rfl⟩) fun p q e => by
      simp only [coords, lens_track, e.x, e.px, e.y, e.py, e.zeta, e.ptau, e.beta0]
  · ext i
    fin_cases i <;> simp [coords, lens_track, place, k.beta0.ne']

/-! ### All of them -/

/-- Thin elements (all but `Elens`, which is not symplectic: `C82_elens_violated`). -/
inductive Element
  | bend (knl0 hxl length : ℝ)
  | quadrupole (knl1 : ℝ)
  | timeDelay (shift : ℝ)
  | wire (w : Wire)
  | acDipole (a : AcDipole)
  | exciter (e : Exciter)
  | nonlinearLens (knll cnll : ℝ)
  | multipoleEdge (kn ks : ℕ → ℝ) (order : ℕ) (isExit : Bool)
  | dipoleFringe (fint hgap k : ℝ)

/-- Tracking; for the elements without `has_backtrack` the flag changes nothing here, and the tracker refuses to backtrack. -/
def Element.track (c : Ctx) : Element → Bool → Part → Part
  | .bend knl0 hxl length, b, p => thinBend knl0 hxl length b p
  | .quadrupole knl1, b, p => thinQuad knl1 b p
  | .timeDelay s, b, p => Verif.Thin.timeDelay s b p
  | .wire w, _, p => w.track c p
  | .acDipole a, _, p => a.track c p
  | .exciter e, b, p => e.track c b p
  | .nonlinearLens k cn, _, p => Verif.Thin.nonlinearLens k cn p
  | .multipoleEdge kn ks o ex, _, p => Verif.Thin.multipoleEdge kn ks o ex p
  | .dipoleFringe fint hgap k, _, p => Edges.dipoleFringe fint hgap k p

/-- The particle is where the kick of the element is defined and differentiable. -/
def Element.Runs (c : Ctx) : Element → Part → Prop
  | .bend _ hxl _, p => hxl = 0 ∨ p.chi = 1
  | .quadrupole _, _ => True
  | .timeDelay _, _ => True
  | .wire w, p => w.Off p
  | .acDipole _, _ => True
  | .exciter e, p => 0 ≤ e.order ∧ e.Steady c p
  | .nonlinearLens _ cn, p => cn ≠ 0 ∧ p.y ≠ 0
  | .multipoleEdge kn ks o ex, p => MultOk (edgeArgs kn ks o ex) p
  | .dipoleFringe fint hgap k, p => ¬|k| < 10e-10 → FringeOk fint hgap k p

theorem Element.good (c : Ctx) (t : Element) (back : Bool) {p : Part} (k : p.Kin) (r : t.Runs c p) : Good (fun q => t.track c back q) p := by
  cases t with
  | bend knl0 hxl length => exact good_thinBend k _ _ _ _ r
  | quadrupole knl1 => exact good_thinQuad k _ _
  | timeDelay s => exact good_timeDelay k _ _
  | wire w => exact good_wire k w c r
  | acDipole a => exact good_acDipole k a c
  | exciter e => exact good_exciter k e r.1 c back r.2
  | nonlinearLens kn cn => exact good_lens k r.1 r.2
  | multipoleEdge kn ks o ex => exact good_multFringe k _ r
  | dipoleFringe fint hgap kk => exact ⟨lawful_dipoleFringe _ _ _, symplectic_dipoleFringe k r⟩

end

end Verif.Thin
