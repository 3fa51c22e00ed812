import Verif.Symplectic.Drifts
import Verif.Magnets.Kick
import Verif.Magnets.Body
import Verif.Edges.Model

/-!
# Kicks, shifts and rolls are symplectic
-/

namespace Verif.Symplectic

open Frames hiding curvature
open Magnets Filter Topology

noncomputable section

variable {E : Type*} [NormedAddCommGroup E] [NormedSpace ℝ E]

theorem canonical_of_lines {f : Z → Z} {z : Z} (hd : DifferentiableAt ℝ f z) (D : Z → Z)
    (h : ∀ u i, HasDerivAt (fun t : ℝ => f (z + t • u) i) (D u i) 0) (s : ∀ v w, omega (D v) (D w) = omega v w) : Canonical f z := by
  refine ⟨fderiv ℝ f z, hd.hasFDerivAt, fun v w => ?_⟩
  have key : ∀ u, fderiv ℝ f z u = D u := by
    intro u
    have h1 : HasDerivAt (fun t : ℝ => z + t • u) u 0 := by
      simpa using ((hasDerivAt_id' (0 : ℝ)).smul_const u).const_add z
    have h2 : HasFDerivAt f (fderiv ℝ f z) (z + (0 : ℝ) • u) := by simpa using hd.hasFDerivAt
    have h3 : HasDerivAt (fun t : ℝ => f (z + t • u)) (fderiv ℝ f z u) 0 := h2.comp_hasDerivAt (0 : ℝ) h1
    ext i
    exact (hasDerivAt_pi.1 h3 i).unique (h u i)
  rw [key, key]
  exact s v w

/-- A kick which derives from a potential of `x`, `y` and `pzeta`. -/
theorem canonical_kick {A B C : Z → ℝ} {z : Z} (hA : DifferentiableAt ℝ A z) (hB : DifferentiableAt ℝ B z) (hC : DifferentiableAt ℝ C z)
    (a b c d e g : ℝ) (dA : ∀ u : Z, HasDerivAt (fun t : ℝ => A (z + t • u)) (a * u 0 + b * u 2 + c * u 5) 0)
    (dB : ∀ u : Z, HasDerivAt (fun t : ℝ => B (z + t • u)) (b * u 0 + d * u 2 + e * u 5) 0)
    (dC : ∀ u : Z, HasDerivAt (fun t : ℝ => C (z + t • u)) (-(c * u 0) - e * u 2 + g * u 5) 0) :
    Canonical (fun z => ![z 0, z 1 + A z, z 2, z 3 + B z, z 4 + C z, z 5]) z := by
  refine canonical_of_lines ?_ (fun u => ![u 0, u 1 + (a * u 0 + b * u 2 + c * u 5), u 2, u 3 + (b * u 0 + d * u 2 + e * u 5),
    u 4 + (-(c * u 0) - e * u 2 + g * u 5), u 5]) ?_ ?_
  · rw [differentiableAt_pi]
    intro i
    fin_cases i <;> simp <;> fun_prop
  · intro u i
    have l := line z u
    fin_cases i <;> simp only [Pi.add_apply, Pi.smul_apply, smul_eq_mul] <;>
      first | exact l 0 | exact (l 1).add (dA u) | exact l 2 | exact (l 3).add (dB u) | exact (l 4).add (dC u) | exact l 5
  · intro v w
    simp only [omega, Matrix.cons_val]
    ring

/-! ## Multipoles -/

/-- The real and the imaginary part of a function which satisfies the Cauchy-Riemann equations at a point. -/
def Analytic (f : ℝ → ℝ → ℝ × ℝ) (x y : ℝ) : Prop :=
  ∃ α β : ℝ, ∀ (X Y : ℝ → ℝ) (X' Y' t : ℝ), X t = x → Y t = y → HasDerivAt X X' t → HasDerivAt Y Y' t →
    HasDerivAt (fun t => (f (X t) (Y t)).1) (α * X' - β * Y') t ∧ HasDerivAt (fun t => (f (X t) (Y t)).2) (β * X' + α * Y') t

theorem analytic_const (a : ℝ × ℝ) (x y : ℝ) : Analytic (fun _ _ => a) x y :=
  ⟨0, 0, fun X Y X' Y' t _ _ _ _ => ⟨(hasDerivAt_const t a.1).congr_deriv (by ring), (hasDerivAt_const t a.2).congr_deriv (by ring)⟩⟩

theorem analytic_step {f : ℝ → ℝ → ℝ × ℝ} {x y : ℝ} (h : Analytic f x y) (c d : ℝ) :
    Analytic (fun x y => (c + ((f x y).1 * x - (f x y).2 * y), d + ((f x y).1 * y + (f x y).2 * x))) x y := by
  obtain ⟨α, β, h⟩ := h
  refine ⟨α * x - β * y + (f x y).1, β * x + α * y + (f x y).2, fun X Y X' Y' t hx hy dX dY => ?_⟩
  obtain ⟨h1, h2⟩ := h X Y X' Y' t hx hy dX dY
  refine ⟨(((h1.mul dX).sub (h2.mul dY)).const_add c).congr_deriv ?_, (((h1.mul dY).add (h2.mul dX)).const_add d).congr_deriv ?_⟩ <;>
    rw [hx, hy] <;> ring

theorem analytic_horner (chi factor : ℝ) (knl ksl : ℕ → ℝ) (i : ℕ) : ∀ (f : ℝ) (g : ℝ → ℝ → ℝ × ℝ) (x y : ℝ), Analytic g x y →
    Analytic (fun x y => horner chi x y factor knl ksl i f (g x y).1 (g x y).2) x y := by
  induction i with
  | zero => exact fun f g x y h => h
  | succ i ih =>
    intro f g x y h
    exact ih _ _ x y (analytic_step h (chi * knl i * factor * (f * ((i : ℝ) + 1))) (chi * ksl i * factor * (f * ((i : ℝ) + 1))))

theorem smooth_horner (chi factor : ℝ) (knl ksl : ℕ → ℝ) {x y : E → ℝ} {a : E} {n : WithTop ℕ∞} (hx : ContDiffAt ℝ n x a) (hy : ContDiffAt ℝ n y a)
    (i : ℕ) : ∀ (f : ℝ) (u v : E → ℝ), ContDiffAt ℝ n u a → ContDiffAt ℝ n v a →
    ContDiffAt ℝ n (fun a => (horner chi (x a) (y a) factor knl ksl i f (u a) (v a)).1) a
      ∧ ContDiffAt ℝ n (fun a => (horner chi (x a) (y a) factor knl ksl i f (u a) (v a)).2) a := by
  induction i with
  | zero => exact fun f u v hu hv => ⟨hu, hv⟩
  | succ i ih =>
    intro f u v hu hv
    exact ih _ (fun a => chi * knl i * factor * (f * ((i : ℝ) + 1)) + (u a * x a - v a * y a))
      (fun a => chi * ksl i * factor * (f * ((i : ℝ) + 1)) + (u a * y a + v a * x a)) (by fun_prop) (by fun_prop)

theorem analytic_kick (chi : ℝ) (order : ℕ) (f : ℝ) (knl ksl : ℕ → ℝ) (factor w x y : ℝ) :
    ∃ α β : ℝ, ∀ (X Y : ℝ → ℝ) (X' Y' t : ℝ), X t = x → Y t = y → HasDerivAt X X' t → HasDerivAt Y Y' t →
      HasDerivAt (fun t => (kickCoords (X t) (Y t) chi order f knl ksl factor w).1) (-α * X' + β * Y') t
        ∧ HasDerivAt (fun t => (kickCoords (X t) (Y t) chi order f knl ksl factor w).2) (β * X' + α * Y') t := by
  obtain ⟨α, β, h⟩ := analytic_horner chi factor knl ksl order f (fun _ _ => (chi * knl order * factor * f, chi * ksl order * factor * f))
    x y (analytic_const _ x y)
  refine ⟨w * α, w * β, fun X Y X' Y' t hx hy dX dY => ?_⟩
  obtain ⟨h1, h2⟩ := h X Y X' Y' t hx hy dX dY
  refine ⟨((h1.neg).const_mul w).congr_deriv (by ring), (h2.const_mul w).congr_deriv (by ring)⟩

theorem smooth_kick (chi : ℝ) (order : ℕ) (f : ℝ) (knl ksl : ℕ → ℝ) (factor w : ℝ) (z : Z) :
    ContDiffAt ℝ 2 (fun z : Z => (kickCoords (z 0) (z 2) chi order f knl ksl factor w).1) z
      ∧ ContDiffAt ℝ 2 (fun z : Z => (kickCoords (z 0) (z 2) chi order f knl ksl factor w).2) z := by
  obtain ⟨h1, h2⟩ := smooth_horner chi factor knl ksl (x := fun z : Z => z 0) (y := fun z : Z => z 2) (a := z) (n := 2) (by fun_prop)
    (by fun_prop) order f (fun _ => chi * knl order * factor * f) (fun _ => chi * ksl order * factor * f) (by fun_prop) (by fun_prop)
  exact ⟨contDiffAt_const.mul h1.neg, contDiffAt_const.mul h2⟩

theorem symplectic_kickSimple {p : Part} (k : p.Kin) (order : ℕ) (f : ℝ) (knl ksl : ℕ → ℝ) (factor w : ℝ) :
    SymplecticAt (fun q => kickSimple q order f knl ksl factor w) p := by
  obtain ⟨α, β, h⟩ := analytic_kick p.chi order f knl ksl factor w (coords p 0) (coords p 2)
  obtain ⟨s1, s2⟩ := smooth_kick p.chi order f knl ksl factor w (coords p)
  have hl := fun u : Z => h (fun t => coords p 0 + t * u 0) (fun t => coords p 2 + t * u 2) (u 0) (u 2) 0 (by simp) (by simp)
    (line _ u 0) (line _ u 2)
  have c := canonical_kick (z := coords p) (C := fun _ => 0) (s1.differentiableAt (by norm_num)) (s2.differentiableAt (by norm_num))
    (by fun_prop) (-α) β 0 α 0 0 (fun u => (hl u).1.congr_deriv (by ring)) (fun u => (hl u).2.congr_deriv (by ring))
    fun u => (hasDerivAt_const (0 : ℝ) (0 : ℝ)).congr_deriv (by ring)
  refine c.congr (Eventually.of_forall fun z => ?_)
  ext i
  fin_cases i <;> simp [coords, kickSimple, place, k.beta0.ne']

theorem lawful_kickSimple (order : ℕ) (f : ℝ) (knl ksl : ℕ → ℝ) (factor w : ℝ) :
    Lawful fun q => kickSimple q order f knl ksl factor w :=
  Lawful.of_kind (fun _ => ⟨rfl, rfl, rfl, rfl, rfl, rfl⟩) fun p q e => by
    simp [coords, kickSimple, e.x, e.px, e.y, e.py, e.zeta, e.ptau, e.beta0, e.chi]

theorem hasDerivAt_energy {b : ℝ} {f : ℝ → ℝ} {f' t : ℝ} (h : HasDerivAt f f' t) (pos : 0 < radOf b (f t)) :
    HasDerivAt (fun t => (1 + b ^ 2 * f t) / opdOf b (f t)) ((b ^ 2 / opdOf b (f t) - (1 + b ^ 2 * f t) ^ 2 / opdOf b (f t) ^ 3) * f') t := by
  have ho : opdOf b (f t) ≠ 0 := (opdOf_pos pos).ne'
  refine (((h.const_mul (b ^ 2)).const_add 1).div (hasDerivAt_opdOf h pos) ho).congr_deriv ?_
  field_simp

theorem symplectic_curvature {p : Part} (k : p.Kin) (a : KickArgs) (w : ℝ) : SymplecticAt (fun q => curvature a w q) p := by
  have fz := fine_coords k
  have h1 : radOf p.beta0 (coords p 5) ≠ 0 := fz.rad.ne'
  have h5 := (opdOf_pos fz.rad).ne'
  have h6 := fz.energy.ne'
  let H : ℝ := if a.rotFrame then a.h * a.length * w + a.hxl * w else 0
  let P : ℝ := -p.chi * (a.k0h * a.length + k0lMult a) * w * hTot a
  let Q : ℝ := hTot a * p.chi * (a.k1h * a.length + k1lMult a) * w
  have hl := fun u : Z => line (coords p) u
  have c := canonical_kick (z := coords p) (A := fun z => H * opdOf p.beta0 (z 5) + P * z 0 + Q * (-z 0 * z 0 + 0.5 * z 2 * z 2))
    (B := fun z => Q * z 0 * z 2) (C := fun z => -(H * ((1 + p.beta0 ^ 2 * z 5) / opdOf p.beta0 (z 5)) * z 0))
    (ContDiffAt.differentiableAt (n := 2) (by fun_prop (disch := assumption)) (by norm_num)) (by fun_prop)
    (ContDiffAt.differentiableAt (n := 2) (by fun_prop (disch := assumption)) (by norm_num))
    (P - 2 * Q * coords p 0) (Q * coords p 2) (H * ((1 + p.beta0 ^ 2 * coords p 5) / opdOf p.beta0 (coords p 5)))
    (Q * coords p 0) 0
    (-(H * (p.beta0 ^ 2 / opdOf p.beta0 (coords p 5) - (1 + p.beta0 ^ 2 * coords p 5) ^ 2 / opdOf p.beta0 (coords p 5) ^ 3) * coords p 0))
    (fun u => by
      refine ((((hasDerivAt_opdOf (b := p.beta0) (hl u 5) (by simpa [radOf] using fz.rad)).const_mul H).add ((hl u 0).const_mul P)).add
        ((((hl u 0).neg.mul (hl u 0)).add (((hl u 2).const_mul 0.5).mul (hl u 2))).const_mul Q)).congr_deriv ?_
      simp
      ring)
    (fun u => by
      refine ((((hl u 0).const_mul Q)).mul (hl u 2)).congr_deriv ?_
      simp
      ring)
    fun u => by
      refine ((((hasDerivAt_energy (b := p.beta0) (hl u 5) (by simpa [radOf] using fz.rad)).const_mul H).mul (hl u 0)).neg).congr_deriv ?_
      simp
      ring
  refine c.congr (Eventually.of_forall fun z => ?_)
  ext i
  simp only [H, P, Q]
  by_cases hr : a.rotFrame
  · fin_cases i <;> simp [coords, curvature, place, k.beta0.ne', hr]
    ring_nf
    simp
  · fin_cases i <;> simp [coords, curvature, place, k.beta0.ne', hr]

theorem lawful_curvature (a : KickArgs) (w : ℝ) : Lawful fun q => curvature a w q :=
  Lawful.of_kind (fun _ => ⟨rfl, rfl, rfl, rfl, rfl, rfl⟩) fun p q e => by
    simp [coords, curvature, e.x, e.px, e.y, e.py, e.zeta, e.ptau, e.beta0, e.chi, e.delta, e.rvv]

/-- Every kick of a magnet, whatever its order, strengths and curvature. -/
theorem symplectic_magnetKick {p : Part} (k : p.Kin) (a : KickArgs) (w : ℝ) :
    SymplecticAt (fun q => magnetKick a w q) p ∧ Lawful fun q => magnetKick a w q := by
  have l1 := lawful_kickSimple a.order (invFact a.order) a.knl a.ksl a.factor w
  have l2 := lawful_kickSimple a.orderRel (invFact a.orderRel) a.knlRel a.kslRel (a.factor * a.relRef) w
  have l3 := lawful_kickSimple 3 (1 / (3 * 2)) (mainArr a.k0 a.k1 a.k2 a.k3 a.length) (mainArr a.k0s a.k1s a.k2s a.k3s a.length) 1 w
  have l4 := lawful_curvature a w
  have k1 := l1.kin p k
  have k2 := l2.kin _ k1
  have k3 := l3.kin _ k2
  refine ⟨?_, l4.comp (l3.comp (l2.comp l1))⟩
  have s2 := SymplecticAt.comp k l1 l2 (symplectic_kickSimple k1 _ _ _ _ _ _) (symplectic_kickSimple k _ _ _ _ _ _)
  have s3 := SymplecticAt.comp k (l2.comp l1) l3 (symplectic_kickSimple k2 _ _ _ _ _ _) s2
  have s4 := SymplecticAt.comp k (l3.comp (l2.comp l1)) l4 (symplectic_curvature k3 a w) s3
  exact s4

end

end Verif.Symplectic
