import Mathlib.Analysis.Calculus.Deriv.Add
import Mathlib.Analysis.Calculus.Deriv.Mul
import Mathlib.Tactic.Linarith
import Mathlib.Tactic.Ring

/-!
# What it means that a field satisfies the equations of the vacuum, and derivatives of polynomials
-/

namespace Verif.Boris

/-! ## Specification -/

/-- The three components have all partial derivatives at the point, the divergence is zero and so is the
curl. -/
def Vacuum (Bx By Bs : ℝ → ℝ → ℝ → ℝ) (x y s : ℝ) : Prop :=
  ∃ xx xy xs yx yy ys sx sy ss : ℝ,
    HasDerivAt (fun t => Bx t y s) xx x ∧ HasDerivAt (fun t => Bx x t s) xy y ∧ HasDerivAt (fun t => Bx x y t) xs s ∧
    HasDerivAt (fun t => By t y s) yx x ∧ HasDerivAt (fun t => By x t s) yy y ∧ HasDerivAt (fun t => By x y t) ys s ∧
    HasDerivAt (fun t => Bs t y s) sx x ∧ HasDerivAt (fun t => Bs x t s) sy y ∧ HasDerivAt (fun t => Bs x y t) ss s ∧
    xx + yy + ss = 0 ∧ sy - ys = 0 ∧ xs - sx = 0 ∧ yx - xy = 0

theorem Vacuum.add {Bx By Bs Cx Cy Cs : ℝ → ℝ → ℝ → ℝ} {x y s : ℝ} (h : Vacuum Bx By Bs x y s)
    (k : Vacuum Cx Cy Cs x y s) : Vacuum (fun x y s => Bx x y s + Cx x y s)
      (fun x y s => By x y s + Cy x y s) (fun x y s => Bs x y s + Cs x y s) x y s := by
  obtain ⟨a1, a2, a3, a4, a5, a6, a7, a8, a9, h1, h2, h3, h4, h5, h6, h7, h8, h9, e1, e2, e3, e4⟩ := h
  obtain ⟨b1, b2, b3, b4, b5, b6, b7, b8, b9, k1, k2, k3, k4, k5, k6, k7, k8, k9, f1, f2, f3, f4⟩ := k
  refine ⟨a1 + b1, a2 + b2, a3 + b3, a4 + b4, a5 + b5, a6 + b6, a7 + b7, a8 + b8, a9 + b9, h1.add k1, h2.add k2, h3.add k3,
    h4.add k4, h5.add k5, h6.add k6, h7.add k7, h8.add k8, h9.add k9, ?_, ?_, ?_, ?_⟩ <;> linarith

/-- The polynomial of fourth order with the coefficients. -/
def poly (a : ℕ → ℝ) (s : ℝ) : ℝ := a 0 + a 1 * s + a 2 * s ^ 2 + a 3 * s ^ 3 + a 4 * s ^ 4

/-! ## Derivatives -/

/-- A polynomial, and its derivative. -/
def horner : List ℝ → ℝ → ℝ
  | [], _ => 0
  | a :: l, t => a + t * horner l t

def dhorner : List ℝ → ℝ → ℝ
  | [], _ => 0
  | _ :: l, t => horner l t + t * dhorner l t

theorem horner_deriv (l : List ℝ) (t : ℝ) : HasDerivAt (horner l) (dhorner l t) t := by
  induction l with
  | nil => exact hasDerivAt_const t 0
  | cons a l ih =>
    have := ((hasDerivAt_id t).mul ih).const_add a
    simp only [id, one_mul] at this
    exact this

end Verif.Boris
