import Verif.Rad.Model

/-! # Specification for synchrotron radiation (C110-C113) -/

namespace Verif.Rad

noncomputable section

/-- Slopes of the trajectory times the longitudinal momentum over the total one. -/
def direction (m : Mom) : ℝ × ℝ := (m.px / (1 + m.delta), m.py / (1 + m.delta))

/-- The textbook energy loss (joule) on a path `l` with bending radius `rho`: `2/3 r_0 m c^2 gamma^4 l / rho^2`. -/
def classicalLoss (r0 mc2 gamma rho l : ℝ) : ℝ := 2 / 3 * r0 * mc2 * gamma ^ 4 * l / rho ^ 2

/-- Energy of a particle of this momentum and mass (same units). -/
def energyOf (P m : ℝ) : ℝ := Real.sqrt (P ^ 2 + m ^ 2)

/-- `k` events before `avg`: `gaps` are the distances, the first from zero. -/
def Events (avg : ℝ) (gaps : List ℝ) (k : ℕ) : Prop :=
  k < gaps.length ∧ (∀ j, 1 ≤ j → j ≤ k → (gaps.take j).sum < avg) ∧ avg ≤ (gaps.take (k + 1)).sum

/-- Sum and difference of changes. -/
def Mom.sub (a b : Mom) : Mom := ⟨a.delta - b.delta, a.px - b.px, a.py - b.py⟩
def Mom.add (a b : Mom) : Mom := ⟨a.delta + b.delta, a.px + b.px, a.py + b.py⟩

/-- Setting the momenta sets them. -/
def RadStep.Lawful {σ : Type} (st : RadStep σ) : Prop := ∀ q m, st.mom (st.setMom q m) = m

/-- The grid of the tails: zero, then in geometric progression. -/
def LogGrid (grid : ℕ → ℝ) (size : ℕ) : Prop :=
  3 ≤ size ∧ grid 0 = 0 ∧ ∃ a rho : ℝ, 0 < a ∧ 1 < rho ∧ ∀ i, i + 1 < size → grid (i + 1) = a * rho ^ i

/-- The grid of the centre: equal distances. -/
def LinGrid (grid : ℕ → ℝ) (size : ℕ) : Prop :=
  2 ≤ size ∧ ∃ a d : ℝ, 0 < d ∧ ∀ i, i < size → grid i = a + d * i

end

end Verif.Rad
