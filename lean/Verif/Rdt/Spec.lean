import Verif.Rdt.Model

/-!
# First-order perturbation theory

The complex Courant-Snyder variables `x / sqrt betx - i px_hat` of a particle in a linear ring advance by the phase
advance; each thin magnet adds its kick.  To first order in the strengths the kick is the one at the position of the
unperturbed motion.
-/

namespace Verif.Rdt

open Finset Complex Verif.Magnets

noncomputable section

/-- Position of the unperturbed motion with action `J` and phase `ph`. -/
def pos (beta J ph : ℝ) : ℝ := Real.sqrt beta * (Real.sqrt (2 * J) * Real.cos ph)

/-- What the magnet of a row, with multipoles up to order `M`, adds to the horizontal variable: the kick of the
tracking code (C58) in normalised momentum. -/
def kickX (w : Row) (M : ℕ) (x y : ℝ) : ℂ :=
  -I * (Real.sqrt w.betx : ℂ) * ((kickCoords x y 1 M (invFact M) w.knl w.ksl 1 1).1 : ℂ)

def kickY (w : Row) (M : ℕ) (x y : ℝ) : ℂ :=
  -I * (Real.sqrt w.bety : ℂ) * ((kickCoords x y 1 M (invFact M) w.knl w.ksl 1 1).2 : ℂ)

/-- The deviation which the driving terms at row `i` give, for a particle with phases `psix`, `psiy` at the start. -/
def devX (D : Finset Key) (L : ℕ) (rows : ℕ → Row) (qx qy Ix Iy psix psiy : ℝ) (i N : ℕ) : ℂ :=
  hxMinus D (fun k => f L rows qx qy k i) Ix Iy qx qy (2 * Real.pi * (rows i).mux + psix)
      (2 * Real.pi * (rows i).muy + psiy) N
    - (Real.sqrt (2 * Ix) : ℂ) * exp (I * phase qx (2 * Real.pi * (rows i).mux + psix) N)

def devY (D : Finset Key) (L : ℕ) (rows : ℕ → Row) (qx qy Ix Iy psix psiy : ℝ) (i N : ℕ) : ℂ :=
  hyMinus D (fun k => f L rows qx qy k i) Ix Iy qx qy (2 * Real.pi * (rows i).mux + psix)
      (2 * Real.pi * (rows i).muy + psiy) N
    - (Real.sqrt (2 * Iy) : ℂ) * exp (I * phase qy (2 * Real.pi * (rows i).muy + psiy) N)

/-- The keys of order `n`. -/
def keysOf (n : ℕ) : Finset Key :=
  (((range (n + 1) ×ˢ range (n + 1)) ×ˢ (range (n + 1) ×ˢ range (n + 1))).image
    (fun a => (⟨a.1.1, a.1.2, a.2.1, a.2.2⟩ : Key))).filter (fun k => k.n = n)

theorem mem_keysOf (n : ℕ) (k : Key) : k ∈ keysOf n ↔ k.n = n := by
  unfold keysOf
  simp only [mem_filter, mem_image, mem_product, mem_range, Prod.exists, and_iff_right_iff_imp]
  intro h
  unfold Key.n at h
  exact ⟨k.p, k.q, k.r, k.t, ⟨⟨by omega, by omega⟩, ⟨by omega, by omega⟩⟩, rfl⟩

/-- The keys of order 1 to `M + 1`, for multipoles up to `M`. -/
def keysUpTo (M : ℕ) : Finset Key := (range (M + 1)).biUnion fun m => keysOf (m + 1)

/-- Terms which change the tunes and drive no resonance. -/
def Key.Diag (k : Key) : Prop := k.p = k.q ∧ k.r = k.t

instance (k : Key) : Decidable k.Diag := by unfold Key.Diag; infer_instance

end

end Verif.Rdt
