import Mathlib.Analysis.SpecialFunctions.Log.Basic
import Mathlib.Analysis.Complex.Basic
import Mathlib.LinearAlgebra.Matrix.NonsingularInverse
import Mathlib.Tactic.Ring
import Mathlib.Tactic.NormNum
import Mathlib.Tactic.Linarith
import Mathlib.Tactic.FieldSimp
import Mathlib.Tactic.Positivity
import Mathlib.Tactic.LinearCombination

/-!
# Damping and equilibrium with radiation (C132, C133)

Modelled: `_get_eneloss_and_damping_rates`, the photon statistics of `_extract_sr_distribution_properties`, the emittances of `_get_equilibrium_emittance_kick_as_co`,
the covariance matrix of `_get_equilibrium_emittance_full` and `_compute_radiation_integrals` in `/repo/xtrack/twiss/radiation.py`.

Simplifications: real and complex numbers; the columns of the twiss table, the eigenvectors and the eigenvalues are given.
-/

namespace Verif.Equil

open Matrix Classical

noncomputable section

/-! ## Energy loss and damping from the one-turn matrix -/

/-- Differences of consecutive values, `np.diff`. -/
def diffs : List ℝ → List ℝ
  | a :: b :: l => (b - a) :: diffs (b :: l)
  | _ => []

/-- `eloss_turn`, lines 24-26: the sum of all decreases of the energy. -/
def energyLoss (ptau : List ℝ) (p0c : ℝ) : ℝ := -((diffs ptau).filter fun d => d < 0).sum * p0c

/-- `damping_constants_turns`, line 38. -/
def dampingTurns (lam : ℂ) : ℝ := -Real.log ‖lam‖

/-! ## Radiation integrals -/

/-- One row of the table used by `_compute_radiation_integrals`, lines 361-415: dispersion, curvatures of the trajectory and of the reference, gradient, curly H. -/
structure Row where
  dx : ℝ
  dy : ℝ
  kx : ℝ
  ky : ℝ
  k0x : ℝ
  k0y : ℝ
  k1 : ℝ
  hx : ℝ
  hy : ℝ
  length : ℝ

/-- Line 389. -/
def Row.kappa (r : Row) : ℝ := √(r.kx ^ 2 + r.ky ^ 2)

/-- `Hx_rad`, lines 398-399. -/
def curlyH (bet alf gam d dp : ℝ) : ℝ := gam * d ^ 2 + 2 * alf * d * dp + bet * dp ^ 2

/-- `np.sum(integrand * length)`. -/
def total (f : Row → ℝ) (rows : List Row) : ℝ := (rows.map fun r => f r * r.length).sum

/-- Lines 405-427. -/
def i2 (rows : List Row) : ℝ := total (fun r => r.kappa * r.kappa) rows

def i3 (rows : List Row) : ℝ := total (fun r => |r.kappa * r.kappa * r.kappa|) rows

def i4xRow (r : Row) : ℝ := r.dx * (r.k0x * r.kappa ^ 2 + 2 * r.k1 * r.kx)

def i4yRow (r : Row) : ℝ := r.dy * (r.k0y * r.kappa ^ 2 - 2 * r.k1 * r.ky)

def i4x (rows : List Row) : ℝ := total i4xRow rows

def i4y (rows : List Row) : ℝ := total i4yRow rows

def i4 (rows : List Row) : ℝ := total (fun r => i4xRow r + i4yRow r) rows

def i5x (rows : List Row) : ℝ := total (fun r => |r.kappa * r.kappa * r.kappa| * r.hx) rows

/-- Constants of the reference particle: mass in eV and in kg, classical radius, gamma, energy, Planck constant, velocity of light, elementary charge, length. -/
structure Ref where
  mass0 : ℝ
  massKg : ℝ
  r0 : ℝ
  gamma0 : ℝ
  energy0 : ℝ
  hbar : ℝ
  clight : ℝ
  qe : ℝ
  q : ℝ
  lineLength : ℝ

/-- `rad_int_partition_number_x`, `_y`, `_zeta`, lines 445-447. -/
def jx (rows : List Row) : ℝ := 1 - i4x rows / i2 rows

def jy (rows : List Row) : ℝ := 1 - i4y rows / i2 rows

def jz (rows : List Row) : ℝ := 2 + i4 rows / i2 rows

/-- `rad_int_energy_loss`, line 434. -/
def radLoss (p : Ref) (rows : List Row) : ℝ := 2 / 3 * p.r0 * p.energy0 * p.gamma0 ^ 3 * i2 rows

/-- `rad_int_damping_constant_x_s` and so on, lines 440-442. -/
def dampX (p : Ref) (rows : List Row) : ℝ := p.r0 / 3 * p.gamma0 ^ 3 * p.clight / p.lineLength * (i2 rows - i4x rows)

def dampY (p : Ref) (rows : List Row) : ℝ := p.r0 / 3 * p.gamma0 ^ 3 * p.clight / p.lineLength * (i2 rows - i4y rows)

def dampZ (p : Ref) (rows : List Row) : ℝ := p.r0 / 3 * p.gamma0 ^ 3 * p.clight / p.lineLength * (2 * i2 rows + i4 rows)

/-- `rad_int_eq_gemitt_x`, lines 429-430. -/
def radEmitX (p : Ref) (rows : List Row) : ℝ :=
  55 / (32 * √3) * p.hbar / p.qe * p.clight / p.mass0 * p.gamma0 ^ 2 * i5x rows / (i2 rows - i4x rows)

/-! ## Photon statistics and emittance from kicks -/

/-- `B_T`, line 81. -/
def fieldT (p : Ref) (h : ℝ) : ℝ := h * p.massKg * p.clight * p.gamma0 / |p.q|

/-- `E_crit_J`, line 83, for a particle on momentum. -/
def eCrit (p : Ref) (h : ℝ) : ℝ := 3 * |p.q| * p.hbar * p.gamma0 ^ 2 * fieldT p h / (2 * p.massKg)

/-- `n_dot`, line 84. -/
def nDot (p : Ref) (h : ℝ) : ℝ := 60 / 72 * √3 * p.r0 * p.clight * |p.q| * fieldT p h / p.hbar

/-- `n_dot_delta_kick_sq_ave`, lines 84-89. -/
def nDotKick (p : Ref) (h : ℝ) : ℝ := nDot p h * (11 / 27 * eCrit p h ^ 2) / (p.massKg * p.clight ^ 2 * p.gamma0) ^ 2

/-- `E_ave_J`, line 86. -/
def eAve (p : Ref) (h : ℝ) : ℝ := 8 * √3 / 45 * eCrit p h

/-- `eq_gemitt_x`, lines 196-197: `K` is the sum of the squares of the two amplitudes. -/
def kickEmitX (p : Ref) (dampTurns : ℝ) (K : Row → ℝ) (rows : List Row) : ℝ :=
  1 / (4 * p.clight * dampTurns) * (rows.map fun r => K r * nDotKick p r.kappa * r.length).sum

/-! ## Equilibrium covariance matrix with the full method -/

variable {n : ℕ}

/-- `BB_inv @ DSigma0 @ BB_inv.T`, line 320. -/
def normD (B D : Matrix (Fin n) (Fin n) ℂ) : Matrix (Fin n) (Fin n) ℂ := B⁻¹ * D * (B⁻¹)ᵀ

/-- `.real`. -/
def realPart (M : Matrix (Fin n) (Fin n) ℂ) : Matrix (Fin n) (Fin n) ℂ := M.map fun z => (z.re : ℂ)

/-- `Sigma_norm`, lines 333-336. -/
def sigmaNorm (E : Matrix (Fin n) (Fin n) ℂ) (lam : Fin n → ℂ) : Matrix (Fin n) (Fin n) ℂ := Matrix.of fun i j => E i j / (1 - lam i * lam j)

/-- `Sigma_at_start`, lines 320, 333-338. -/
def sigmaStart (B D : Matrix (Fin n) (Fin n) ℂ) (lam : Fin n → ℂ) : Matrix (Fin n) (Fin n) ℂ :=
  realPart (B * sigmaNorm (realPart (normD B D)) lam * Bᵀ)

/-- `eq_gemitt_x`, line 322, with `i` and `j` the two columns of a mode. -/
def eqEmit (B D : Matrix (Fin n) (Fin n) ℂ) (lam : Fin n → ℂ) (i j : Fin n) : ℝ := (normD B D i j).re / (1 - ‖lam i‖ ^ 2)

/-- `Sigma` at an element, line 340: the matrix from the start in canonical coordinates is applied to the covariance matrix in positions and slopes. -/
def sigmaAt (R S : Matrix (Fin n) (Fin n) ℂ) : Matrix (Fin n) (Fin n) ℂ := R * S * Rᵀ

end

end Verif.Equil
