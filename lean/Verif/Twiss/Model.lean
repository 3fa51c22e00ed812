import Mathlib.LinearAlgebra.Matrix.NonsingularInverse
import Mathlib.Analysis.SpecialFunctions.Complex.Arg
import Mathlib.Analysis.SpecialFunctions.Trigonometric.Basic
import Mathlib.Analysis.SpecialFunctions.Pow.Real
import Mathlib.Analysis.Real.Sqrt

/-!
# Model of the optics calculation (twiss)

Files modelled:
* `/repo/xtrack/linear_normal_form.py`
* `/repo/xtrack/twiss/lattice_functions_from_W.py`
* `/repo/xtrack/twiss/optics_propagation.py` (the propagation of the eigenvectors, lines 76-200)
* `/repo/xtrack/twiss/transfer_matrices.py`
* `/repo/xtrack/twiss/periodic_solution.py` (lines 168-197)
* `/repo/xtrack/twiss/twiss_init.py` (lines 194-530)
* `/repo/xtrack/twiss/twiss_table.py` (`get_R_matrix`, `get_R_matrix_table`,
  `get_normalized_coordinates`, `get_beam_covariance`, `reverse`)
* `/repo/xtrack/twiss/twiss_postprocess_and_complem_results.py` (slip factor, lines 43-69)

Numbers are reals; a vector of phase space is `(x, px, y, py, zeta, pzeta)`.  `numpy.linalg.inv`
is the inverse of Mathlib, `numpy.arctan2 y x` is the argument of `x + i y`.  `numpy.linalg.eig` is
an input of the model (its result is constrained by hypotheses of the theorems).
-/

namespace Verif.Twiss

open Matrix

abbrev Vec := Fin 6 → ℝ
abbrev Mat := Matrix (Fin 6) (Fin 6) ℝ
abbrev CVec := Fin 6 → ℂ

/-- `S`, linear_normal_form.py:46-51. -/
def S : Mat :=
  !![0, 1, 0, 0, 0, 0;
     -1, 0, 0, 0, 0, 0;
     0, 0, 0, 1, 0, 0;
     0, 0, -1, 0, 0, 0;
     0, 0, 0, 0, 0, 1;
     0, 0, 0, 0, -1, 0]

/-- Three `Rot2D` blocks (linear_normal_form.py:57-59) on the diagonal of a 6x6 matrix:
linear_normal_form.py:139-142, twiss_table.py:805-809 and 841-852. -/
noncomputable def blockRot (φ : Fin 3 → ℝ) : Mat :=
  !![Real.cos (φ 0), Real.sin (φ 0), 0, 0, 0, 0;
     -Real.sin (φ 0), Real.cos (φ 0), 0, 0, 0, 0;
     0, 0, Real.cos (φ 1), Real.sin (φ 1), 0, 0;
     0, 0, -Real.sin (φ 1), Real.cos (φ 1), 0, 0;
     0, 0, 0, 0, Real.cos (φ 2), Real.sin (φ 2);
     0, 0, 0, 0, -Real.sin (φ 2), Real.cos (φ 2)]

/-- Columns `0, 2, 4` of `W`, which hold the real parts of the eigenvectors; the same numbers are
the rows (`x`, `y`, `zeta`) whose phase is fixed. -/
def reCol : Fin 3 → Fin 6 := ![0, 2, 4]

/-- Columns `1, 3, 5` of `W`, which hold the imaginary parts. -/
def imCol : Fin 3 → Fin 6 := ![1, 3, 5]

/-- `v1 = Ws[:, :, 0] + 1j * Ws[:, :, 1]`, ..., lattice_functions_from_W.py:36-38, 197-199. -/
def mode (W : Mat) (k : Fin 3) : CVec := fun i => ⟨W i (reCol k), W i (imCol k)⟩

/-- `Ws[:, :, 0] = np.real(v1)`, ..., lattice_functions_from_W.py:44-49, 230-235;
`W = np.array(columns).T`, linear_normal_form.py:188-190. -/
def ofModes (v : Fin 3 → CVec) : Mat := fun i =>
  ![(v 0 i).re, (v 0 i).im, (v 1 i).re, (v 1 i).im, (v 2 i).re, (v 2 i).im]

/-- `real @ S @ imag` of an eigenvector: lattice_functions_from_W.py:201-219,
linear_normal_form.py:179, 250. -/
def pairNorm (v : CVec) : ℝ :=
  (fun i => (v i).re) ⬝ᵥ (S *ᵥ (fun i => (v i).im))

/-- `nux`, `nuy`, `nuzeta`, lattice_functions_from_W.py:221-223. -/
noncomputable def nu (W : Mat) (k : Fin 3) : ℝ := √ |pairNorm (mode W k)|

/-- `_renormalize_eigenvectors`, lattice_functions_from_W.py:195-237. -/
noncomputable def renormalize (W : Mat) : Mat :=
  ofModes fun k i => mode W k i / (nu W k : ℂ)

/-- `phix`, `phiy`, `phizeta`: lattice_functions_from_W.py:32-34. -/
noncomputable def phase (W : Mat) (k : Fin 3) : ℝ := (mode W k (reCol k)).arg

/-- Rotation of the eigenvectors to the Courant-Snyder basis, lattice_functions_from_W.py:36-49. -/
noncomputable def gauge (W : Mat) : Mat :=
  ofModes fun k i => mode W k i * Complex.exp (-(Complex.I * (phase W k : ℂ)))

/-- One row of the optics part of a `TwissTable`: the W matrix and the phases of the modes
(`W_matrix`, `phix`, `phiy`, `phizeta`). -/
structure Row where
  W : Mat
  phi : Fin 3 → ℝ

/-- Lines 28-49 of lattice_functions_from_W.py on one row. -/
noncomputable def latticeRow (W : Mat) : Row where
  W := gauge (renormalize W)
  phi := phase (renormalize W)

/-! Lattice functions of a row (`W` is the `W_matrix` of the row),
lattice_functions_from_W.py:55-81. -/

def betx (W : Mat) : ℝ := W 0 0 ^ 2 + W 0 1 ^ 2
def bety (W : Mat) : ℝ := W 2 2 ^ 2 + W 2 3 ^ 2
def gamx (W : Mat) : ℝ := W 1 0 ^ 2 + W 1 1 ^ 2
def gamy (W : Mat) : ℝ := W 3 2 ^ 2 + W 3 3 ^ 2
def alfx (W : Mat) : ℝ := -W 0 0 * W 1 0 - W 0 1 * W 1 1
def alfy (W : Mat) : ℝ := -W 2 2 * W 3 2 - W 2 3 * W 3 3
def bety1 (W : Mat) : ℝ := W 2 0 ^ 2 + W 2 1 ^ 2
def betx2 (W : Mat) : ℝ := W 0 2 ^ 2 + W 0 3 ^ 2
def alfx2 (W : Mat) : ℝ := -W 0 2 * W 1 2 - W 0 3 * W 1 3
def alfy1 (W : Mat) : ℝ := -W 2 0 * W 3 0 - W 2 1 * W 3 1
def gamx2 (W : Mat) : ℝ := W 1 2 ^ 2 + W 1 3 ^ 2
def gamy1 (W : Mat) : ℝ := W 3 0 ^ 2 + W 3 1 ^ 2

/-- Dispersion in the coordinate `i` (`dx`, `dpx`, `dy`, `dpy` for `i = 0, 1, 2, 3`),
lattice_functions_from_W.py:132-139 and twiss_init.py:447-468. -/
noncomputable def disp (W : Mat) (i : Fin 6) : ℝ :=
  (W i 5 - W i 4 * W 4 5 / W 4 4) / (W 5 5 - W 5 4 * W 4 5 / W 4 4)

/-- Crab dispersion (`dx_zeta`, ...), lattice_functions_from_W.py:122-129. -/
noncomputable def dispZeta (W : Mat) (i : Fin 6) : ℝ :=
  (W i 4 - W i 5 * W 5 4 / W 5 5) / (W 4 4 - W 4 5 * W 5 4 / W 5 5)

/-- `Iii`, lattice_functions_from_W.py:248-250. -/
def blockId (k : Fin 3) : Mat := Matrix.diagonal fun i => if i = reCol k ∨ i = imCol k then 1 else 0

/-- `EE[ii]` of `_extract_twiss_parameters_with_inverse`, lattice_functions_from_W.py:245-255. -/
noncomputable def EE (W : Mat) (k : Fin 3) : Mat := -W * (S * blockId k) * W⁻¹ * S

/-- The values `betx, alfx, gamx, bety, alfy, gamy, bety1, betx2, alfy1, alfx2, gamy1, gamx2` of
the branch `use_full_inverse`, lattice_functions_from_W.py:257-282. -/
noncomputable def fullInverse (W : Mat) : Fin 12 → ℝ :=
  let bx := EE W 0 0 0
  let by_ := EE W 1 2 2
  let sx : ℝ := SignType.sign bx
  let sy : ℝ := SignType.sign by_
  ![bx * sx, -EE W 0 0 1 * sx, EE W 0 1 1 * sx, by_ * sy, -EE W 1 2 3 * sy, EE W 1 3 3 * sy,
    |EE W 0 2 2|, |EE W 1 0 0|, -EE W 0 2 3, -EE W 1 0 1, EE W 0 3 3, EE W 1 1 1]

/-- The same values of the other branch, lattice_functions_from_W.py:56-72. -/
def direct (W : Mat) : Fin 12 → ℝ :=
  ![betx W, alfx W, gamx W, bety W, alfy W, gamy W, bety1 W, betx2 W, alfy1 W, alfx2 W, gamy1 W,
    gamx2 W]

/-! ## Propagation of the eigenvectors -/

/-- Coordinates recorded by the element-by-element monitor in its row `k`: the particle after the
first `k` elements.  The elements are arbitrary maps of phase space; they stand for
`line.track(..., turn_by_turn_monitor='ONE_TURN_EBE')`, optics_propagation.py:135-138 (the monitor
itself is modelled in `Verif.Monitors`).  `pzeta` stands for the recorded `ptau` divided by the
`beta0` of the particle on the closed orbit (optics_propagation.py:193, 200). -/
def recorded (maps : List (Vec → Vec)) (k : ℕ) (z : Vec) : Vec :=
  (maps.take k).foldl (fun z f => f z) z

/-- Particles `1:7` of `part_for_twiss`: `W_matrix[i, :] * -scale_eigen` added to the closed orbit
(optics_propagation.py:88-97). -/
def lowParticle (co : Vec) (W : Mat) (scale : ℝ) (j : Fin 6) : Vec := fun i => co i + W i j * -scale

/-- Particles `7:13`: `W_matrix[i, :] * scale_eigen`. -/
def highParticle (co : Vec) (W : Mat) (scale : ℝ) (j : Fin 6) : Vec := fun i => co i + W i j * scale

/-- `Ws[k]` before `_get_lattice_functions`: optics_propagation.py:187-200.  (The difference is
taken in the order low minus high, so that `Ws[0]` is minus the W matrix of the init.) -/
noncomputable def wsRow (co : Vec) (W : Mat) (scale : ℝ) (maps : List (Vec → Vec)) (k : ℕ) : Mat :=
  fun i j =>
    (1 / 2) * (recorded maps k (lowParticle co W scale j) i - recorded maps k co i) / scale
    - (1 / 2) * (recorded maps k (highParticle co W scale j) i - recorded maps k co i) / scale

/-- Row `k` of the table returned by `_propagate_twiss_from_init`. -/
noncomputable def tableRow (co : Vec) (W : Mat) (scale : ℝ) (maps : List (Vec → Vec)) (k : ℕ) :
    Row := latticeRow (wsRow co W scale maps k)

/-- `TwissTable.get_R_matrix` on the rows `start` and `end`, twiss_table.py:791-813. -/
noncomputable def getR (start stop : Row) : Mat :=
  stop.W * blockRot (fun k => stop.phi k - start.phi k) * start.W⁻¹

/-- One step of `np.unwrap` (period `2π`): the correction which is added to the running correction
when the phase goes from `p` to `q`.  numpy: `ddmod = mod(dd + π, 2π) - π`, set to `π` where it is
`-π` and `dd > 0`; the correction is `ddmod - dd`, or zero where `|dd| < π`. -/
noncomputable def unwrapStep (p q : ℝ) : ℝ :=
  let dd := q - p
  let m := dd + Real.pi - 2 * Real.pi * ⌊(dd + Real.pi) / (2 * Real.pi)⌋ - Real.pi
  let m' := if m = -Real.pi ∧ 0 < dd then Real.pi else m
  if |dd| < Real.pi then 0 else m' - dd

/-- `np.unwrap` on a list, with the running correction `c`. -/
noncomputable def unwrapFrom : ℝ → ℝ → List ℝ → List ℝ
  | _, _, [] => []
  | c, p, q :: l => (q + (c + unwrapStep p q)) :: unwrapFrom (c + unwrapStep p q) q l

noncomputable def unwrap : List ℝ → List ℝ
  | [] => []
  | p :: l => p :: unwrapFrom 0 p l

/-- `muzeta = np.unwrap(phizeta) / 2 / np.pi; muzeta - muzeta[0]`, lattice_functions_from_W.py:119,
143 (and lines 117-118, 141-142 for `mux`, `muy` when the table has no groups of thin elements). -/
noncomputable def phaseAdvance (phi : List ℝ) : List ℝ :=
  let mu := (unwrap phi).map fun p => p / 2 / Real.pi
  mu.map fun m => m - mu.headD 0

/-! ## Finite-difference matrices -/

/-- Steps `dx, dpx, dy, dpy, dzeta` of `get_R_matrix`, and the two values of `pzeta` of the particles
6 and 12 relative to the closed orbit (they are given through `delta`, therefore they need not be
opposite): transfer_matrices.py:48-64. -/
structure Steps where
  d : Fin 5 → ℝ
  up : ℝ
  down : ℝ

/-- Displacement of the particles `jj+1`, transfer_matrices.py:54-62. -/
def Steps.high (st : Steps) : Fin 6 → ℝ := ![st.d 0, st.d 1, st.d 2, st.d 3, st.d 4, st.up]

/-- Displacement of the particles `jj+1+6`. -/
def Steps.low (st : Steps) : Fin 6 → ℝ := ![-st.d 0, -st.d 1, -st.d 2, -st.d 3, -st.d 4, st.down]

/-- `dd` in the loop of transfer_matrices.py:107-108; `dpzeta` is transfer_matrices.py:63-64. -/
noncomputable def Steps.dd (st : Steps) : Fin 6 → ℝ :=
  ![st.d 0, st.d 1, st.d 2, st.d 3, st.d 4, (st.up - st.down) / 2]

/-- `get_R_matrix` of the map `f` (the tracking through the line) around `co`,
transfer_matrices.py:96-108. -/
noncomputable def finiteR (st : Steps) (f : Vec → Vec) (co : Vec) : Mat := fun i j =>
  (f (co + Pi.single j (st.high j)) i - f (co + Pi.single j (st.low j)) i) / (2 * st.dd j)

/-- `get_T_matrix_line`, transfer_matrices.py:166-209: `stepsAt p` are the displacements used by
`get_R_matrix` around the particle `p` (the two values of `pzeta` depend on its momentum), `hi k`
and `lo k` are the displacements of the reference particle in coordinate `k`. -/
noncomputable def finiteT (stepsAt : Vec → Steps) (hi lo : Fin 6 → ℝ) (f : Vec → Vec) (co : Vec)
    (i j k : Fin 6) : ℝ :=
  let p := co + Pi.single k (hi k)
  let m := co + Pi.single k (lo k)
  (1 / 2) * (finiteR (stepsAt p) f p i j - finiteR (stepsAt m) f m i j) / (p k - m k)

/-! ## Periodic solution -/

/-- `M` of `get_linear_normal_form(..., only_4d_block=True)`, linear_normal_form.py:97-103. -/
noncomputable def only4d (M : Mat) : Mat :=
  !![M 0 0, M 0 1, M 0 2, M 0 3, 0, 0;
     M 1 0, M 1 1, M 1 2, M 1 3, 0, 0;
     M 2 0, M 2 1, M 2 2, M 2 3, 0, 0;
     M 3 0, M 3 1, M 3 2, M 3 3, 0, 0;
     0, 0, 0, 0, Real.cos (Real.pi / 10), Real.sin (Real.pi / 10);
     0, 0, 0, 0, -Real.sin (Real.pi / 10), Real.cos (Real.pi / 10)]

/-- Index found by the search of linear_normal_form.py:231-237: the first position of the minimum. -/
def argmin {α : Type} [LinearOrder α] (f : Fin 6 → α) : List (Fin 6) → ℕ
  | [] => 0
  | a :: l =>
    ((l.zipIdx 1).foldl (fun (m : α × ℕ) (b : Fin 6 × ℕ) =>
      if m.1 > f b.1 then (f b.1, b.2) else m) (f a, 0)).2

/-- One round of the loop of linear_normal_form.py:227-240: takes the first index of the list and
the one whose eigenvalue has the most opposite imaginary part, and removes both. -/
noncomputable def pairOff (w0 : Fin 6 → ℂ) : List (Fin 6) → (Fin 6 × Fin 6) × List (Fin 6)
  | [] => ((0, 0), [])
  | a :: l =>
    let i := argmin (fun b => |(w0 a + w0 b).im|) l
    ((a, l.getD i 0), l.eraseIdx i)

/-- `conj_modes`, linear_normal_form.py:223-243. -/
noncomputable def conjModes (w0 : Fin 6 → ℂ) : List (Fin 6 × Fin 6) :=
  let r0 := pairOff w0 [0, 5, 1, 2, 3, 4]
  let r1 := pairOff w0 r0.2
  [r0.1, r1.1, (r1.2.getD 0 0, r1.2.getD 1 0)]

/-- Selection in a pair, linear_normal_form.py:249-253.  `v0 j` is the column `v0[:, j]`. -/
noncomputable def selectMode (v0 : Fin 6 → CVec) (p : Fin 6 × Fin 6) : Fin 6 :=
  if pairNorm (v0 p.1) > 0 then p.1 else p.2

/-- The reordering of linear_normal_form.py:258-264. -/
noncomputable def orderModes (v0 : Fin 6 → CVec) (m : Fin 3 → Fin 6) : Fin 3 → Fin 6 :=
  let m := if ‖v0 (m 2) 5‖ < ‖v0 (m 0) 5‖ then ![m 2, m 1, m 0] else m
  let m := if ‖v0 (m 2) 5‖ < ‖v0 (m 1) 5‖ then ![m 0, m 2, m 1] else m
  if ‖v0 (m 1) 2‖ < ‖v0 (m 0) 2‖ then ![m 1, m 0, m 2] else m

/-- `sort_modes`, linear_normal_form.py:218-266. -/
noncomputable def sortModes (v0 : Fin 6 → CVec) (w0 : Fin 6 → ℂ) : Fin 3 → Fin 6 :=
  let c := conjModes w0
  orderModes v0 ![selectMode v0 (c.getD 0 (0, 0)), selectMode v0 (c.getD 1 (0, 0)),
    selectMode v0 (c.getD 2 (0, 0))]

/-- Rotation to the Courant-Snyder parameterization of the mode `k`, linear_normal_form.py:168-170. -/
noncomputable def turned (v0 : Fin 6 → CVec) (m : Fin 3 → Fin 6) (k : Fin 3) : CVec := fun i =>
  v0 (m k) i * Complex.exp (-(Complex.I * ((v0 (m k) (reCol k)).arg : ℂ)))

/-- `n_inv_sq`, linear_normal_form.py:177-182. -/
noncomputable def nInvSq (v0 : Fin 6 → CVec) (m : Fin 3 → Fin 6) (only4 : Bool) (k : Fin 3) : ℝ :=
  if only4 = true ∧ k = 2 then 1 else pairNorm (turned v0 m k)

/-- The `W` of linear_normal_form.py:175-190, before small numbers are set to zero; `none` is the
`ValueError('Invalid n..')`. -/
noncomputable def buildW (v0 : Fin 6 → CVec) (m : Fin 3 → Fin 6) (only4 : Bool) : Option Mat :=
  if ∀ k, nInvSq v0 m only4 k > 0 then
    some (ofModes fun k i => turned v0 m k i * ((1 / √ (nInvSq v0 m only4 k) : ℝ) : ℂ))
  else none

/-- `W[abs(W) < 1.e-14] = 0.`, linear_normal_form.py:191. -/
noncomputable def flush (W : Mat) : Mat := fun i j => if |W i j| < 1e-14 then 0 else W i j

/-- What `get_linear_normal_form` returns: linear_normal_form.py:147 (`invW` is `np.linalg.inv(W)`). -/
structure NormalForm where
  W : Mat
  invW : Mat
  R : Mat
  eigenvalues : Fin 3 → ℂ

/-- `get_linear_normal_form` after the diagonalisation `w0, v0 = np.linalg.eig(M)`,
linear_normal_form.py:122-147. -/
noncomputable def normalForm (v0 : Fin 6 → CVec) (w0 : Fin 6 → ℂ) (only4 : Bool) :
    Option NormalForm :=
  let m := sortModes v0 w0
  (buildW v0 m only4).map fun W =>
    { W := flush W
      invW := (flush W)⁻¹
      R := blockRot fun k => (w0 (m k)).arg
      eigenvalues := fun k => w0 (m k) }

/-- `healy_symplectify`, linear_normal_form.py:12-44.  `none` stands for the exception of the branch
of line 35: `np.matmul` refuses the scalar `np.linalg.det(...)` as second operand. -/
noncomputable def healy (M : Mat) : Option Mat :=
  let V := S * ((1 - M) * (1 + M)⁻¹)
  let W := (1 / 2 : ℝ) • (V + Vᵀ)
  if (1 - S * W).det ≠ 0 then some ((1 + S * W) * (1 - S * W)⁻¹) else none

/-- The W matrix of the 4d method: periodic_solution.py:186-197, from the normal form `W` of the 4d
block, the dispersion `D` and the crab dispersion `C` (four components each). -/
def w4d (W : Mat) (D C : Fin 4 → ℝ) : Mat :=
  !![W 0 0, W 0 1, W 0 2, W 0 3, C 0, D 0;
     W 1 0, W 1 1, W 1 2, W 1 3, C 1, D 1;
     W 2 0, W 2 1, W 2 2, W 2 3, C 2, D 2;
     W 3 0, W 3 1, W 3 2, W 3 3, C 3, D 3;
     0, 0, 0, 0, 1, 0;
     0, 0, 0, 0, 0, 1]

/-- `RR[:4, :4]`. -/
def block4 (M : Mat) : Matrix (Fin 4) (Fin 4) ℝ := fun i j => M (Fin.castLE (by omega) i)
  (Fin.castLE (by omega) j)

/-- `RR[:4, c]`. -/
def column4 (M : Mat) (c : Fin 6) : Fin 4 → ℝ := fun i => M (Fin.castLE (by omega) i) c

/-- `-np.linalg.solve(RR[:4, :4] - np.eye(4), RR[:4, c])`, periodic_solution.py:171-184 (`c = 5` for
the dispersion, `c = 4` for the crab dispersion). -/
noncomputable def periodicDisp (M : Mat) (c : Fin 6) : Fin 4 → ℝ :=
  -((block4 M - 1)⁻¹ *ᵥ column4 M c)

/-! ## TwissInit -/

/-- `_6d_w_matrix`, twiss_init.py:512-529. -/
noncomputable def w6d (betx bety alfx alfy bets dx dpx dy dpy : ℝ) : Mat :=
  !![√ betx, 0, 0, 0, 0, dx;
     -alfx / √ betx, 1 / √ betx, 0, 0, 0, dpx;
     0, 0, √ bety, 0, 0, dy;
     0, 0, -alfy / √ bety, 1 / √ bety, 0, dpy;
     0, 0, 0, 0, √ bets, 0;
     0, 0, 0, 0, -0 / √ bets, 1 / √ bets]

/-- The sign changes of the rows of a W matrix in the reversed frame: twiss_init.py:252-258,
325-330, twiss_table.py:1070-1075. -/
def revW (W : Mat) : Mat := fun i j => ![-1, 1, 1, -1, -1, 1] i * W i j

/-- `_finish_initialization` on the optics data, twiss_init.py:238-262. -/
noncomputable def initW (input_reversed : Bool) (betx bety alfx alfy bets dx dpx dy dpy : ℝ) : Mat :=
  let g : ℝ := if input_reversed then -1 else 1
  let W := w6d betx bety (alfx * g) (alfy * g) bets (dx * g) dpx dy (dpy * g)
  if input_reversed then revW W else W

/-! ## Particles and beam in normalized coordinates -/

/-- `gemitt_values`, twiss_init.py:474-485 (`none` stands for an emittance which is not given). -/
noncomputable def gemitt (beta0 gamma0 : ℝ) (nemitt : Fin 3 → Option ℝ) (i : Fin 6) : ℝ :=
  match nemitt (![0, 0, 1, 1, 2, 2] i) with
  | none => 1
  | some e => e / beta0 / gamma0

/-- `_W_phys2norm`, twiss_init.py:471-509. -/
noncomputable def phys2norm (W : Mat) (co : Vec) (beta0 gamma0 : ℝ) (nemitt : Fin 3 → Option ℝ)
    (z : Vec) : Vec :=
  fun i => (W⁻¹ *ᵥ (z - co)) i / √ (gemitt beta0 gamma0 nemitt i)

/-- `get_beam_covariance` (method 6d) with geometric emittances `e`, twiss_table.py:486-504. -/
noncomputable def covariance (e : Fin 3 → ℝ) (W : Mat) : Mat := fun i j =>
  e 0 * (mode W 0 i * starRingEnd ℂ (mode W 0 j)).re
  + e 1 * (mode W 1 i * starRingEnd ℂ (mode W 1 j)).re
  + e 2 * (mode W 2 i * starRingEnd ℂ (mode W 2 j)).re

/-! ## Slip factor -/

/-- 6d method: `xx` solves `(R - 1) xx = (0, 0, 0, 0, dz, 0)` and the slip is `dz / xx[5]`,
twiss_postprocess_and_complem_results.py:44-49, 62. -/
noncomputable def slip6d (R : Mat) (dz : ℝ) : ℝ :=
  dz / ((R - 1)⁻¹ *ᵥ ![0, 0, 0, 0, dz, 0]) 5

/-- `solve_mat`, twiss_postprocess_and_complem_results.py:51-54. -/
def slipMat (R : Mat) : Mat := fun i =>
  if i = 4 then ![0, 0, 0, 0, 1, 0] else if i = 5 then ![0, 0, 0, 0, 0, 1] else fun j => (R - 1) i j

/-- 4d method, twiss_postprocess_and_complem_results.py:50-62. -/
noncomputable def slip4d (R : Mat) (delta : ℝ) : ℝ :=
  let xx := (slipMat R)⁻¹ *ᵥ ![0, 0, 0, 0, 0, delta]
  ((R *ᵥ xx) 4 - xx 4) / delta

/-! ## Reversed tables -/

/-- The columns of a `TwissTable` row which `reverse` treats, beside strengths and names. -/
structure FullRow where
  s : ℝ
  orbit : Vec
  row : Row
  alfx : ℝ
  alfy : ℝ
  betx : ℝ
  bety : ℝ
  disp : Fin 4 → ℝ
  dispZeta : Fin 4 → ℝ
  mu : Fin 3 → ℝ
  dzeta : ℝ
  dmu : Fin 2 → ℝ

/-- `TwissTable.reverse` on one row, apart from the order of the rows and the offsets of `mu` and
`dzeta`: twiss_table.py:1014-1081. -/
def revRow (len : ℝ) (r : FullRow) : FullRow where
  s := len - r.s
  orbit := fun i => ![-1, 1, 1, -1, -1, 1] i * r.orbit i
  row := { W := revW r.row.W
           phi := ![-r.row.phi 0, -r.row.phi 1, r.row.phi 2] }
  alfx := -r.alfx
  alfy := -r.alfy
  betx := r.betx
  bety := r.bety
  disp := ![-r.disp 0, r.disp 1, r.disp 2, -r.disp 3]
  dispZeta := ![r.dispZeta 0, -r.dispZeta 1, -r.dispZeta 2, r.dispZeta 3]
  mu := r.mu
  dzeta := -r.dzeta
  dmu := r.dmu

/-- `TwissTable.reverse` for a table of values at the entry of each element, whose last row is
`_end_point`: the order of the rows is inverted (twiss_table.py:1006-1007 with
`itake = slice(1, None)`), `mux = mux[0] - mux` etc. (lines 1077-1084). -/
def reverseTable (len : ℝ) (t : List FullRow) : List FullRow :=
  let u := t.reverse.map (revRow len)
  match u with
  | [] => []
  | f :: _ => u.map fun r =>
      { r with
        mu := fun k => f.mu k - r.mu k
        dzeta := f.dzeta - r.dzeta }

/-- `dmux`, `dmuy` of chromatic_functions.py:58-59 from the tables at two momenta. -/
noncomputable def chromDmu (dd : ℝ) (plus minus : List FullRow) : List (Fin 2 → ℝ) :=
  List.zipWith (fun p m k => (p.mu (![0, 1] k) - m.mu (![0, 1] k)) / dd) plus minus

/-- `dzeta` of chromatic_functions.py:86-87. -/
noncomputable def chromDzeta (dd : ℝ) (plus minus : List FullRow) : List ℝ :=
  let z := List.zipWith (fun p m => (p.orbit 4 - m.orbit 4) / dd) plus minus
  z.map fun v => v - z.headD 0

end Verif.Twiss
