import Mathlib.Analysis.SpecialFunctions.Trigonometric.Basic
import Mathlib.Analysis.SpecialFunctions.Complex.Log
import Mathlib.Analysis.Complex.Exponential
import Mathlib.Algebra.BigOperators.Group.Finset.Basic

/-!
# Footprints and stability diagrams

Source: /repo/xtrack/footprint.py. Tables of two dimensions are functions of the row and of the column, with their sizes given apart;
the floating point numbers are reals. The tracking itself is a parameter: the motion of a particle as a function of its start.
Not modelled: `delta0`, `zeta0`, the assertion that no particle is lost, the interpolation of the tunes (a parameter here: any table
of tunes), the plots, the GPU.
-/

namespace Verif.Footprint

open Finset

/-! ## The grids -/

/-- `numpy.linspace(a, b, n)[i]`. -/
noncomputable def linspace (a b : ℝ) (n i : ℕ) : ℝ := a + i * ((b - a) / (n - 1))

/-- A table with its shape. -/
structure Table where
  rows : ℕ
  cols : ℕ
  at' : ℕ → ℕ → ℝ

/-- `numpy.meshgrid(g, h)`: the first table repeats `g` in every row, the second `h` in every column; footprint.py:109, 137. -/
def mesh (g h : ℕ → ℝ) (ng nh : ℕ) : Table × Table := (⟨nh, ng, fun _ j => g j⟩, ⟨nh, ng, fun i _ => h i⟩)

/-- The amplitudes of mode `polar`: `x_norm_2d`, `y_norm_2d`; footprint.py:107-112. -/
noncomputable def polarGrid (r0 r1 : ℝ) (nr : ℕ) (t0 t1 : ℝ) (nt : ℕ) : Table × Table :=
  let m := mesh (linspace r0 r1 nr) (linspace t0 t1 nt) nr nt
  (⟨m.1.rows, m.1.cols, fun i j => m.1.at' i j * Real.cos (m.2.at' i j)⟩,
   ⟨m.1.rows, m.1.cols, fun i j => m.1.at' i j * Real.sin (m.2.at' i j)⟩)

/-- The actions of mode `uniform_action_grid`: `Jx_grid` or `Jy_grid`; footprint.py:130-136. -/
noncomputable def actionGrid (nemitt r0 r1 : ℝ) (n : ℕ) : ℕ → ℝ := linspace (nemitt * r0 ^ 2 / 2) (nemitt * r1 ^ 2 / 2) n

/-- The amplitudes of mode `uniform_action_grid`; footprint.py:138-141. -/
noncomputable def actionAmplitudes (ex ey x0 x1 : ℝ) (nx : ℕ) (y0 y1 : ℝ) (ny : ℕ) : Table × Table :=
  let m := mesh (actionGrid ex x0 x1 nx) (actionGrid ey y0 y1 ny) nx ny
  (⟨m.1.rows, m.1.cols, fun i j => Real.sqrt (2 * m.1.at' i j / ex)⟩,
   ⟨m.1.rows, m.1.cols, fun i j => Real.sqrt (2 * m.2.at' i j / ey)⟩)

/-- `flatten()`. -/
def Table.flat (t : Table) (p : ℕ) : ℝ := t.at' (p / t.cols) (p % t.cols)

/-- `reshape(q, shape)`. -/
def reshape (q : ℕ → ℝ) (rows cols : ℕ) : Table := ⟨rows, cols, fun i j => q (i * cols + j)⟩

/-! ## The tunes -/

/-- `x - x.mean()`; footprint.py:176-177. -/
noncomputable def noCO (x : ℕ → ℝ) (turns j : ℕ) : ℝ := x j - (∑ l ∈ range turns, x l) / turns

/-- Term `k` of `rfft(x, n)`: cut or filled with zeros to `n` terms; footprint.py:193-194. -/
noncomputable def rfft (x : ℕ → ℝ) (turns n k : ℕ) : ℂ :=
  ∑ j ∈ range n, ((if j < turns then x j else 0 : ℝ) : ℂ) * Complex.exp (-(2 * Real.pi * Complex.I * (j * k / n)))

/-- `argmax` of the entries `0, ..., m`: the first of the largest. -/
noncomputable def argmax (f : ℕ → ℝ) : ℕ → ℕ
  | 0 => 0
  | m + 1 => if f (argmax f m) < f (m + 1) then m + 1 else argmax f m

/-- The tune of one motion: `freq_axis[argmax(abs(fft))]`, `freq_axis = rfftfreq(n_fft)`, that is `0, 1/n, ..., (n // 2)/n`;
footprint.py:179, 198-199. -/
noncomputable def tune (x : ℕ → ℝ) (turns n : ℕ) : ℝ := (argmax (fun k => ‖rfft (noCO x turns) turns n k‖) (n / 2) : ℝ) / n

/-- The loop over chunks; footprint.py:189-202. `f p` is the tune of particle `p`. `none`: not finished within the given number of
rounds. -/
def chunks (f : ℕ → ℝ) (npart size : ℕ) : ℕ → ℕ → (ℕ → ℝ) → Option (ℕ → ℝ)
  | 0, start, q => if start < npart then none else some q
  | fuel + 1, start, q =>
    if start < npart then
      let stop := if start + size > npart then npart else start + size
      chunks f npart size fuel (start + size) (fun p => if start ≤ p ∧ p < stop then f p else q p)
    else some q

/-- `_get_footprint`, one plane; footprint.py:143-205. `motion a b` is the motion of the particle which starts with the amplitudes
`a` and `b`. -/
noncomputable def footprint (motion : ℝ → ℝ → ℕ → ℝ) (grid : Table × Table) (turns n size fuel : ℕ) : Option Table :=
  match chunks (fun p => tune (motion (grid.1.flat p) (grid.2.flat p)) turns n) (grid.1.rows * grid.1.cols) size fuel 0 (fun _ => 0) with
  | none => none
  | some q => some (reshape q grid.1.rows grid.1.cols)

/-! ## The rescaled footprint -/

/-- `_footprint_with_linear_rescale`, one tune; footprint.py:35-58. `q0`, `q1`: the tunes of the two footprints, at `v0` and at
`v0 + dv`; `v`: the value of the knob. -/
noncomputable def rescale (q0 q1 v0 dv v : ℝ) : ℝ := q0 + (q1 - q0) / dv * (v - v0)

/-! ## The stability diagram -/

/-- Whether `numpy.trapezoid` accepts values with `n` entries and a grid with `m` entries: the differences of the grid, `m - 1`, and
the means of neighbours, `n - 1`, are multiplied with broadcasting. -/
def fits (n m : ℕ) : Prop := m - 1 = n - 1 ∨ m - 1 = 1 ∨ n - 1 = 1

instance (n m : ℕ) : Decidable (fits n m) := by unfold fits; infer_instance

/-- `numpy.trapezoid(y, x=grid)` where the shapes fit. -/
noncomputable def trapz (y : ℕ → ℂ) (n : ℕ) (grid : ℕ → ℝ) (m : ℕ) : ℂ :=
  if m - 1 = n - 1 then ∑ i ∈ range (n - 1), ((grid (i + 1) - grid i : ℝ) : ℂ) * (y i + y (i + 1)) / 2
  else if m - 1 = 1 then ∑ i ∈ range (n - 1), ((grid 1 - grid 0 : ℝ) : ℂ) * (y i + y (i + 1)) / 2
  else ∑ i ∈ range (m - 1), ((grid (i + 1) - grid i : ℝ) : ℂ) * (y 0 + y 1) / 2

/-- A grid and its number of points. -/
structure Grid where
  n : ℕ
  at' : ℕ → ℝ

/-- `_get_tune_shift`; footprint.py:223-233. The tables have `rows` rows and `cols` columns; the inner sum runs along the columns
(`axis=1`) with `g1`, the outer one along the rows with `g2`. `none`: the shapes do not fit, `ValueError`. -/
noncomputable def tuneShift (rows cols : ℕ) (j1 j2 : ℕ → ℕ → ℝ) (g1 g2 : Grid) (q : ℕ → ℕ → ℝ) (tune eps : ℝ) : Option ℂ :=
  let integrand : ℕ → ℕ → ℂ := fun i j =>
    ((-(j1 i j) * Real.exp (-(j1 i j) - j2 i j) : ℝ) : ℂ) / ((tune - q i j : ℝ) + eps * Complex.I)
  if fits cols g1.n ∧ fits rows g2.n then
    some (-1 / trapz (fun i => trapz (integrand i) cols g1.at' g1.n) rows g2.at' g2.n)
  else none

/-- The call for the horizontal plane; footprint.py:336-349. -/
noncomputable def shiftX (gx gy : Grid) (q : ℕ → ℕ → ℝ) (tune eps : ℝ) : Option ℂ :=
  tuneShift gy.n gx.n (fun _ j => gx.at' j) (fun i _ => gy.at' i) gx gy q tune eps

/-- The call for the vertical plane: the actions and the grids change places, the table of tunes does not; footprint.py:350-363. -/
noncomputable def shiftY (gx gy : Grid) (q : ℕ → ℕ → ℝ) (tune eps : ℝ) : Option ℂ :=
  tuneShift gy.n gx.n (fun i _ => gy.at' i) (fun _ j => gx.at' j) gy gx q tune eps

/-- The actions in units of the emittance, on a finer grid if asked; footprint.py:296-320. -/
noncomputable def diagramGrids (x0 x1 : ℝ) (nx : ℕ) (y0 y1 : ℝ) (ny : ℕ) (fine : ℕ) : Grid × Grid :=
  if fine > nx ∨ fine > ny then
    (⟨fine, linspace (x0 ^ 2 / 2) (x1 ^ 2 / 2) fine⟩, ⟨fine, linspace (y0 ^ 2 / 2) (y1 ^ 2 / 2) fine⟩)
  else (⟨nx, linspace (x0 ^ 2 / 2) (x1 ^ 2 / 2) nx⟩, ⟨ny, linspace (y0 ^ 2 / 2) (y1 ^ 2 / 2) ny⟩)

/-- The rounds of the adaptive algorithm; footprint.py:244-248. Results: the last shift, the value of epsilon it was computed
with, the next value, and the number of rounds. -/
noncomputable def adaptLoop (shift : ℝ → ℂ) (factor tol minEps : ℝ) (count : ℕ) : ℕ → ℝ → ℝ → ℂ → ℂ × ℝ × ℝ × ℕ
  | 0, ref, eps, cur => (cur, ref, eps, count)
  | k + 1, ref, eps, cur =>
    if |1 - eps / ref| > tol ∧ eps ≥ minEps then
      adaptLoop shift factor tol minEps (count + 1) k eps |(shift eps).im * factor| (shift eps)
    else (cur, ref, eps, count)

/-- `_get_tune_shift_adaptive_epsilon`; footprint.py:235-249. -/
noncomputable def adapt (shift : ℝ → ℂ) (eps0 factor tol : ℝ) (maxIter : ℕ) (minEps : ℝ) : ℂ × ℝ × ℝ × ℕ :=
  if factor > 0 then
    adaptLoop shift factor tol minEps 0 maxIter eps0
      (if |(shift eps0).im * factor| < minEps then minEps else |(shift eps0).im * factor|) (shift eps0)
  else (shift eps0, eps0, eps0, 0)

end Verif.Footprint
