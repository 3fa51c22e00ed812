import Mathlib.Algebra.Order.Archimedean.Real.Basic
import Mathlib.Algebra.Order.Round

/-!
# Beam position, size and profile monitors

Source: `/repo/xtrack/monitors/beam_position_monitor.{h,py}`, `beam_size_monitor.{h,py}`,
`beam_profile_monitor.{h,py}`.

Real arithmetic instead of floating point; conversion of values beyond 64 bits is not modelled.  Arrays
are functions of the index, so that accesses outside the allocated range are visible.
-/

namespace Verif.Monitors.Bpm

/-- An active particle as seen by the monitors. -/
structure Pt where
  id : Int
  turn : Int
  zeta : ℝ
  beta0 : ℝ
  x : ℝ
  y : ℝ

/-- `C_LIGHT`. -/
def cLight : ℝ := 299792458

/-- C function `round` (half away from zero). -/
noncomputable def cround (v : ℝ) : Int := if 0 ≤ v then ⌊v + 1 / 2⌋ else ⌈v - 1 / 2⌉

/-- Arguments `particle_id_range`, `particle_id_start`, `num_particles`; beam_position_monitor.py:92-101 (and the
same lines in the size and profile monitors).  Result: `particle_id_start`, `num_particles`. -/
def idArgs (range : Option (Int × Int)) (start num : Option Int) : Option (Int × Int) :=
  match range with
  | none => some (start.getD 0, num.getD (-1))
  | some r => if start = none ∧ num = none then some (r.1, r.2 - r.1) else none

/-- Parameters; beam_position_monitor.py:26-35.  `size`: length of the arrays, computed at line 112. -/
structure Mon where
  idStart : Int
  num : Int
  start : Int
  frev : ℝ
  fs : ℝ
  size : Nat

/-- Test of the particle id; beam_position_monitor.h:21,31, beam_size_monitor.h:21,31, beam_profile_monitor.h:21,40. -/
def Mon.selects (m : Mon) (p : Pt) : Prop :=
  m.idStart + m.num < 0 ∨ (m.idStart ≤ p.id ∧ p.id < m.idStart + m.num)

/-- Sample index before rounding; beam_position_monitor.h:41. -/
noncomputable def Mon.phase (m : Mon) (p : Pt) : ℝ :=
  m.fs * (((p.turn : ℝ) - m.start) / m.frev - p.zeta / p.beta0 / cLight)

/-- Sample index; beam_position_monitor.h:41. -/
noncomputable def Mon.slot (m : Mon) (p : Pt) : Int := cround (m.phase p)

/-- `count`, sums and sums of squares; beam_size_monitor.py:16-21 (the position monitor has no squares). -/
structure Data where
  count : Int → ℝ
  xSum : Int → ℝ
  ySum : Int → ℝ
  x2Sum : Int → ℝ
  y2Sum : Int → ℝ

/-- New monitor; beam_position_monitor.py:111-113. -/
def Data.zero : Data := ⟨fun _ => 0, fun _ => 0, fun _ => 0, fun _ => 0, fun _ => 0⟩

/-- `atomicAdd`. -/
def add (f : Int → ℝ) (i : Int) (v : ℝ) : Int → ℝ := fun j => if j = i then f j + v else f j

open Classical in
/-- One particle; beam_size_monitor.h:29-63 (beam_position_monitor.h:29-57 without the squares). -/
noncomputable def Mon.one (m : Mon) (d : Data) (p : Pt) : Data :=
  if m.selects p then
    if 0 ≤ m.slot p ∧ m.slot p < m.size then
      ⟨add d.count (m.slot p) 1, add d.xSum (m.slot p) p.x, add d.ySum (m.slot p) p.y,
       add d.x2Sum (m.slot p) (p.x * p.x), add d.y2Sum (m.slot p) (p.y * p.y)⟩
    else d
  else d

/-- One passage of the particles. -/
noncomputable def Mon.track (m : Mon) (d : Data) (ps : List Pt) : Data := ps.foldl m.one d

/-- `x_mean`; beam_position_monitor.py:130-132.  `none` is NaN. -/
noncomputable def Data.xMean (d : Data) (i : Int) : Option ℝ := if d.count i = 0 then none else some (d.xSum i / d.count i)

/-- `y_mean`. -/
noncomputable def Data.yMean (d : Data) (i : Int) : Option ℝ := if d.count i = 0 then none else some (d.ySum i / d.count i)

/-- `x_var`; beam_size_monitor.py:137-140. -/
noncomputable def Data.xVar (d : Data) (i : Int) : Option ℝ :=
  (d.xMean i).map fun mean => d.x2Sum i / d.count i - mean ^ 2

/-- `y_var`. -/
noncomputable def Data.yVar (d : Data) (i : Int) : Option ℝ :=
  (d.yMean i).map fun mean => d.y2Sum i / d.count i - mean ^ 2

/-- Raster of the profile monitor; beam_profile_monitor.py:126-146. -/
structure Raster where
  n : Nat
  min : ℝ
  d : ℝ

/-- Raster from number of bins and range; beam_profile_monitor.py:134-135,145-146. -/
noncomputable def Raster.ofRange (n : Nat) (lo hi : ℝ) : Raster := ⟨n, lo, (hi - lo) / n⟩

open Classical in
/-- One plane of one particle: `counts` of length `sample_size * n`; beam_profile_monitor.h:38-79. -/
noncomputable def Mon.profileOne (m : Mon) (r : Raster) (coord : Pt → ℝ) (counts : Int → ℝ) (p : Pt) : Int → ℝ :=
  if m.selects p then
    if 0 ≤ m.slot p ∧ m.slot p < m.size then
      if 0 ≤ ⌊(coord p - r.min) / r.d⌋ ∧ ⌊(coord p - r.min) / r.d⌋ < r.n then
        if 0 ≤ m.slot p * r.n + ⌊(coord p - r.min) / r.d⌋ ∧
            m.slot p * r.n + ⌊(coord p - r.min) / r.d⌋ < m.size * r.n then
          add counts (m.slot p * r.n + ⌊(coord p - r.min) / r.d⌋) 1
        else counts
      else counts
    else counts
  else counts

/-- One plane of one passage. -/
noncomputable def Mon.profileTrack (m : Mon) (r : Raster) (coord : Pt → ℝ) (counts : Int → ℝ) (ps : List Pt) : Int → ℝ :=
  ps.foldl (m.profileOne r coord) counts

/-- `x_intensity[sample, bin]`; beam_profile_monitor.py:182-187. -/
def intensity (r : Raster) (counts : Int → ℝ) (sample bin : Nat) : ℝ := counts (sample * r.n + bin)

/-- `x_edges[i]`; beam_profile_monitor.py:172-175. -/
noncomputable def Raster.edge (r : Raster) (i : Nat) : ℝ := r.min + r.d * i

end Verif.Monitors.Bpm
