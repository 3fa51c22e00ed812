import Verif.Basic.Names
import Verif.Twiss.Model

/-!
# Model of the Taylor maps

Files modelled:
* `/repo/xtrack/beam_elements/elements_src/firstordertaylormap.h`
* `/repo/xtrack/beam_elements/elements_src/second_order_taylor_map.h`
* `/repo/xtrack/beam_elements/second_order_taylor_map.py` (`from_line`, `scale_coordinates`)
* `/repo/xtrack/line.py` (`get_line_with_second_order_maps`, lines 5695-5780, and the construction of
  a line from a list of elements and a list of names, lines 337-352)

The finite-difference matrices are those of `Verif.Twiss.Model`.  Numbers are reals.
-/

namespace Verif.Taylor

open Verif.Twiss Matrix

/-- The coordinates of a particle which the two elements read and write.  `ptau` is written with
`LocalParticle_update_ptau`, which also recomputes `delta`, `rpp`, `rvv` (area Energy). -/
structure Part where
  x : ℝ
  px : ℝ
  y : ℝ
  py : ℝ
  zeta : ℝ
  ptau : ℝ
  beta0 : ℝ
  s : ℝ

abbrev Tensor := Fin 6 → Fin 6 → Fin 6 → ℝ

/-- Fields of `FirstOrderTaylorMap`, first_order_taylor_map.py:31-35. -/
structure First where
  m0 : Vec
  m1 : Mat
  length : ℝ

/-- Fields of `SecondOrderTaylorMap`, second_order_taylor_map.py:39-44. -/
structure Second where
  k : Vec
  R : Mat
  T : Tensor
  length : ℝ

/-- `FirstOrderTaylorMap_track_local_particle`, firstordertaylormap.h:13-79. -/
noncomputable def First.track (el : First) (p : Part) : Part :=
  let tau0 := p.zeta / p.beta0
  let row := fun i : Fin 6 => el.m0 i + el.m1 i 0 * p.x + el.m1 i 1 * p.px + el.m1 i 2 * p.y
    + el.m1 i 3 * p.py + el.m1 i 4 * tau0 + el.m1 i 5 * p.ptau
  { x := row 0, px := row 1, y := row 2, py := row 3, zeta := row 4 * p.beta0, ptau := row 5,
    beta0 := p.beta0, s := p.s + el.length }

/-- `z_in`, second_order_taylor_map.h:24-29. -/
noncomputable def Part.z (p : Part) : Vec := ![p.x, p.px, p.y, p.py, p.zeta, p.ptau / p.beta0]

/-- `z_out`, second_order_taylor_map.h:31-49 (the loops are written as sums). -/
def Second.apply (el : Second) (z : Vec) : Vec := fun i =>
  el.k i + ∑ j, el.R i j * z j + ∑ j, ∑ k, el.T i j k * z j * z k

/-- `SecondOrderTaylorMap_track_local_particle`, second_order_taylor_map.h:14-61. -/
noncomputable def Second.track (el : Second) (p : Part) : Part :=
  let out := el.apply p.z
  { x := out 0, px := out 1, y := out 2, py := out 3, zeta := out 4, ptau := out 5 * p.beta0,
    beta0 := p.beta0, s := p.s + el.length }

/-- `SecondOrderTaylorMap.from_line` from the R and T matrices, the orbit of the twiss table at both
ends and its `s`: second_order_taylor_map.py:82-118. -/
def fromMatrices (RR : Mat) (TT : Tensor) (coIn coOut : Vec) (sStart sEnd : ℝ) : Second :=
  let rtfd : Mat := fun i j => ∑ k, TT i j k * coIn k
  let ktfd : Vec := rtfd *ᵥ coIn
  { k := coOut - RR *ᵥ coIn + ktfd
    R := fun i j => RR i j - 2 * rtfd i j
    T := TT
    length := sEnd - sStart }

/-- `SecondOrderTaylorMap.from_line` of a part of the line which acts as `f`: with the matrices of
`get_R_matrix` and `get_T_matrix`, second_order_taylor_map.py:66-118. -/
noncomputable def fromLine (stepsAt : Vec → Steps) (hi lo : Fin 6 → ℝ) (f : Vec → Vec)
    (coIn coOut : Vec) (sStart sEnd : ℝ) : Second :=
  fromMatrices (finiteR (stepsAt coIn) f coIn) (finiteT stepsAt hi lo f coIn) coIn coOut sStart sEnd

/-- `scale_coordinates`, second_order_taylor_map.py:151-165: the three loops one after the other. -/
def Second.scale (el : Second) (σ : Vec) : Second :=
  let rows : Second :=
    { k := fun i => el.k i * σ i, R := fun i j => el.R i j * σ i, T := fun i j k => el.T i j k * σ i
      length := el.length }
  let cols : Second :=
    { k := rows.k, R := fun i j => rows.R i j * σ j, T := fun i j k => rows.T i j k * σ j
      length := rows.length }
  { k := cols.k, R := cols.R, T := fun i j k => cols.T i j k * σ k, length := cols.length }

/-! ## Replacing parts of a line by maps -/

/-- An element of the new line: an element of the old line (by position), or the map of the part
from the entrance of one element to the entrance of another one. -/
inductive Item
  | keep (i : ℕ)
  | map (start stop : ℕ)
deriving DecidableEq, Repr

/-- The loop of line.py:5751-5775 over the cuts which are left, `ii` being the loop counter: names and
elements of the new line. -/
def buildMaps (names : List String) : ℕ → List String → List (String × Item)
  | _, [] => []
  | _, [a] => [(a, .keep (names.idxOf a))]
  | ii, a :: b :: r =>
    (a, .keep (names.idxOf a)) ::
      ((if names[names.idxOf a + 1]? = some b then []
        else [("map_" ++ ii.repr, .map (names.idxOf a + 1) (names.idxOf b))])
        ++ buildMaps names (ii + 1) (b :: r))

/-- `ele_cut_set`, line.py:5735-5741. -/
def isCut (names splitAt : List String) (n : String) : Bool :=
  splitAt.contains n || names.head? == some n || names.getLast? == some n

/-- `get_line_with_second_order_maps` up to the lists given to `Line`, line.py:5727-5775.  `none` is
the `ValueError` for names which are not in the line. -/
def lineWithMaps (names splitAt : List String) : Option (List (String × Item)) :=
  if splitAt.all names.contains then
    some (buildMaps names 0 (names.filter (isCut names splitAt)))
  else none

/-- The elements of a `Line` made from a list of elements and a list of names: the elements go
through `dict(zip(element_names, elements))`, line.py:351, hence the last one of each name counts. -/
def dictZip {α : Type} (l : List (String × α)) : List (String × α) :=
  l.map fun e => (e.1, ((l.reverse.lookup e.1).getD e.2))

end Verif.Taylor
