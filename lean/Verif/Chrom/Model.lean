import Verif.Twiss.Model

/-!
# Chromatic functions (C121)

Modelled: `/repo/xtrack/twiss/chromatic_functions.py`, the columns and the scalars from the tables at three momenta, and the initial conditions of the two
tables beside the central one for open ranges.  The propagation of the optics is an input (see the area Twiss).
-/

namespace Verif.Chrom

open Verif.Twiss

noncomputable section

/-- The columns of a twiss table which the chromatic functions use. -/
structure Row where
  s : ℝ
  delta : ℝ
  mux : ℝ
  muy : ℝ
  betx : ℝ
  bety : ℝ
  alfx : ℝ
  alfy : ℝ
  x : ℝ
  px : ℝ
  y : ℝ
  py : ℝ

/-- The columns which are added to the table. -/
structure Cols where
  dmux : ℝ
  dmuy : ℝ
  bx : ℝ
  «by» : ℝ
  ax : ℝ
  ay : ℝ
  wx : ℝ
  wy : ℝ
  ddx : ℝ
  ddpx : ℝ
  ddy : ℝ
  ddpy : ℝ

/-- Lines 56-78 for one plane: `b_chrom`, `a_chrom`. -/
def ba (dd bm bp am ap : ℝ) : ℝ × ℝ :=
  let dbet := (bp - bm) / dd
  let dalf := (ap - am) / dd
  let bet := (bp + bm) / 2
  let alf := (ap + am) / 2
  (dbet / bet, dalf - dbet * alf / bet)

/-- Lines 123-145 for one coordinate `x` with the momenta `d`. -/
def second (xm xc xp dm dc dp : ℝ) : ℝ :=
  let dPlus := 0.5 * (dp + dc)
  let dMinus := 0.5 * (dc + dm)
  let xPlus := (xp - xc) / (dp - dc)
  let xMinus := (xc - xm) / (dc - dm)
  (xPlus - xMinus) / (dPlus - dMinus)

/-- The columns in one row: the tables at lower, central and higher momentum. -/
def cols (m c p : Row) : Cols :=
  let dd := p.delta - m.delta
  let x := ba dd m.betx p.betx m.alfx p.alfx
  let y := ba dd m.bety p.bety m.alfy p.alfy
  { dmux := (p.mux - m.mux) / dd
    dmuy := (p.muy - m.muy) / dd
    bx := x.1
    «by» := y.1
    ax := x.2
    ay := y.2
    wx := Real.sqrt (x.2 ^ 2 + x.1 ^ 2)
    wy := Real.sqrt (y.2 ^ 2 + y.1 ^ 2)
    ddx := second m.x c.x p.x m.delta c.delta p.delta
    ddpx := second m.px c.px p.px m.delta c.delta p.delta
    ddy := second m.y c.y p.y m.delta c.delta p.delta
    ddpy := second m.py c.py p.py m.delta c.delta p.delta }

/-- `trapz(y, s)` -/
def trapz : List (ℝ × ℝ) → ℝ
  | (y₁, s₁) :: (y₂, s₂) :: l => (y₁ + y₂) / 2 * (s₂ - s₁) + trapz ((y₂, s₂) :: l)
  | _ => 0

def lastD (t : List Row) : Row := t.getLastD ⟨0, 0, 0, 0, 0, 0, 0, 0, 0, 0, 0, 0⟩

/-- The mean momentum of a table, lines 104-113; `zero` tells that the central table ends at `s = 0`. -/
def meanDelta (zero : Prop) [Decidable zero] (t : List Row) : ℝ :=
  if zero then (t.map Row.delta).sum / t.length
  else trapz (t.map fun r => (r.delta, r.s)) / (lastD t).s

open Classical in
/-- `ddqx` (`q = Row.mux`) and `ddqy` (`q = Row.muy`), lines 98-123. -/
def ddq (q : Row → ℝ) (m c p : List Row) : ℝ :=
  let zero := (lastD c).s = 0
  second (q (lastD m)) (q (lastD c)) (q (lastD p)) (meanDelta zero m) (meanDelta zero c) (meanDelta zero p)

/-- `dqx`, `dqy`: lines 83-84. -/
def dq (q : Row → ℝ) (m p : List Row) : ℝ := (q (lastD p) - q (lastD m)) / ((lastD p).delta - (lastD m).delta)

/-! ## Open ranges -/

/-- What a `TwissInit` reports. -/
structure Init where
  betx : ℝ
  bety : ℝ
  alfx : ℝ
  alfy : ℝ
  dx : ℝ
  dpx : ℝ
  dy : ℝ
  dpy : ℝ
  x : ℝ
  px : ℝ
  y : ℝ
  py : ℝ
  delta : ℝ
  bx : ℝ
  «by» : ℝ
  ax : ℝ
  ay : ℝ
  ddx : ℝ
  ddpx : ℝ
  ddy : ℝ
  ddpy : ℝ

/-- `W_matrix` of the initial conditions at the momentum offset `m`, lines 226-265.  `dflt` is `line.twiss_default['reverse']`, which
`_finish_initialization` reads (twiss_init.py:195-202). -/
def offW (dflt : Bool) (I : Init) (m : ℝ) : Mat :=
  initW dflt (I.betx + I.bx * I.betx * m) (I.bety + I.by * I.bety * m) (I.alfx + (I.ax + I.bx * I.alfx) * m) (I.alfy + (I.ay + I.by * I.alfy) * m) 1
    (I.dx + I.ddx * m) (I.dpx + I.ddpx * m) (I.dy + I.ddy * m) (I.dpy + I.ddpy * m)

/-- The closed orbit of those initial conditions, lines 240-249. -/
def offOrbit (I : Init) (m : ℝ) : ℝ × ℝ × ℝ × ℝ :=
  (I.x + (I.dx * m + 1 / 2 * I.ddx * m ^ 2), I.px + (I.dpx * m + 1 / 2 * I.ddpx * m ^ 2),
   I.y + (I.dy * m + 1 / 2 * I.ddy * m ^ 2), I.py + (I.dpy * m + 1 / 2 * I.ddpy * m ^ 2))

/-- First row of the propagated table in the frame of the line: a reversed `init` is reversed (optics_propagation.py:40-41) and the lattice functions are taken
from the `W` matrix. -/
def firstRow (rev dflt : Bool) (I : Init) (m : ℝ) : Row :=
  let W := (latticeRow (if rev then revW (offW dflt I m) else offW dflt I m)).W
  let o := offOrbit I m
  let g : ℝ := if rev then -1 else 1
  { s := 0, delta := I.delta + m, mux := 0, muy := 0, betx := Twiss.betx W, bety := Twiss.bety W, alfx := Twiss.alfx W, alfy := Twiss.alfy W,
    x := g * o.1, px := o.2.1, y := o.2.2.1, py := g * o.2.2.2 }

/-- `TwissTable.reverse` on the chromatic columns, twiss_table.py:1086-1090. -/
def revCols (c : Cols) : Cols := { c with ax := -c.ax, ay := -c.ay, ddx := -c.ddx, ddpy := -c.ddpy }

/-- The chromatic columns of an open range at its start, as they are reported. -/
def startCols (rev dflt : Bool) (I : Init) (d : ℝ) : Cols :=
  let c := cols (firstRow rev dflt I (-d)) (firstRow rev dflt I 0) (firstRow rev dflt I d)
  if rev then revCols c else c

/-- The phases `phix` which are found along a range whose maps from the start are `Ms`. -/
def phasesX (rev dflt : Bool) (I : Init) (m : ℝ) (Ms : List Mat) : List ℝ :=
  Ms.map fun M => (latticeRow (M * (if rev then revW (offW dflt I m) else offW dflt I m))).phi 0

end

end Verif.Chrom
