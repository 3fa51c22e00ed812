import Mathlib.Logic.Equiv.Defs
import Mathlib.Data.Real.Basic
import Mathlib.Algebra.BigOperators.Group.List.Basic

/-!
# Model of the twiss over a range of a line

Files modelled:
* `/repo/xtrack/twiss/twiss.py` (`_get_open_twiss_range_flags`, lines 637-652; the routes `open` and
  `periodic_one_turn_custom_start`, lines 432-464; the range check of `_compute_base_twiss`, 541-556)
* `/repo/xtrack/twiss/handle_init_inside_range_and_line_wrap.py`
* `/repo/xtrack/twiss/optics_propagation.py` (orientation and starting point, lines 52-71 and 106-113;
  rows of the table, lines 150-167, 201)
* `/repo/xtrack/twiss/twiss_postprocess_and_complem_results.py`
  (`_align_open_twiss_phases_with_init`, lines 313-332)
* `/repo/xtrack/twiss/twiss_table.py` (`concatenate` of two tables, lines 1149-1232, `zero_at`,
  `get_twiss_init`)

The optics at a place (orbit and W matrix) is an element of an arbitrary type `Opt` which elements
transform (area Twiss); the phase advances of an element are functions of the optics at its entrance.
Not modelled: `reverse=True`, tables with values at the exit of the elements, chromatic columns
(`dzeta` is treated as `mux`), more than one turn.  Exceptions are `none`.
-/

namespace Verif.Ranges

/-- A line: names (unique), action of the elements on the optics, phase advance `mux` (`muy` alike) and
`muzeta`, length, and which elements are markers. -/
structure Lat (Opt : Type) where
  names : List String
  step : ℕ → Opt ≃ Opt
  adv : ℕ → Opt → ℝ
  advz : ℕ → Opt → ℝ
  len : ℕ → ℝ
  marker : ℕ → Bool

variable {Opt : Type}

/-- Values in a row of a table. -/
structure Val (Opt : Type) where
  opt : Opt
  mu : ℝ
  muz : ℝ
  s : ℝ

/-- A row of a table: name of the element and values at its entrance. -/
structure Row (Opt : Type) where
  name : String
  val : Val Opt

/-- `TwissInit`: the values and the element where they are given. -/
structure Init (Opt : Type) where
  elem : String
  val : Val Opt

namespace Lat

variable (L : Lat Opt)

/-- Number of elements. -/
def n : ℕ := L.names.length

/-- Name of the element at a position; positions go on over the end of the line. -/
def name (k : ℕ) : String := (L.names[k % L.n]?).getD ""

/-- Values after the element at position `k`, from those before it. -/
def next (k : ℕ) (v : Val Opt) : Val Opt :=
  { opt := L.step (k % L.n) v.opt
    mu := v.mu + L.adv (k % L.n) v.opt
    muz := v.muz + L.advz (k % L.n) v.opt
    s := v.s + L.len (k % L.n) }

/-- Rows of a table over `m` elements from position `k`, with values `v` there, and the row
`_end_point`: optics_propagation.py:150-167, 201. -/
def walk : ℕ → ℕ → Val Opt → List (Row Opt)
  | _, 0, v => [⟨"_end_point", v⟩]
  | k, m + 1, v => ⟨L.name k, v⟩ :: walk (k + 1) m (L.next k v)

/-- Optics before `m` elements from position `k` on, from the optics after them (backtracking). -/
def back : ℕ → ℕ → Opt → Opt
  | _, 0, o => o
  | k, m + 1, o => (L.step (k % L.n)).symm (back (k + 1) m o)

/-- `element_s_locations`. -/
def sLoc (k : ℕ) : ℝ := ((List.range k).map L.len).sum

/-- Position of an element, `_element_ref_to_index`. -/
def idx (e : String) : Option ℕ := if e ∈ L.names then some (L.names.idxOf e) else none

end Lat

/-- Shift of the columns `mu`, `muz` and `s`. -/
def Row.shift (r : Row Opt) (mu muz s : ℝ) : Row Opt :=
  ⟨r.name, { opt := r.val.opt, mu := r.val.mu + mu, muz := r.val.muz + muz, s := r.val.s + s }⟩

/-- `_align_open_twiss_phases_with_init` for a table calculated forward (`at` = first row) or backward
(`at` = last row), twiss_postprocess_and_complem_results.py:313-332. -/
def alignTo (t : List (Row Opt)) (at_ : Option (Row Opt)) (v : Val Opt) : List (Row Opt) :=
  match at_ with
  | none => t
  | some r => t.map fun x => x.shift (v.mu - r.val.mu) (v.muz - r.val.muz) 0

/-- Twiss from the element `a` to the element `b` (both included) with the optics given at one of
them: `_propagate_twiss_from_init` and `_compute_base_twiss`.  Forward, the particles start at the
entrance of `a`; backward, at the exit of `b`, with `s` of the entrance of `b`
(optics_propagation.py:106-113). -/
def base (L : Lat Opt) (a b : ℕ) (init : Init Opt) : Option (List (Row Opt)) :=
  if a ≤ b then
    if init.elem = L.name a then
      let t := L.walk a (b + 1 - a) ⟨init.val.opt, 0, 0, L.sLoc a⟩
      some (alignTo t t.head? init.val)
    else if init.elem = L.name b then
      let t := L.walk a (b + 1 - a)
        ⟨L.back a (b + 1 - a) init.val.opt, 0, 0, L.sLoc b - (L.sLoc (b + 1) - L.sLoc a)⟩
      some (alignTo t t.getLast? init.val)
    else none
  else none

/-- First row of an element, e.g. `table['mux', name]`. -/
def rowOf (t : List (Row Opt)) (e : String) : Option (Row Opt) := t.find? fun r => r.name == e

/-- `get_twiss_init`, twiss_table.py:314-: the values of the row. -/
def initAt (t : List (Row Opt)) (e : String) (elem : String) : Option (Init Opt) :=
  (rowOf t e).map fun r => ⟨elem, r.val⟩

/-- Number of rows of the first of two tables which are kept, twiss_table.py:1179-1190. -/
def keep (t1 t2 : List (Row Opt)) : Option ℕ :=
  let u := if t1.getLast?.map (·.name) = some "_end_point" then t1.length - 1 else t1.length
  match t2.head? with
  | none => none
  | some h =>
    if h.name ∈ t1.map (·.name) then
      if (t1[u - 1]?).map (·.name) = some h.name then some (u - 1) else none
    else some u

/-- `TwissTable.concatenate` of two tables, twiss_table.py:1149-1232.  Columns in
`CYCLICAL_QUANTITIES` (`mux`, `muy`, `dzeta`, `s`; not `muzeta`) are shifted: those of the first table
start from zero, those of the second one go on.  When no row of the first table is kept, index `-1` is
the last row. -/
def concat (t1 t2 : List (Row Opt)) : Option (List (Row Opt)) :=
  match keep t1 t2, t1.head?, t1.getLast?, t2.head?, t2.getLast? with
  | some 0, some _, some _, some h, some e =>
    some (t2.map fun x => x.shift (-h.val.mu + (e.val.mu - h.val.mu)) 0
      (-h.val.s + (e.val.s - h.val.s)))
  | some (u + 1), some f, some l, some h, some _ =>
    match t1[u]? with
    | some r =>
      let first := (t1.take (u + 1)).map fun x => x.shift (-f.val.mu) 0 (-f.val.s)
      let mu := -h.val.mu + (r.val.mu - f.val.mu) + (l.val.mu - r.val.mu)
      let s := -h.val.s + (r.val.s - f.val.s) + (l.val.s - r.val.s)
      some (first ++ t2.map fun x => x.shift mu 0 s)
    | none => none
  | _, _, _, _, _ => none

/-- The shifts at the end of both branches: `s`, `mux`, `muy`, `muzeta` get the values of the `init` at
its element, handle_init_inside_range_and_line_wrap.py:198-206, 237-242. -/
def shiftTo (t : List (Row Opt)) (init : Init Opt) : Option (List (Row Opt)) :=
  (rowOf t init.elem).map fun r => t.map fun x =>
    x.shift (init.val.mu - r.val.mu) (init.val.muz - r.val.muz) (init.val.s - r.val.s)

/-- `_combine_init_inside_range_twiss_tables`. -/
def combine (t1 t2 : List (Row Opt)) (init : Init Opt) : Option (List (Row Opt)) :=
  (concat t1 t2).bind fun t => shiftTo t init

/-- Init inside a range which does not go over the end of the line,
handle_init_inside_range_and_line_wrap.py:16-63. -/
def inside (L : Lat Opt) (a b i : ℕ) (init : Init Opt) : Option (List (Row Opt)) :=
  if L.marker i then
    if a ≤ i ∧ i ≤ b then
      (base L a i init).bind fun t1 => (base L i b init).bind fun t2 => combine t1 t2 init
    else none
  else none

/-- Range which goes over the end of the line, lines 65-205 (without the case of one turn). -/
def wrapped (L : Lat Opt) (a b i : ℕ) (init : Init Opt) : Option (List (Row Opt)) :=
  let last := L.n - 1
  let tables :=
    if i ≠ a ∧ i ≠ b then
      if a ≤ i then
        (base L a i init).bind fun t1 => (base L i last init).bind fun t2 =>
          (combine t1 t2 init).bind fun side => (initAt t2 "_end_point" (L.name 0)).bind fun bi =>
            (base L 0 b bi).map fun t3 => (side, t3)
      else
        (base L 0 i init).bind fun t2 => (base L i b init).bind fun t3 =>
          (combine t2 t3 init).bind fun side => (initAt t2 (L.name 0) (L.name last)).bind fun bi =>
            (base L a last bi).map fun t1 => (t1, side)
    else
      if a ≤ i then
        (base L a last init).bind fun t1 => (initAt t1 "_end_point" (L.name 0)).bind fun bi =>
          (base L 0 b bi).map fun t2 => (t1, t2)
      else
        (base L 0 b init).bind fun t2 => (initAt t2 (L.name 0) (L.name last)).bind fun bi =>
          (base L a last bi).map fun t1 => (t1, t2)
  tables.bind fun t => (concat t.1 t.2).bind fun r => shiftTo r init

/-- Open twiss over a range, twiss.py:432-447, 637-652. -/
def openTwiss (L : Lat Opt) (start stop : String) (init : Init Opt) : Option (List (Row Opt)) :=
  match L.idx start, L.idx stop, L.idx init.elem with
  | some a, some b, some i =>
    if a > b then wrapped L a b i init
    else if init.elem = start ∨ init.elem = stop then base L a b init
    else inside L a b i init
  | _, _, _ => none

/-- `rows[name:]` and `rows[:name]`: rows from, and up to and including, the named one. -/
def rowsFrom (t : List (Row Opt)) (e : String) : List (Row Opt) := t.dropWhile fun r => r.name != e

/-- See `rowsFrom`. -/
def rowsTo (t : List (Row Opt)) (e : String) : List (Row Opt) :=
  t.takeWhile (fun r => r.name != e) ++ (t.find? fun r => r.name == e).toList

/-- Replacing the name of the last row. -/
def renameLast (t : List (Row Opt)) (e : String) : List (Row Opt) :=
  t.dropLast ++ (t.getLast?.map fun r => ⟨e, r.val⟩).toList

/-- Open twiss with a `start` and no `end` (route `open_one_turn_custom_start`): one turn from `start`,
where the optics is given, handle_init_inside_range_and_line_wrap.py:94-114. -/
def openTurn (L : Lat Opt) (start : String) (init : Init Opt) : Option (List (Row Opt)) :=
  match L.idx start with
  | none => none
  | some a =>
    (base L a (L.n - 1) init).bind fun t1 => (initAt t1 "_end_point" (L.name 0)).bind fun bi =>
      (base L 0 a bi).bind fun t2 => concat t1 (renameLast t2.dropLast "_end_point")

/-- `zero_at`: only the columns in `CYCLICAL_QUANTITIES`, twiss_table.py:1246-1248. -/
def zeroAt (t : List (Row Opt)) (e : String) : List (Row Opt) :=
  match rowOf t e with
  | none => t
  | some r => t.map fun x => x.shift (-r.val.mu) 0 (-r.val.s)

/-- Periodic twiss with a `start` and no `end`: the full table, cut at `start` and put together again,
twiss.py:449-464. -/
def customStart (full : List (Row Opt)) (start : String) : Option (List (Row Opt)) :=
  (concat (rowsFrom full start) (rowsTo full start)).map fun t =>
    renameLast (match t.head? with
      | none => t
      | some r => zeroAt t r.name) "_end_point"

end Verif.Ranges
