import Verif.Slicing.Model
import Mathlib.Data.List.Sort

/-!
# `Line.cut_at_s`

Source: /repo/xtrack/line.py 3575-3711.  The table of the line gives start, name and length of every row; the last row is
`_end_point`, which is not an element: looking it up raises `KeyError`.
-/

namespace Verif.Slicing

/-- A row of the table. -/
structure CutRow where
  name : String
  start : ℝ
  len : ℝ
  thick : Bool

open Classical in
/-- The loop of `_elements_intersecting_s` over rows and sorted positions; line.py:3607-3635.  Result: cuts in the order in
which they are appended.  `none`: `KeyError` for `_end_point`, or (last branch, impossible for `tol ≥ 0`) no progress. -/
noncomputable def scan (tol : ℝ) : List CutRow → List ℝ → Option (List (String × ℝ))
  | _, [] => some []
  | [], _ :: _ => none
  | r :: rows, s :: ss =>
    if r.thick = false then scan tol rows (s :: ss)
    else if |s - r.start| ≤ tol then scan tol (r :: rows) ss
    else if |s - (r.start + r.len)| ≤ tol then scan tol (r :: rows) ss
    else if r.start < s ∧ s < r.start + r.len then (scan tol (r :: rows) ss).map (fun c => (r.name, s - r.start) :: c)
    else if s < r.start then scan tol (r :: rows) ss
    else if r.start + r.len < s then scan tol rows (s :: ss)
    else none
termination_by rows ss => rows.length + ss.length

/-- `cuts_for_element[name]`. -/
def cutsOf (cuts : List (String × ℝ)) (n : String) : List ℝ := (cuts.filter (fun c => c.1 == n)).map Prod.snd

/-- Table of a line from position `a` on; `rows`: table name and element name. -/
noncomputable def cutTable (d : Dict) : ℝ → List (String × String) → Option (List CutRow)
  | _, [] => some []
  | a, r :: rows =>
    match rowLen d r.2, isThick d r.2 with
    | some l, some t =>
      match cutTable d (a + l) rows with
      | some tb => some (⟨r.1, a, l, t⟩ :: tb)
      | none => none
    | _, _ => none

/-- `Strategy(None)`, the catch-all; line.py:3700. -/
def catchAll : Strategy := ⟨none, none, none⟩

/-- The strategies built from the cuts: one per element with cuts; line.py:3702-3705.  (The order does not matter: the
names of the table are different.) -/
def cutStrategies (names : List String) (cuts : List (String × ℝ)) : List Strategy :=
  catchAll :: (names.filter (fun n => !(cutsOf cuts n).isEmpty)).map
    (fun n => ⟨some (.custom (cutsOf cuts n) .thick), some (fun m => m == n), none⟩)

open Classical in
/-- `sorted(set(s))`. -/
noncomputable def sortedSet (s : List ℝ) : List ℝ := s.dedup.insertionSort (· ≤ ·)

/-- `cut_at_s`; line.py:3641-3711. -/
noncomputable def cutAtS (tol : ℝ) (s : List ℝ) (st : St) (rows : List (String × String)) : Option (St × List (List String)) :=
  match cutTable st.dict 0 rows with
  | none => none
  | some table =>
    match scan tol table (sortedSet s) with
    | none => none
    | some cuts => sliceLine true (cutStrategies (rows.map Prod.fst) cuts) st rows

end Verif.Slicing
