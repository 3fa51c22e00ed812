import Verif.Composer.Build
import Verif.Slicing.Cut

/-!
# Insertion of elements in a line

Source: /repo/xtrack/line.py 3786-3961 (`Line.insert`), after the arguments have been turned into places
(`env.place`, `_flatten_components`, `_all_places`: see `flatten`).

Simplifications: as in `Composer/Build.lean` and `Slicing/Cut.lean`.  `uniq` is `cols.get_index_unique()` of xdeps, which makes the names of a
table different; it is a parameter.  A place is an insertion if it comes after the places of the line (`pp in what` compares
objects: `Place` has no `__eq__`).  In the table that is sorted at the end a row is identified by its index; a reference by
name is the index of the row with that name, or an index that does not exist.  An exception is `none`.
-/

namespace Verif.Composer

open Slicing (St rowLen isThick cutAtS)

/-- `line_places`: the elements of the line where they are (`s_center`); line.py:3899-3904. -/
noncomputable def linePlaces (st : St) : ℝ → List String → List Place
  | _, [] => []
  | a, n :: ns => ⟨n, some (a + lenOf st n / 2), none, none, none⟩ :: linePlaces st (a + lenOf st n) ns

/-- Names, starts and lengths of the table of a line; line.py:958-969 and 3920-3921. -/
noncomputable def tableOf (st : St) : ℝ → List String → List Placed
  | _, [] => []
  | a, n :: ns => ⟨n, a, lenOf st n⟩ :: tableOf st (a + lenOf st n) ns

open Classical in
/-- `tab_insertions`: the insertions, resolved and sorted together with the elements of the line; line.py:3906-3911.  Also the table before
sorting. -/
noncomputable def sortedInsertions (sort : List (Item Nat) → List (Item Nat)) (st : St) (names : List String) (what : List Place) :
    Option (List Row × List (Item Nat)) :=
  if ∃ p ∈ linePlaces st 0 names ++ what, rowLen st.dict p.name = none then none
  else
    match resolve (linePlaces st 0 names ++ what) (lenOf st) .center with
    | none => none
    | some rows =>
      match sortPlaces sort (1 / 10 ^ 10) false (toItems st rows) with
      | none => none
      | some out => some (rows, out.filter (fun it => names.length ≤ it.name))

/-- `s_cuts`; line.py:3914-3915. -/
noncomputable def cutPositions (ins : List (Item Nat)) : List ℝ := ins.map (fun it => it.s) ++ ins.map (fun it => it.s + it.len)

/-- `remove`: the row from `a` to `b` falls inside the insertion from `u` to `v`; line.py:3929-3937. -/
def falls (tol u v a b : ℝ) : Prop :=
  ((a ≥ u - tol ∧ a ≤ v - tol) ∨ (b ≥ u + tol ∧ b ≤ v + tol)) ∧
    ¬ (a ≥ u - tol ∧ b ≤ u + tol) ∧ ¬ (a ≥ v - tol ∧ b ≤ v + tol)

/-- A row falls inside one of the insertions; line.py:3924-3938. -/
def fallsInto (tol : ℝ) (ins : List (Item Nat)) (a b : ℝ) : Prop := ∃ it ∈ ins, falls tol it.s (it.s + it.len) a b

open Classical in
/-- `tt_keep`; line.py:3940-3946: indices and rows. -/
noncomputable def keptRows (tol : ℝ) (ins : List (Item Nat)) (rows : List Placed) : List (Placed × Nat) :=
  rows.zipIdx.filter (fun r => ¬ fallsInto tol ins r.1.s (r.1.s + r.1.len))

/-- The element of an insertion. -/
def insPlaced (rows : List Row) (it : Item Nat) : Placed := ⟨((rows[it.name]?).map (fun r => r.name)).getD "", it.s, it.len⟩

/-- Names of the rows of the concatenated table; line.py:3949. -/
def concatNames (uniq : List String → List String) (rows : List Row) (ins : List (Item Nat)) (names : List String)
    (kept : List (Placed × Nat)) : List String :=
  ins.map (fun it => ((uniq (rows.map (fun r => r.name)))[it.name]?).getD "") ++ kept.map (fun k => ((uniq names)[k.2]?).getD "")

/-- Rows of the concatenated table with their index, to be sorted; line.py:3941-3949. -/
noncomputable def concatItems (uniq : List String → List String) (rows : List Row) (ins : List (Item Nat)) (st : St) (names : List String)
    (kept : List (Placed × Nat)) : List (Item Nat) :=
  (ins.zipIdx.map (fun ii => ⟨ii.2, ii.1.len, ii.1.thick, ii.1.s,
    ii.1.from_.map (fun f => (concatNames uniq rows ins names kept).idxOf (((uniq (rows.map (fun r => r.name)))[f]?).getD "")),
    ii.1.fromAnchor⟩)) ++
  (kept.zipIdx.map (fun ki => ⟨ins.length + ki.2, ki.1.1.len, (isThick st.dict ki.1.1.name).getD false, ki.1.1.s, none, none⟩))

open Classical in
/-- `Line.insert`; line.py:3894-3961.  Result: the environment and the new element names. -/
noncomputable def insertPlaces (sort : List (Item Nat) → List (Item Nat)) (uniq : List String → List String) (tol : ℝ) (st : St)
    (names : List String) (what : List Place) : Option (St × List String) :=
  match sortedInsertions sort st names what with
  | none => none
  | some (rows, ins) =>
    match cutAtS tol (cutPositions ins) st ((uniq names).zip names) with
    | none => none
    | some (st1, blocks) =>
      let table := tableOf st1 0 blocks.flatten
      let L := ((totalLen st1 blocks.flatten).getD 0)
      -- `assert tt_keep.name[-1] == '_end_point'`
      if fallsInto tol ins L L then none
      else
        let kept := keptRows tol ins table
        match sortPlaces sort (1 / 10 ^ 10) true (concatItems uniq rows ins st1 blocks.flatten kept) with
        | none => none
        | some out =>
          generate tol none st1 (out.filterMap (fun it => (ins.map (insPlaced rows) ++ kept.map Prod.fst)[it.name]?))

end Verif.Composer
