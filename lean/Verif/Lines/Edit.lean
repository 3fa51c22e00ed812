import Verif.Slicing.Model

/-!
# Edits of one line: remove, replace, filter_elements, replace_all_repeated_elements

Sources: /repo/xtrack/line.py 3964-4111, 4257-4316, 6105-6149, /repo/xtrack/environment.py 422-520, 1034-1039, 2242-2253.

Simplifications: elements as in the slicing model; lengths are reals; the table lookup of a name (which accepts regular expressions,
indices and so on) is an arbitrary list of row numbers.
-/

namespace Verif.Lines

open Slicing

/-- First occurrences, in order; line.py:4098-4101. -/
def dedup : List Nat → List Nat → List Nat
  | acc, [] => acc
  | acc, i :: r => if i ∈ acc then dedup acc r else dedup (acc ++ [i]) r

/-- Rows with a name of the set `sel`; the table has one row more than the line, called `_end_point`; line.py:4089-4096. -/
def byEnvName (sel : String → Bool) (names : List String) : List Nat :=
  (List.range (names.length + 1)).filter (fun i => sel ((names ++ ["_end_point"])[i]?.getD ""))

/-- `_name_match`: the rows `tab` found by the table, then those with the name itself; line.py:4083-4108.  `none`: nothing found. -/
def nameMatch (tab : List Nat) (sel : String → Bool) (names : List String) : Option (List Nat) :=
  match dedup [] (tab ++ byEnvName sel names) with
  | [] => none
  | l => some l

/-- `s_end - s_start` of row `i` (the last row is `_end_point`). -/
noncomputable def lenAt (d : Dict) (names : List String) (i : Nat) : ℝ :=
  match names[i]? with
  | none => 0
  | some n => (rowLen d n).getD 0

/-- `isthick` of row `i`. -/
def thickAt (d : Dict) (names : List String) (i : Nat) : Bool :=
  match names[i]? with
  | none => false
  | some n => (isThick d n).getD false

open Classical in
/-- `mask_thick` of row `i`; line.py:4004. -/
noncomputable def maskThick (d : Dict) (names : List String) (tol : ℝ) (i : Nat) : Bool :=
  thickAt d names i && decide (lenAt d names i > tol)

/-- `_get_a_drift_name` and `env.new(new_name, 'Drift', length=l)`; environment.py:1034-1039 (the cache is not used). -/
noncomputable def newDrift (st : St) (l : ℝ) : St × String :=
  let i := Names.firstFree driftName (keys st.dict) (st.counter + 1)
  ({ st with dict := (driftName i, .body driftKind l) :: st.dict, counter := i }, driftName i)

/-- Thick elements become drifts; line.py:4016-4022.  `len` is the table. -/
noncomputable def putDrifts (len : Nat → ℝ) : List Nat → St → List String → St × List String
  | [], st, ns => (st, ns)
  | i :: r, st, ns => putDrifts len r (newDrift st (len i)).1 (ns.set i (newDrift st (len i)).2)

/-- `[nn for ii, nn in enumerate(element_names) if ii not in idx_remove]`; line.py:4027-4028. -/
def dropRows (drop : List Nat) (ns : List String) : List String :=
  (ns.zipIdx.filter (fun p => p.2 ∉ drop)).map Prod.fst

open Classical in
/-- `line.remove(name, s_tol)`; line.py:3964-4028.  `none`: raises, nothing changed. -/
noncomputable def remove (tab : List Nat) (sel : String → Bool) (tol : ℝ) (st : St) (names : List String) : Option (St × List String) :=
  if ∃ n ∈ names, rowLen st.dict n = none then none
  else
    match nameMatch tab sel names with
    | none => none
    | some idx =>
      let t := putDrifts (lenAt st.dict names) (idx.filter (maskThick st.dict names tol)) st names
      some (t.1, dropRows (idx.filter (fun i => !maskThick st.dict names tol i)) t.2)

/-- `for idx: element_names[idx] = new_name`; `false`: `IndexError`; line.py:4079-4081. -/
def assignRows (new : String) : List Nat → List String → List String × Bool
  | [], ns => (ns, true)
  | i :: r, ns => if i < ns.length then assignRows new r (ns.set i new) else (ns, false)

open Classical in
/-- `line.replace(name, new_name, s_tol)`; line.py:4030-4081.  The names afterwards, and whether it did not raise. -/
noncomputable def replaceEl (tab : List Nat) (sel : String → Bool) (new : String) (tol : ℝ) (d : Dict) (names : List String) :
    List String × Bool :=
  if ∃ n ∈ names, rowLen d n = none then (names, false)
  else
    match nameMatch tab sel names with
    | none => (names, false)
    | some idx =>
      match rowLen d new with
      | none => (names, false)
      | some lnew => if ∃ i ∈ idx, |lenAt d names i - lnew| > tol then (names, false) else assignRows new idx names

/-- `_is_drift`; line.py:7722-7729 (the classes `Drift`, `DriftExact` and the drift slices start with `Drift`). -/
def isDriftLike (d : Dict) (n : String) : Bool :=
  match baseEl d n with
  | some (.body k _) => k.isDrift || k.isExactDrift
  | some (.slice .drift _ _ _) => true
  | _ => false

/-- What an excluded element becomes; line.py:4299-4303. -/
noncomputable def filtered (d : Dict) (n : String) : El :=
  if (isThick d n).getD false && !isDriftLike d n then .body driftKind ((rowLen d n).getD 0) else .body driftKind 0

/-- The loop of `filter_elements`; line.py:4292-4303.  `d` is the original dictionary. -/
noncomputable def filterLoop (d : Dict) : List Bool → List String → Dict → Dict
  | b :: bs, n :: ns, new => filterLoop d bs ns (if b then new else (n, filtered d n) :: new)
  | _, _, new => new

open Classical in
/-- `line.filter_elements(mask)`: the dictionary of the new line (its names are those of the line); line.py:4257-4316.  `none`: raises. -/
noncomputable def filterElements (d : Dict) (mask : List Bool) (names : List String) : Option Dict :=
  if mask.length = names.length ∧ ∀ n ∈ names, rowLen d n ≠ none then some (filterLoop d mask names d) else none

/-- A name made by the composer or the slicer. -/
def isAutoName (n : String) : Bool := "||drift_".toList.isPrefixOf n.toList

/-- `env.new(new, nn, mode=mode)`; environment.py:422-500.  `reserved`: names of lines, particles and variables.  `false`: raises. -/
def newFrom (reserved : List String) (clone : Bool) (d : Dict) (new nn : String) : Dict × Bool :=
  if new ∈ reserved then (d, false)
  else if clone then
    match baseEl d nn with
    | none => ((new, .replica nn) :: d, false)
    | some e => ((new, e) :: d, true)
  else
    match get d nn with
    | none => (d, false)
    | some _ => ((new, .replica nn) :: d, true)

/-- `nn.replace('||drift_', 'drift_') + separator + str(i)`; line.py:6144. -/
def repName (sep nn : String) (i : Nat) : String := (nn.replace "||drift_" "drift_" ++ sep) ++ i.repr

/-- The occurrences of one name; line.py:6142-6148. -/
def repRows (reserved : List String) (clone : Bool) (sep nn : String) : List Nat → Nat → Dict → List String → Dict × List String × Bool
  | [], _, d, ns => (d, ns, true)
  | p :: r, i, d, ns =>
    let j := Names.firstFree (repName sep nn) (keys d) i
    match newFrom reserved clone d (repName sep nn j) nn with
    | (d', false) => (d', ns, false)
    | (d', true) => repRows reserved clone sep nn r j d' (ns.set p (repName sep nn j))

/-- `aux_dict[nn]`; line.py:6134-6136. -/
def occurrences (names : List String) (nn : String) : List Nat := (List.range names.length).filter (fun i => names[i]? = some nn)

/-- The loop over the distinct names; line.py:6138-6148. -/
def repNames (reserved : List String) (clone : Bool) (sep : String) (generated : Bool) (names : List String) :
    List String → Dict → List String → Dict × List String × Bool
  | [], d, ns => (d, ns, true)
  | nn :: r, d, ns =>
    if !generated && isAutoName nn then repNames reserved clone sep generated names r d ns
    else if 1 < (occurrences names nn).length then
      match repRows reserved clone sep nn (occurrences names nn) 0 d ns with
      | (d', ns', false) => (d', ns', false)
      | (d', ns', true) => repNames reserved clone sep generated names r d' ns'
    else repNames reserved clone sep generated names r d ns

/-- `line.replace_all_repeated_elements(separator, mode, replace_generated_drifts)`; line.py:6105-6148.  `order`: the distinct names in
the order of the Python set.  Dictionary and names afterwards, and whether it did not raise. -/
def replaceRepeated (reserved : List String) (clone : Bool) (sep : String) (generated : Bool) (order : List String) (d : Dict)
    (names : List String) : Dict × List String × Bool := repNames reserved clone sep generated names order d names

end Verif.Lines
