import Verif.Composer.Order
import Verif.Slicing.Model

/-!
# Building a line from components

Source: /repo/xtrack/composer/composer.py 318-410 (`Composer.build`), 776-905 (`_flatten_components`, `_all_places`,
`_generate_element_names_with_drifts`, `_validate_placement_geometry`, `_resolve_lines_in_components`).

The environment is the one of the slicer (`Slicing.St`: elements, drift cache, drift counter) plus the element names of the
lines it knows.  Simplifications: lengths and positions are evaluated to real numbers; named lines are not in compose mode; the
rows of the table are identified by their index (`table.name` is different for every row); an exception is `none`.
-/

namespace Verif.Composer

open Slicing (St getDrift rowLen isThick)

/-- Row of the sorted table: name in the environment, `s_start`, length. -/
structure Placed where
  name : String
  s : ℝ
  len : ℝ

/-- The loop of `_generate_element_names_with_drifts`; composer.py:845-854.  `e` is the end of the previous row (0 for the first row:
`ds_upstream[0] = s_start[0]`; ordering.py:107-111). -/
noncomputable def fill (tol : ℝ) : St → ℝ → List Placed → Option (St × List String)
  | st, _, [] => some (st, [])
  | st, e, r :: rows =>
    if tol < |r.s - e| then
      if r.s - e < 0 then none
      else (fill tol (getDrift st (r.s - e)).1 (r.s + r.len) rows).map (fun t => (t.1, (getDrift st (r.s - e)).2 :: r.name :: t.2))
    else (fill tol st (r.s + r.len) rows).map (fun t => (t.1, r.name :: t.2))

/-- End of the last row. -/
noncomputable def lastEnd : List Placed → Option ℝ
  | [] => none
  | [r] => some (r.s + r.len)
  | _ :: r :: rows => lastEnd (r :: rows)

/-- `_generate_element_names_with_drifts`; composer.py:837-866. -/
noncomputable def generate (tol : ℝ) (length : Option ℝ) (st : St) (rows : List Placed) : Option (St × List String) :=
  match lastEnd rows with
  | none =>
    match length with
    | some L => if tol < L then some ((getDrift st L).1, [(getDrift st L).2]) else some (st, [])
    | none => some (st, [])
  | some e =>
    match fill tol st 0 rows with
    | none => none
    | some (st1, names) =>
      match length with
      | none => some (st1, names)
      | some L =>
        if L + tol < e then none
        else if e < L - tol then some ((getDrift st1 (L - e)).1, names ++ [(getDrift st1 (L - e)).2])
        else some (st1, names)

/-- `_validate_placement_geometry` does not raise; composer.py:869-893. -/
def valid (tol : ℝ) (length : Option ℝ) (check : Bool) (rows : List Placed) : Prop :=
  match lastEnd rows with
  | none => True
  | some e => (check = true → rows.IsChain (fun a b => ¬ b.s - (a.s + a.len) < -tol) ∧ ∀ r, rows.head? = some r → ¬ r.s < -tol) ∧
      ∀ L, length = some L → ¬ L + tol < e

/-- Length of a name in the auxiliary table (0 if the name is missing; `build` has raised before). -/
noncomputable def lenOf (st : St) (n : String) : ℝ := (rowLen st.dict n).getD 0

/-- Rows to be ordered; ordering.py:63-74. -/
noncomputable def toItems (st : St) (rows : List Row) : List (Item Nat) :=
  rows.zipIdx.map (fun ri => ⟨ri.2, lenOf st ri.1.name, (isThick st.dict ri.1.name).getD false, ri.1.s,
    ri.1.ref.map Prod.fst, ri.1.ref.bind Prod.snd⟩)

/-- Rows after ordering; ordering.py:102-112. -/
def toPlaced (rows : List Row) (it : Item Nat) : Option Placed := (rows[it.name]?).map (fun r => ⟨r.name, r.s, it.len⟩)

open Classical in
/-- The general branch of `Composer.build`; composer.py:392-405.  `sort` is Python's `sorted`; 1e-10 is the default tolerance of
`_sort_places`. -/
noncomputable def buildPlaces (sort : List (Item Nat) → List (Item Nat)) (refer : Anchor) (tol : ℝ) (length : Option ℝ) (st : St)
    (ps : List Place) : Option (St × List String) :=
  if ∃ p ∈ ps, rowLen st.dict p.name = none then none
  else
    match resolve ps (lenOf st) refer with
    | none => none
    | some rows =>
      match sortPlaces sort (1 / 10 ^ 10) false (toItems st rows) with
      | none => none
      | some out => generate tol length st (out.filterMap (toPlaced rows))

/-- Position of a placed line (`component.at`, `from_`, `anchor`, `from_anchor`). -/
structure Pos where
  at_ : Option ℝ
  from_ : Option String
  anchor : Option Anchor
  fromAnchor : Option Anchor

/-- Components of a composer. -/
inductive Comp where
  /-- a string -/
  | name (n : String)
  /-- a `Place` of a name -/
  | place (p : Place)
  /-- a line (not in compose mode), in a `Place` or not -/
  | line (names : List String) (pos : Option Pos)
  /-- a composer or a line in compose mode, in a `Place` or not -/
  | compose (cs : List Comp) (refer : Anchor) (tol : ℝ) (length : Option ℝ) (mirror : Bool) (pos : Option Pos)
  /-- any other iterable -/
  | seq (cs : List Comp)

/-- Sum of the lengths of the elements of a line; `none` if one is missing. -/
noncomputable def totalLen (st : St) : List String → Option ℝ
  | [] => some 0
  | n :: l =>
    match rowLen st.dict n, totalLen st l with
    | some x, some y => some (x + y)
    | _, _ => none

/-- Entry of the expanded list: a string (which `_all_places` turns into a place without position, composer.py:819-834) or a `Place`. -/
inductive Entry where
  | str (n : String)
  | place (p : Place)

/-- `_all_places`, one entry; composer.py:819-834. -/
def Entry.toPlace : Entry → Place
  | .str n => ⟨n, none, none, none, none⟩
  | .place p => p

/-- The entry is a string. -/
def Entry.isStr : Entry → Bool
  | .str _ => true
  | .place _ => false

/-- What a line contributes to the expanded list; composer.py:786-815. -/
noncomputable def expandLine (st : St) (refer : Anchor) (names : List String) (pos : Option Pos) : Option (List Entry) :=
  match pos with
  | none => some (names.map Entry.str)
  | some p =>
    match names with
    | [] => some []
    | n :: rest =>
      match p.at_ with
      | none => some ((n :: rest).map Entry.str)
      | some a =>
        match totalLen st (n :: rest) with
        | none => none
        | some L => some (.place ⟨n, some (a - offset (p.anchor.getD refer) L), p.from_, some .start, p.fromAnchor⟩ ::
            rest.map Entry.str)

/-- `Composer.build` after the expansion; composer.py:371-410. -/
noncomputable def assemble (sort : List (Item Nat) → List (Item Nat)) (refer : Anchor) (tol : ℝ) (length : Option ℝ) (mirror : Bool)
    (st : St) (es : List Entry) : Option (St × List String) :=
  let r :=
    if es.all Entry.isStr then
      match length with
      | none => some (st, es.map (fun e => e.toPlace.name))
      | some L =>
        match totalLen st (es.map (fun e => e.toPlace.name)) with
        | none => none
        | some T =>
          if L + tol < T then none
          else if T < L - tol then
            let i := Names.firstFree Slicing.driftName (Slicing.keys st.dict) (st.counter + 1)
            some ({ dict := (Slicing.driftName i, .body Slicing.driftKind (L - T)) :: st.dict, cache := st.cache, counter := i },
              es.map (fun e => e.toPlace.name) ++ [Slicing.driftName i])
          else some (st, es.map (fun e => e.toPlace.name))
    else buildPlaces sort refer tol length st (es.map Entry.toPlace)
  r.map (fun t => (t.1, if mirror then t.2.reverse else t.2))

mutual
  /-- `_flatten_components`; composer.py:776-816.  `lines`: element names of the lines of the environment. -/
  noncomputable def flatten (sort : List (Item Nat) → List (Item Nat)) (lines : String → Option (List String)) (refer : Anchor)
      (st : St) : List Comp → Option (St × List Entry)
    | [] => some (st, [])
    | c :: cs =>
      match flattenOne sort lines refer st c with
      | none => none
      | some (st1, l) => (flatten sort lines refer st1 cs).map (fun t => (t.1, l ++ t.2))

  /-- One turn of the loop of `_flatten_components`, with `_resolve_lines_in_components`; composer.py:784-815, 896-911. -/
  noncomputable def flattenOne (sort : List (Item Nat) → List (Item Nat)) (lines : String → Option (List String)) (refer : Anchor)
      (st : St) : Comp → Option (St × List Entry)
    | .name n =>
      match lines n with
      | some names => (expandLine st refer names none).map (fun l => (st, l))
      | none => some (st, [.str n])
    | .place p =>
      match lines p.name with
      | some names => (expandLine st refer names (some ⟨p.at_, p.from_, p.anchor, p.fromAnchor⟩)).map (fun l => (st, l))
      | none => some (st, [.place p])
    | .line names pos => (expandLine st refer names pos).map (fun l => (st, l))
    | .compose cs refer' tol length mirror pos =>
      match flatten sort lines refer' st cs with
      | none => none
      | some (st1, es) =>
        match assemble sort refer' tol length mirror st1 es with
        | none => none
        | some (st2, names) => (expandLine st2 refer names pos).map (fun l => (st2, l))
    | .seq cs => flatten sort lines refer st cs
end

/-- `Composer.build`; composer.py:318-410. -/
noncomputable def build (sort : List (Item Nat) → List (Item Nat)) (lines : String → Option (List String)) (cs : List Comp) (refer : Anchor)
    (tol : ℝ) (length : Option ℝ) (mirror : Bool) (st : St) : Option (St × List String) :=
  match flatten sort lines refer st cs with
  | none => none
  | some (st1, es) => assemble sort refer tol length mirror st1 es

end Verif.Composer
