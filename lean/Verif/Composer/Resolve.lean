import Mathlib.Data.Real.Basic

/-!
# Position resolution

Source: /repo/xtrack/composer/resolve_positions.py 10-166 (`_resolve_s_positions`, `_anchor_offset`).

Simplifications: position expressions are already evaluated to real numbers; lengths are a function of the name (the dictionary
`length_by_name` built from the table of an auxiliary line); `'centre'` is the same as `'center'`; an exception is `none`.
-/

namespace Verif.Composer

/-- Anchors; resolve_positions.py:7. -/
inductive Anchor where
  | start
  | center
  | «end»
  deriving DecidableEq

/-- `_anchor_offset`; resolve_positions.py:158-166. -/
noncomputable def offset : Anchor → ℝ → ℝ
  | .start, _ => 0
  | .center, l => l / 2
  | .end, l => l

/-- A `Place`; composer.py:739-762. -/
structure Place where
  name : String
  at_ : Option ℝ
  from_ : Option String
  anchor : Option Anchor
  fromAnchor : Option Anchor

/-- The two consistency checks; resolve_positions.py:14-25. -/
def Place.consistent (p : Place) : Prop :=
  ¬ (p.fromAnchor ≠ none ∧ p.from_ = none) ∧ ¬ (p.from_ ≠ none ∧ p.at_ = none)

/-- Local variables of the loop: `s_start_by_index`, `from_name_by_index` and `from_anchor_by_index` (the reference is kept as
an index: `table.name[index]` identifies it), `resolved_index_by_name`; resolve_positions.py:49-53. -/
structure RSt where
  s : Nat → Option ℝ
  ref : Nat → Option (Nat × Option Anchor)
  last : String → Option Nat

/-- Initial state, with the first place at 0 if it has no position; resolve_positions.py:50-58. -/
noncomputable def init (ps : List Place) : RSt :=
  match ps with
  | ⟨n, none, _, _, _⟩ :: _ =>
    ⟨fun i => if i = 0 then some 0 else none, fun _ => none, fun m => if m = n then some 0 else none⟩
  | _ => ⟨fun _ => none, fun _ => none, fun _ => none⟩

/-- Writing the position of place `i`; resolve_positions.py:132-135. -/
noncomputable def RSt.put (st : RSt) (i : Nat) (name : String) (s : ℝ) (r : Option (Nat × Option Anchor)) : RSt :=
  ⟨fun j => if j = i then some s else st.s j, fun j => if j = i then r else st.ref j,
    fun m => if m = name then some i else st.last m⟩

/-- `str(previous.name).startswith('||drift')`; resolve_positions.py:87. -/
def isAutoDrift (n : String) : Bool := "||drift".toList.isPrefixOf n.toList

/-- Position demanded by place `i` when it can be computed now; resolve_positions.py:71-130. -/
noncomputable def position (ps : List Place) (len : String → ℝ) (refer : Anchor) (st : RSt) (i : Nat) (p : Place) :
    Option (ℝ × Option (Nat × Option Anchor)) :=
  match p.at_ with
  | none =>
    match st.s (i - 1), ps[i - 1]? with
    | some sp, some prev => some (sp + len prev.name, if isAutoDrift prev.name then none else some (i - 1, some .end))
    | _, _ => none
  | some a =>
    match p.from_ with
    | none => some (a - offset (p.anchor.getD refer) (len p.name), none)
    | some f =>
      match st.last f with
      | none => none
      | some r =>
        match ps[r]?, st.s r with
        | some pr, some sr =>
          some (sr + offset (p.fromAnchor.getD refer) (len pr.name) + a - offset (p.anchor.getD refer) (len p.name),
            some (r, p.fromAnchor))
        | _, _ => none

/-- One turn of the inner loop; resolve_positions.py:67-136. -/
noncomputable def visit (ps : List Place) (len : String → ℝ) (refer : Anchor) (st : RSt) (i : Nat) : RSt :=
  match st.s i with
  | some _ => st
  | none =>
    match ps[i]? with
    | none => st
    | some p =>
      match position ps len refer st i p with
      | none => st
      | some (s, r) => st.put i p.name s r

/-- The inner loop. -/
noncomputable def scanAll (ps : List Place) (len : String → ℝ) (refer : Anchor) (st : RSt) : RSt :=
  (List.range ps.length).foldl (visit ps len refer) st

/-- Number of unresolved places. -/
def unresolved (ps : List Place) (st : RSt) : Nat := ((List.range ps.length).filter (fun i => (st.s i).isNone)).length

/-- The outer loop `while made_progress`; resolve_positions.py:64-136.  A scan makes progress exactly when it lowers the
number of unresolved places; `fuel` bounds the number of scans. -/
noncomputable def outer (ps : List Place) (len : String → ℝ) (refer : Anchor) : Nat → RSt → RSt
  | 0, st => st
  | k + 1, st =>
    if unresolved ps (scanAll ps len refer st) < unresolved ps st then outer ps len refer k (scanAll ps len refer st)
    else scanAll ps len refer st

/-- A row of the table of resolved positions: the place, `s_start`, the row it refers to. -/
structure Row where
  name : String
  s : ℝ
  ref : Option (Nat × Option Anchor)

open Classical in
/-- `_resolve_s_positions`; `none`: `ValueError`. -/
noncomputable def resolve (ps : List Place) (len : String → ℝ) (refer : Anchor) : Option (List Row) :=
  if ∃ p ∈ ps, ¬ p.consistent then none
  else
    let st := outer ps len refer (ps.length + 1) (init ps)
    if ∃ i < ps.length, st.s i = none then none
    else some (ps.zipIdx.map (fun pi => ⟨pi.1.name, (st.s pi.2).getD 0, st.ref pi.2⟩))

end Verif.Composer
