import Verif.Composer.Resolve

/-!
# Ordering of resolved placements

Source: /repo/xtrack/composer/ordering.py 10-245.

Simplifications: real arithmetic; the name with repetition of a row is a key of an arbitrary type; the two dictionaries of elements to
insert are one list of pending elements (an element is under its target, before it or after it according to its anchor);
Python's `sorted` is any function with the properties in `PySort`; an exception is `none`.
-/

namespace Verif.Composer

variable {κ : Type} [DecidableEq κ]

/-- `ResolvedPlacement`; ordering.py:10-28. -/
structure Item (κ : Type) where
  name : κ
  len : ℝ
  thick : Bool
  s : ℝ
  from_ : Option κ
  fromAnchor : Option Anchor

/-- `s_center`; ordering.py:22-24. -/
noncomputable def Item.center (p : Item κ) : ℝ := p.s + p.len / 2

/-- `s_end`; ordering.py:26-28. -/
noncomputable def Item.stop (p : Item κ) : ℝ := p.s + p.len

/-- The comparator returns -1; ordering.py:238-243. -/
def cmpLt (tol : ℝ) (a b : Item κ) : Prop := ¬ |a.center - b.center| < tol ∧ a.center < b.center

/-- `lt` is a strict weak order on the elements of `l`. -/
structure WeakOrder {α : Type} (lt : α → α → Prop) (l : List α) : Prop where
  asymm : ∀ a ∈ l, ∀ b ∈ l, lt a b → ¬ lt b a
  negTrans : ∀ a ∈ l, ∀ b ∈ l, ∀ c ∈ l, ¬ lt a b → ¬ lt b c → ¬ lt a c

/-- What is known about `sorted(..., key=cmp_to_key(...))`: it permutes its argument, it returns a list without descent unchanged, and
for a consistent comparator the result is sorted and the order of equal elements is kept. -/
structure PySort {α : Type} (lt : α → α → Prop) (sort : List α → List α) : Prop where
  perm : ∀ l, (sort l).Perm l
  run : ∀ l, l.IsChain (fun a b => ¬ lt b a) → sort l = l
  sorted : ∀ l, WeakOrder lt l → (sort l).Pairwise (fun a b => ¬ lt b a)
  stable : ∀ l, WeakOrder lt l → ∀ a b, [a, b].Sublist l → ¬ lt b a → [a, b].Sublist (sort l)

/-- `previous.isthick and previous.s_end - previous.s_start != 0`; ordering.py:125-128. -/
def Item.isThick (p : Item κ) : Prop := p.thick = true ∧ p.stop - p.s ≠ 0

open Classical in
/-- Loop of `_group_elements_at_same_s`; ordering.py:121-133.  `cur` is the last group, `prev` its last element. -/
noncomputable def groupAux (tol : ℝ) (prev : Item κ) (cur : List (Item κ)) : List (Item κ) → List (List (Item κ))
  | [] => [cur]
  | p :: l =>
    if |p.center - prev.center| > tol ∨ prev.isThick ∨ p.isThick then cur :: groupAux tol p [p] l
    else groupAux tol p (cur ++ [p]) l

/-- `_group_elements_at_same_s`; ordering.py:116-133. -/
noncomputable def groupSameS (tol : ℝ) : List (Item κ) → List (List (Item κ))
  | [] => []
  | p :: l => groupAux tol p [p] l

/-- `group_index_by_name` (the last group wins); ordering.py:84-88. -/
def groupIndex (k : Nat) : List (List (Item κ)) → κ → Option Nat
  | [], _ => none
  | g :: gs, n =>
    match groupIndex (k + 1) gs n with
    | some i => some i
    | none => if n ∈ g.map (fun p => p.name) then some k else none

/-- The four lists of `_order_elements_at_same_s`; ordering.py:161-164. -/
inductive Cls where
  | upstream
  | downstream
  | same
  | free
  deriving DecidableEq

/-- Classification of an element; ordering.py:166-189.  `none`: `ValueError`. -/
def classify (allow : Bool) (idx : κ → Option Nat) (k : Nat) (p : Item κ) : Option Cls :=
  match p.from_ with
  | none => some .free
  | some f =>
    match idx f with
    | none => if allow then some .free else none
    | some j =>
      if j < k then some .upstream
      else if k < j then some .downstream
      else if p.fromAnchor = none then some .free
      else some .same

/-- Elements that go before (after) their target; ordering.py:203-210. -/
def Item.goesBefore (p : Item κ) : Bool := p.fromAnchor ≠ some .end

/-- One pass over the current order; ordering.py:217-222.  `pend`: elements not inserted yet. -/
def walk : List (Item κ) → List (Item κ) → List (Item κ) × List (Item κ)
  | [], pend => ([], pend)
  | p :: l, pend =>
    ((pend.filter (fun q => q.from_ = some p.name ∧ q.goesBefore)) ++ p ::
      ((pend.filter (fun q => q.from_ = some p.name ∧ ¬ q.goesBefore)) ++
        (walk l (pend.filter (fun q => q.from_ ≠ some p.name))).1),
     (walk l (pend.filter (fun q => q.from_ ≠ some p.name))).2)

/-- The loop `while elements_to_insert_before or elements_to_insert_after`; ordering.py:216-231.  `fuel` bounds the number of passes. -/
def insertLoop : Nat → List (Item κ) → List (Item κ) → Option (List (Item κ))
  | 0, _, _ => none
  | k + 1, order, pend =>
    if pend.isEmpty then some order
    else if (walk order pend).1.length = order.length then none
    else insertLoop k (walk order pend).1 (walk order pend).2

/-- Elements of a class, in the order of the group. -/
def ofClass (allow : Bool) (idx : κ → Option Nat) (k : Nat) (c : Cls) (g : List (Item κ)) : List (Item κ) :=
  g.filter (fun p => classify allow idx k p = some c)

/-- `_order_elements_at_same_s`; ordering.py:136-231. -/
def orderGroup (allow : Bool) (idx : κ → Option Nat) (k : Nat) (g : List (Item κ)) : Option (List (Item κ)) :=
  if g.length = 1 ∨ g.all (fun p => p.from_.isNone) then some g
  else if g.any (fun p => classify allow idx k p = none) then none
  else insertLoop (g.length + 1)
    (ofClass allow idx k .upstream g ++ (ofClass allow idx k .free g ++ ofClass allow idx k .downstream g))
    (ofClass allow idx k .same g)

/-- The loop over the groups; ordering.py:90-100. -/
def orderGroups (allow : Bool) (idx : κ → Option Nat) (k : Nat) : List (List (Item κ)) → Option (List (Item κ))
  | [] => some []
  | g :: gs =>
    match orderGroup allow idx k g with
    | none => none
    | some o => (orderGroups allow idx (k + 1) gs).map (fun r => o ++ r)

/-- `_sort_places`, order of the rows; ordering.py:31-113. -/
noncomputable def sortPlaces (sort : List (Item κ) → List (Item κ)) (tol : ℝ) (allow : Bool) (l : List (Item κ)) :
    Option (List (Item κ)) :=
  orderGroups allow (groupIndex 0 (groupSameS tol (sort l))) 0 (groupSameS tol (sort l))

/-- Insertion sort, an instance of `PySort`. -/
noncomputable def insertSorted {α : Type} (lt : α → α → Prop) [DecidableRel lt] (x : α) : List α → List α
  | [] => [x]
  | y :: l => if lt y x then y :: insertSorted lt x l else x :: y :: l

/-- Insertion sort. -/
noncomputable def isort {α : Type} (lt : α → α → Prop) [DecidableRel lt] : List α → List α
  | [] => []
  | x :: l => insertSorted lt x (isort lt l)

end Verif.Composer
