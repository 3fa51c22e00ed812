import Verif.Composer.Build

/-!
# Line objects: copies, mirror, sum, product, in-place edits, cycle

Sources: /repo/xtrack/line.py 1208-1240 (`copy`), 4318-4412 (`cycle`), 5850-5945 (`mirror`, `__neg__`, `__rmul__`, `__add__`, `__sub__`),
6752-6783 (`element_names`), 3715-3784 (`append`), /repo/xtrack/environment.py 641-790 (`new_line`, `place`), 3018-3068 (`EnvLines`).

A line object holds a reference to a list of names, so that aliasing between lines can be expressed.  Simplifications: lines are in
normal mode and not frozen; an exception is `none`; the elements are the ones of the composer model (`Slicing.St`).
-/

namespace Verif.Lines

open Composer (Comp Item build)
open Slicing (St)

/-- A line: address of its list `element_names`, and `_name`. -/
structure LineObj where
  addr : Nat
  name : Option String

/-- Lists by address, line objects, `env.lines`; `nextA` and `nextL` are the next addresses. -/
structure World where
  heap : Nat → List String
  lines : Nat → Option LineObj
  reg : String → Option Nat
  nextA : Nat
  nextL : Nat

/-- `line.element_names` of line `i`. -/
def World.names (w : World) (i : Nat) : Option (List String) := (w.lines i).map (fun l => w.heap l.addr)

/-- A new line object with a new list. -/
def World.alloc (w : World) (l : List String) (name : Option String) : World × Nat :=
  ({ w with heap := fun a => if a = w.nextA then l else w.heap a,
            lines := fun i => if i = w.nextL then some ⟨w.nextA, name⟩ else w.lines i,
            nextA := w.nextA + 1, nextL := w.nextL + 1 }, w.nextL)

/-- `line.element_names = l` with a new list. -/
def World.assign (w : World) (i : Nat) (l : List String) : Option World :=
  match w.lines i with
  | none => none
  | some o => some { w with heap := fun a => if a = w.nextA then l else w.heap a,
                            lines := fun j => if j = i then some ⟨w.nextA, o.name⟩ else w.lines j,
                            nextA := w.nextA + 1 }

/-- The list of line `i` is changed in place (`append`, `clear` and `extend`, item assignment). -/
def World.mutate (w : World) (i : Nat) (l : List String) : Option World :=
  match w.lines i with
  | none => none
  | some o => some { w with heap := fun a => if a = o.addr then l else w.heap a }

/-- `env.new_line(components=names, name=name)` for names of elements; environment.py:701-731.  `none`: the name is in use
(environment.py:2242-2253). -/
def newLine (w : World) (l : List String) (name : Option String) : Option (World × Nat) :=
  match name with
  | none => some (w.alloc l none)
  | some n =>
    match w.reg n with
    | some _ => none
    | none => some ({ (w.alloc l (some n)).1 with reg := fun m => if m = n then some w.nextL else w.reg m }, w.nextL)

/-- `env.lines.remove(name)`, `del env.lines[name]`; environment.py:3057-3067. -/
def unregister (w : World) (n : String) : Option World :=
  match w.reg n with
  | none => none
  | some _ => some { w with reg := fun m => if m = n then none else w.reg m }

/-- `line.copy(shallow=True)`; line.py:1211-1215. -/
def copyShallow (w : World) (i : Nat) : Option (World × Nat) := (w.names i).map (fun l => w.alloc l none)

/-- `line.mirror()`; line.py:5904-5906. -/
def mirror (w : World) (i : Nat) : Option World :=
  match w.names i with
  | none => none
  | some l => w.assign i l.reverse

/-- `-line`; line.py:5899-5902, 5913-5914. -/
def neg (w : World) (i : Nat) : Option (World × Nat) :=
  match copyShallow w i with
  | none => none
  | some (w1, k) => (mirror w1 k).map (fun w2 => (w2, k))

/-- `n * line`; line.py:5916-5927. -/
def mul (w : World) (n : Nat) (i : Nat) : Option (World × Nat) :=
  if n = 0 then none
  else (w.names i).map (fun l => w.alloc (List.replicate n l).flatten none)

/-- `env.place(line)` (the component and the world after it); environment.py:772-790.  A line with a name is placed by name. -/
def placeLine (w : World) (i : Nat) : Option (World × Comp) :=
  match w.lines i with
  | none => none
  | some o =>
    match o.name with
    | some n =>
      match w.reg n with
      | none => none
      | some _ => some (w, .place ⟨n, none, none, none, none⟩)
    | none => (copyShallow w i).map (fun t => (t.1, .line (w.heap o.addr) (some ⟨none, none, none, none⟩)))

/-- `env.lines[name].element_names`. -/
def World.lookup (w : World) (n : String) : Option (List String) := (w.reg n).bind w.names

/-- `line + other`; line.py:5929-5941.  The components are placed, then the line is built. -/
noncomputable def add (sort : List (Item Nat) → List (Item Nat)) (st : St) (w : World) (i j : Nat) : Option (World × Nat) :=
  match placeLine w i with
  | none => none
  | some (w1, c1) =>
    match placeLine w1 j with
    | none => none
    | some (w2, c2) =>
      (build sort w2.lookup [c1, c2] .center (1 / 10 ^ 6) none false st).map (fun t => w2.alloc t.2 none)

/-- `line - other`; line.py:5943-5944. -/
noncomputable def sub (sort : List (Item Nat) → List (Item Nat)) (st : St) (w : World) (i j : Nat) : Option (World × Nat) :=
  match neg w j with
  | none => none
  | some (w1, k) => add sort st w1 i k

/-- Argument `index_first_element` of `cycle`. -/
inductive First where
  | int (k : Int)
  | str (n : String)

/-- Start of a slice of a list of `n` elements, as Python clips it. -/
def clip (n : Nat) (k : Int) : Nat := if k < 0 then (k + n).toNat else min k.toNat n

/-- `names[k:] + names[:k]`; line.py:4385-4386. -/
def rotateAt (l : List String) (k : Int) : List String := l.drop (clip l.length k) ++ l.take (clip l.length k)

/-- `line.cycle(index_first_element, name_first_element)`; line.py:4356-4399. -/
def cycle (w : World) (i : Nat) (index : Option First) (name : Option String) : Option World :=
  match w.names i with
  | none => none
  | some l =>
    let byName (n : String) : Option World :=
      if l.count n = 0 then none
      else if 1 < l.count n then none
      else w.assign i (rotateAt l (l.idxOf n))
    match index, name with
    | some _, some _ => none
    | none, none => none
    | some (.str n), none => byName n
    | some (.int k), none => w.assign i (rotateAt l k)
    | none, some n => byName n

/-- A step of a history: everything that makes lines or changes their lists. -/
inductive Op where
  | new (l : List String) (name : Option String)
  | del (n : String)
  | copy (i : Nat)
  | mirror (i : Nat)
  | neg (i : Nat)
  | mul (n i : Nat)
  | add (i j : Nat)
  | sub (i j : Nat)
  | cycle (i : Nat) (index : Option First) (name : Option String)
  /-- an edit in place: `append`, `insert`, `replace`, ... -/
  | mutate (i : Nat) (l : List String)
  /-- an edit that assigns a new list: `remove`, the clean-up methods, ... -/
  | assign (i : Nat) (l : List String)

/-- One step; a step that raises leaves the lines as they are (temporary copies are dropped). -/
noncomputable def step (sort : List (Item Nat) → List (Item Nat)) (st : St) (w : World) : Op → World
  | .new l name => ((newLine w l name).map Prod.fst).getD w
  | .del n => (unregister w n).getD w
  | .copy i => ((copyShallow w i).map Prod.fst).getD w
  | .mirror i => (Lines.mirror w i).getD w
  | .neg i => ((Lines.neg w i).map Prod.fst).getD w
  | .mul n i => ((Lines.mul w n i).map Prod.fst).getD w
  | .add i j => ((Lines.add sort st w i j).map Prod.fst).getD w
  | .sub i j => ((Lines.sub sort st w i j).map Prod.fst).getD w
  | .cycle i index name => (Lines.cycle w i index name).getD w
  | .mutate i l => (w.mutate i l).getD w
  | .assign i l => (w.assign i l).getD w

/-- An environment without lines. -/
def empty : World := ⟨fun _ => [], fun _ => none, fun _ => none, 0, 0⟩

end Verif.Lines
