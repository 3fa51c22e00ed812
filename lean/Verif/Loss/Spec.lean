import Verif.Loss.Model
/-! # Specification: one particle tracked on its own

This file knows nothing about slots, exchanges, counters or chunks. -/
namespace Verif.Loss.Spec
open Verif.Loss
variable {α : Type}

/-- A particle is alive when its state is positive. -/
def Alive (s : Slot α) : Prop := 0 < s.state

instance (s : Slot α) : Decidable (Alive s) := inferInstanceAs (Decidable (0 < s.state))

/-- An element acting on one particle: new state and coordinates; id and location are kept. -/
def through (e : Elem α) (s : Slot α) : Slot α := ⟨s.id, (e s).1, s.atElement, s.atTurn, (e s).2⟩

/-- One particle through a sequence of elements: it stops at the element where it is lost (keeping
that element's index as its location), otherwise it moves on by one element. -/
def alongElements : List (Elem α) → Slot α → Slot α
  | [], s => s
  | e :: es, s =>
    let t := through e s
    if Alive t then alongElements es ⟨t.id, t.state, t.atElement + 1, t.atTurn, t.data⟩ else t

/-- One particle over several turns; at the end of a complete turn the turn counter is incremented
and the location restarts from zero. -/
def alongTurns (els : List (Elem α)) (endTurn : Bool) : Nat → Slot α → Slot α
  | 0, s => s
  | n + 1, s =>
    if Alive s then
      let t := alongElements els s
      if Alive t then
        alongTurns els endTurn n
          (if endTurn then ⟨t.id, t.state, 0, t.atTurn + 1, t.data⟩ else t)
      else t
    else s

end Verif.Loss.Spec
