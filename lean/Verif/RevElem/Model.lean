import Mathlib.Data.Complex.Basic
import Mathlib.Data.Complex.BigOperators
import Mathlib.Data.Nat.Factorial.Basic

/-!
# Reversed lines of MAD-X files

Model of `_reverse_element` (xtrack/environment.py:3109-3190) and of the loop over lines to be reversed in `load_madx_lattice`
(xtrack/mad_parser/loader.py:791-801).

An element has the strengths of its attributes `k0` to `k3`, `k0s` to `k3s` and of `knl` and `ksl`, the one of a solenoid, two edges (angle, model, gap and
field integral taken together) and an aperture (a shape, with the shifts given by `aper_offset`, loader.py:646-657).  Not modelled: RF elements, rotations, expressions (their values are
reversed), types which are not supported.
-/

namespace Verif.RevElem

/-- An edge: model, angle, angle of the feed-down, field integral and gap. -/
structure Edge where
  model : ℕ
  angle : ℝ
  fdown : ℝ
  fint : ℝ
  hgap : ℝ

structure Elem where
  length : ℝ
  /-- the attributes `k0` to `k3` -/
  k : ℕ → ℝ
  /-- the attributes `k0s` to `k3s` -/
  kskew : ℕ → ℝ
  knl : List ℝ
  ksl : List ℝ
  /-- solenoid -/
  ks : ℝ
  entry : Edge
  exit : Edge
  shiftX : ℝ
  shiftY : ℝ
  shape : ℝ → ℝ → Prop

/-- Every second entry with the other sign, from a given one on: environment.py:3177-3183. -/
def flip (p : ℕ) (l : List ℝ) : List ℝ := l.mapIdx fun i v => if i % 2 = p then -v else v

/-- `_reverse_element`: environment.py:3149-3190. -/
def reverse (e : Elem) : Elem :=
  { e with
    k := fun n => if n = 1 ∨ n = 3 then -e.k n else e.k n
    kskew := fun n => if n = 0 ∨ n = 2 then -e.kskew n else e.kskew n
    ks := -e.ks
    knl := flip 1 e.knl
    ksl := flip 0 e.ksl
    entry := e.exit
    exit := e.entry }

/-- A line: names and elements. -/
structure Line where
  names : List String
  elems : String → Elem

/-- The loop: loader.py:793-799. -/
def reverseLine (l : Line) : Line where
  names := l.names.reverse
  elems := l.names.foldl (fun els n => fun m => if m = n then reverse (els n) else els m) l.elems

end Verif.RevElem
