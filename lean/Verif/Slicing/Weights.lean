import Mathlib.Algebra.Order.Archimedean.Real.Basic

/-!
# Slicing schemes

Source: /repo/xtrack/slicing.py, lines 22-157.  Real arithmetic; a division by zero (exception for Python floats, NaN or
infinity for numpy arrays) is `none`.
-/

namespace Verif.Slicing

/-- `mode`. -/
inductive Mode where
  | thin
  | thick
  deriving DecidableEq

/-- The three schemes, with the arguments of the constructors (`n`: `slicing_order`). -/
inductive Scheme where
  | uniform (n : Nat) (mode : Mode)
  | teapot (n : Nat) (mode : Mode)
  | custom (atS : List ℝ) (mode : Mode)

/-- `self.mode`. -/
def Scheme.mode : Scheme → Mode
  | .uniform _ m => m
  | .teapot _ m => m
  | .custom _ m => m

/-- Argument of `ElementSlicingScheme.__init__`; slicing.py:133-138 for the custom scheme. -/
def Scheme.arg : Scheme → Nat
  | .uniform n _ => n
  | .teapot n _ => n
  | .custom atS .thick => atS.length + 1
  | .custom atS .thin => atS.length

/-- The constructor does not raise; slicing.py:28-29. -/
def Scheme.Valid (s : Scheme) : Prop := 1 ≤ s.arg

/-- `self.slicing_order`; slicing.py:33-38. -/
def Scheme.order (s : Scheme) : Nat :=
  match s.mode with
  | .thick => s.arg - 1
  | .thin => s.arg

/-- `element_weights`; slicing.py:82-86 (uniform), 96-100 (teapot), 145-146 (custom).  `1. / 0` raises. -/
noncomputable def Scheme.elementWeights (s : Scheme) : Option (List ℝ) :=
  match s with
  | .custom _ _ => if s.order = 0 then none else some (List.replicate s.order (1 / (s.order : ℝ)))
  | _ =>
    if s.order = 0 ∧ s.mode = .thick then some [1]
    else if s.order = 0 then none
    else some (List.replicate s.order (1 / (s.order : ℝ)))

/-- Consecutive differences, starting from `p`; slicing.py:142-143. -/
def sections (p : ℝ) : List ℝ → List ℝ
  | [] => []
  | a :: l => (a - p) :: sections a l

/-- `self.at_s[-1]`. -/
def lastCut (atS : List ℝ) : ℝ := atS.getLastD 0

open Classical in
/-- `drift_weights`; slicing.py:88-92 (uniform), 102-114 (teapot), 148-154 (custom). -/
noncomputable def Scheme.driftWeights (s : Scheme) (length : ℝ) : Option (List ℝ) :=
  match s with
  | .uniform _ _ =>
    if s.order = 0 then some [1] else some (List.replicate (s.order + 1) (1 / ((s.order + 1 : Nat) : ℝ)))
  | .teapot _ _ =>
    if s.order = 0 then some [1]
    else if s.order = 1 then some [1 / 2, 1 / 2]
    else
      some ([1 / (2 * (1 + (s.order : ℝ)))] ++ List.replicate (s.order - 1) ((s.order : ℝ) / ((s.order : ℝ) ^ 2 - 1)) ++
        [1 / (2 * (1 + (s.order : ℝ)))])
  | .custom atS _ =>
    if length = 0 then none
    else some ((sections 0 atS ++ [length - lastCut atS]).map (· / length))

/-- The loop of `iter_weights` over `zip_longest`; slicing.py:64-75.  `none`: a missing drift weight would be used. -/
def zipWeights (m : Mode) : List ℝ → List ℝ → Option (List (ℝ × Bool))
  | [], [] => some []
  | d :: _, [] => some [(d, true)]
  | [], _ :: _ => none
  | d :: ds, e :: es =>
    (zipWeights m ds es).map (fun r => (d, true) :: ((if m = .thin then [(e, false)] else []) ++ r))

/-- `iter_weights`: weights and whether they belong to a drift; slicing.py:52-75. -/
noncomputable def Scheme.iterWeights (s : Scheme) (length : ℝ) : Option (List (ℝ × Bool)) :=
  match s.driftWeights length, s.elementWeights with
  | some ds, some es => zipWeights s.mode ds es
  | _, _ => none

end Verif.Slicing
