import Verif.LineAlg.Model

/-!
# C144: sums, multiples and reflections of lines
-/

namespace Verif.LineAlg

variable (lens : ℕ → ℚ) (tol : ℚ)

/-- **C144.** `-line` has the elements of the line in the opposite order, and fails when the line itself cannot be built. -/
theorem C144_neg (l : L) : build lens tol (neg l) = (build lens tol l).map List.reverse := by
  cases l with
  | normal ns => simp [neg, build]
  | compose cs m len =>
    simp only [neg, build]
    cases flat lens tol cs with
    | none => simp
    | some ns => cases h : pad lens tol ns len <;> cases m <;> simp [h]

/-- Reflecting twice gives the line back. -/
theorem C144_neg_neg (l : L) : build lens tol (neg (neg l)) = build lens tol l := by
  rw [C144_neg, C144_neg]; cases build lens tol l <;> simp

theorem build_pair (a b : L) (x y : List Nm) (ha : build lens tol a = some x) (hb : build lens tol b = some y) :
    build lens tol (.compose (.line a (.line b .nil)) false none) = some (x ++ y) := by
  rw [build, flat, ha, flat, hb, flat]
  simp [pad]

/-- **C144.** `line1 + line2` has the elements of the first and then those of the second. -/
theorem C144_add (a b : L) (x y : List Nm) (ha : build lens tol a = some x) (hb : build lens tol b = some y) :
    build lens tol (add a b) = some (x ++ y) := by
  cases a with
  | normal p =>
    cases b with
    | normal q => simp only [build, Option.some.injEq] at ha hb; simp [add, build, ha, hb]
    | compose cs m len => exact build_pair lens tol _ _ x y ha hb
  | compose cs m len => cases b <;> exact build_pair lens tol _ _ x y ha hb

/-- **C144.** `line1 - line2` has the elements of the first and then those of the second in the opposite order. -/
theorem C144_sub (a b : L) (x y : List Nm) (ha : build lens tol a = some x) (hb : build lens tol b = some y) :
    build lens tol (sub a b) = some (x ++ y.reverse) := by
  apply C144_add lens tol a (neg b) x y.reverse ha
  rw [C144_neg, hb]; rfl

theorem flat_copies (l : L) (x : List Nm) (h : build lens tol l = some x) : ∀ n, flat lens tol (copies l n) = some (repeated x n)
  | 0 => by simp [copies, flat, repeated]
  | n + 1 => by
    have ih := flat_copies l x h n
    simp [copies, flat, h, ih, repeated, List.replicate_succ]

/-- The line is not reflected and has no requested length, or is a list of names. -/
def Plain : L → Prop
  | .normal _ => True
  | .compose _ m len => m = false ∧ len = none

/-- **C144.** `n * line` has the elements of the line `n` times, for `n` at least one. *Missing*: lines in compose mode which are
reflected or have a requested length; both fail, see below. -/
theorem C144_mul_partial (n : ℕ) (hn : 0 < n) (l : L) (hl : Plain l ∨ n = 1) (x : List Nm) (h : build lens tol l = some x) :
    ∃ l', mul n l = some l' ∧ build lens tol l' = some (List.replicate n x).flatten := by
  have hn0 : n ≠ 0 := by omega
  cases l with
  | normal ns =>
    simp only [build, Option.some.injEq] at h
    subst h
    exact ⟨.normal (repeated ns n), by simp [mul, hn0], by simp [build, repeated]⟩
  | compose cs m len =>
    by_cases h1 : 1 < n
    · rcases hl with ⟨hm, hlen⟩ | hl
      · subst hm hlen
        refine ⟨.compose (copies (.compose cs false none) n) false none, by simp only [mul, if_neg hn0, if_pos h1], ?_⟩
        simp only [build, flat_copies lens tol _ x h n, pad, repeated, Bool.false_eq_true, if_false]
      · omega
    · have : n = 1 := by omega
      subst this
      exact ⟨.compose cs m len, by simp [mul], by simp [h]⟩

/-- A number which is not positive is refused. -/
theorem C144_mul_zero (l : L) : mul 0 l = none := by simp [mul]

example : Plain (.compose (.name (.el 1) (.line (neg (.normal [.el 2, .el 3])) .nil)) false none) ∧
    build (fun _ => 1) 0 (.compose (.name (.el 1) (.line (neg (.normal [.el 2, .el 3])) .nil)) false none) =
      some [.el 1, .el 3, .el 2] := by
  refine ⟨⟨rfl, rfl⟩, ?_⟩
  simp [build, flat, neg, pad]

/-- **C144 fails** for a multiple of a reflected line in compose mode: `2 * (-line)` is reflected twice, and has the elements of
`line` in their first order. With `line` made of `a, b`: `a, b, a, b` instead of `b, a, b, a`. -/
theorem C144_mirror_violated :
    let l := L.compose (.name (.el 1) (.name (.el 2) .nil)) false none
    build (fun _ => 1) 0 (neg l) = some [.el 2, .el 1] ∧
    ∃ l', mul 2 (neg l) = some l' ∧ build (fun _ => 1) 0 l' = some [.el 1, .el 2, .el 1, .el 2] := by
  refine ⟨by simp [neg, build, flat, pad], _, rfl, ?_⟩
  simp [neg, build, flat, pad, copies]

/-- **C144 fails** for a multiple of a line in compose mode with a requested length, such as a sequence: the multiple has the same
requested length, and cannot be built. -/
theorem C144_length_violated :
    let l := L.compose (.name (.el 1) .nil) false (some 1)
    build (fun _ => 1) (1 / 1000000) l = some [.el 1] ∧
    ∃ l', mul 2 l = some l' ∧ build (fun _ => 1) (1 / 1000000) l' = none := by
  refine ⟨by norm_num [build, flat, pad, total, Nm.len], _, rfl, ?_⟩
  norm_num [build, flat, pad, copies, total, Nm.len]

end Verif.LineAlg
