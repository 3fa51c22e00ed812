import Verif.Mad.Expr

/-!
# C142: an expression written for MAD-X and read back
-/

namespace Verif.Mad

/-- What is read: signs of numbers become operations, names are in lower case. -/
def norm : E → E
  | .num q => if q < 0 then .neg (.num (-q)) else .num q
  | .var s => .var (lower s)
  | .neg a => .neg (norm a)
  | .pos a => .pos (norm a)
  | .add a b => .add (norm a) (norm b)
  | .sub a b => .sub (norm a) (norm b)
  | .mul a b => .mul (norm a) (norm b)
  | .div a b => .div (norm a) (norm b)
  | .pow a b => .pow (norm a) (norm b)
  | .call f a => .call (lower f) (norm a)

theorem eval_norm (vars : List Char → ℝ) (fn : List Char → ℝ → ℝ) (pw : ℝ → ℝ → ℝ) :
    ∀ e, LowerCase e → eval vars fn pw (norm e) = eval vars fn pw e
  | .num q, _ => by by_cases h : q < 0 <;> simp [norm, h, eval]
  | .var s, h => by simp only [norm, eval]; rw [show lower s = s from h]
  | .neg a, h => by simp only [norm, eval]; rw [eval_norm vars fn pw a h]
  | .pos a, h => by simp only [norm, eval]; rw [eval_norm vars fn pw a h]
  | .add a b, h => by simp only [norm, eval]; rw [eval_norm vars fn pw a h.1, eval_norm vars fn pw b h.2]
  | .sub a b, h => by simp only [norm, eval]; rw [eval_norm vars fn pw a h.1, eval_norm vars fn pw b h.2]
  | .mul a b, h => by simp only [norm, eval]; rw [eval_norm vars fn pw a h.1, eval_norm vars fn pw b h.2]
  | .div a b, h => by simp only [norm, eval]; rw [eval_norm vars fn pw a h.1, eval_norm vars fn pw b h.2]
  | .pow a b, h => by simp only [norm, eval]; rw [eval_norm vars fn pw a h.1, eval_norm vars fn pw b h.2]
  | .call f a, h => by simp only [norm, eval]; rw [show lower f = f from h.1, eval_norm vars fn pw a h.2]

/-- The depth of recursion which suffices. -/
def depth : E → ℕ
  | .num _ => 2
  | .var _ => 7
  | .neg a => depth a + 8
  | .pos a => depth a + 8
  | .add a b => depth a + depth b + 10
  | .sub a b => depth a + depth b + 10
  | .mul a b => depth a + depth b + 10
  | .div a b => depth a + depth b + 10
  | .pow a b => depth a + depth b + 10
  | .call _ a => depth a + 8

/-- A sum which begins with an atom and is followed by what ends it. -/
theorem sum_atom {n : ℕ} {t : List Tok} {a : E} {r : List Tok} (h : atom (n + 3) t = some (a, .rpar :: r)) :
    sum (n + 6) t = some (a, .rpar :: r) := by
  simp only [sum, product, power, h, powerLoop, productLoop, sumLoop]

theorem sum_atom_end {n : ℕ} {t : List Tok} {a : E} (h : atom (n + 3) t = some (a, [])) : sum (n + 6) t = some (a, []) := by
  simp only [sum, product, power, h, powerLoop, productLoop, sumLoop]

theorem atom_toMad : ∀ (e : E) (n : ℕ) (r : List Tok), depth e ≤ n → atom n (toMad e ++ r) = some (norm e, r)
  | .num q, n, r, h => by
    obtain ⟨m, rfl⟩ : ∃ m, n = m + 2 := ⟨n - 2, by simp only [depth] at h; omega⟩
    by_cases hq : q < 0 <;> simp [toMad, numToks, norm, hq, atom]
  | .var s, n, r, h => by
    obtain ⟨m, rfl⟩ : ∃ m, n = m + 7 := ⟨n - 7, by simp only [depth] at h; omega⟩
    have h1 : atom (m + 3) (.name s :: .rpar :: r) = some (.var (lower s), .rpar :: r) := by simp [atom]
    have h2 := sum_atom h1
    simp only [toMad, norm, List.cons_append, List.nil_append]
    simp only [atom, h2]
  | .neg a, n, r, h => by
    obtain ⟨m, rfl⟩ : ∃ m, n = m + 7 := ⟨n - 7, by simp only [depth] at h; omega⟩
    have h0 := atom_toMad a (m + 2) (.rpar :: r) (by simp only [depth] at h; omega)
    have h1 : atom (m + 3) (.minus :: (toMad a ++ .rpar :: r)) = some (.neg (norm a), .rpar :: r) := by simp only [atom, h0]
    have h2 := sum_atom h1
    simp only [toMad, norm, List.cons_append, List.nil_append, List.append_assoc]
    simp only [atom, h2]
  | .pos a, n, r, h => by
    obtain ⟨m, rfl⟩ : ∃ m, n = m + 7 := ⟨n - 7, by simp only [depth] at h; omega⟩
    have h0 := atom_toMad a (m + 2) (.rpar :: r) (by simp only [depth] at h; omega)
    have h1 : atom (m + 3) (.plus :: (toMad a ++ .rpar :: r)) = some (.pos (norm a), .rpar :: r) := by simp only [atom, h0]
    have h2 := sum_atom h1
    simp only [toMad, norm, List.cons_append, List.nil_append, List.append_assoc]
    simp only [atom, h2]
  | .add a b, n, r, h => by
    obtain ⟨m, rfl⟩ : ∃ m, n = m + 8 := ⟨n - 8, by simp only [depth] at h; omega⟩
    have ha := atom_toMad a (m + 4) (.plus :: (toMad b ++ .rpar :: r)) (by simp only [depth] at h; omega)
    have hb := atom_toMad b (m + 3) (.rpar :: r) (by simp only [depth] at h; omega)
    simp only [toMad, norm, List.cons_append, List.nil_append, List.append_assoc]
    simp only [atom, sum, product, power, ha, hb, powerLoop, productLoop, sumLoop]
  | .sub a b, n, r, h => by
    obtain ⟨m, rfl⟩ : ∃ m, n = m + 8 := ⟨n - 8, by simp only [depth] at h; omega⟩
    have ha := atom_toMad a (m + 4) (.minus :: (toMad b ++ .rpar :: r)) (by simp only [depth] at h; omega)
    have hb := atom_toMad b (m + 3) (.rpar :: r) (by simp only [depth] at h; omega)
    simp only [toMad, norm, List.cons_append, List.nil_append, List.append_assoc]
    simp only [atom, sum, product, power, ha, hb, powerLoop, productLoop, sumLoop]
  | .mul a b, n, r, h => by
    obtain ⟨m, rfl⟩ : ∃ m, n = m + 8 := ⟨n - 8, by simp only [depth] at h; omega⟩
    have ha := atom_toMad a (m + 4) (.star :: (toMad b ++ .rpar :: r)) (by simp only [depth] at h; omega)
    have hb := atom_toMad b (m + 3) (.rpar :: r) (by simp only [depth] at h; omega)
    simp only [toMad, norm, List.cons_append, List.nil_append, List.append_assoc]
    simp only [atom, sum, product, power, ha, hb, powerLoop, productLoop, sumLoop]
  | .div a b, n, r, h => by
    obtain ⟨m, rfl⟩ : ∃ m, n = m + 8 := ⟨n - 8, by simp only [depth] at h; omega⟩
    have ha := atom_toMad a (m + 4) (.slash :: (toMad b ++ .rpar :: r)) (by simp only [depth] at h; omega)
    have hb := atom_toMad b (m + 3) (.rpar :: r) (by simp only [depth] at h; omega)
    simp only [toMad, norm, List.cons_append, List.nil_append, List.append_assoc]
    simp only [atom, sum, product, power, ha, hb, powerLoop, productLoop, sumLoop]
  | .pow a b, n, r, h => by
    obtain ⟨m, rfl⟩ : ∃ m, n = m + 8 := ⟨n - 8, by simp only [depth] at h; omega⟩
    have ha := atom_toMad a (m + 4) (.caret :: (toMad b ++ .rpar :: r)) (by simp only [depth] at h; omega)
    have hb := atom_toMad b (m + 3) (.rpar :: r) (by simp only [depth] at h; omega)
    simp only [toMad, norm, List.cons_append, List.nil_append, List.append_assoc]
    simp only [atom, sum, product, power, ha, hb, powerLoop, productLoop, sumLoop]
  | .call f a, n, r, h => by
    obtain ⟨m, rfl⟩ : ∃ m, n = m + 7 := ⟨n - 7, by simp only [depth] at h; omega⟩
    have h0 := atom_toMad a (m + 3) (.rpar :: r) (by simp only [depth] at h; omega)
    have h2 := sum_atom h0
    simp only [toMad, norm, List.cons_append, List.nil_append, List.append_assoc]
    simp only [atom, h2]

theorem depth_le : ∀ e : E, depth e + 3 ≤ 10 * (toMad e).length
  | .num q => by by_cases h : q < 0 <;> simp [depth, toMad, numToks, h]
  | .var s => by simp [depth, toMad]
  | .neg a => by have := depth_le a; simp [depth, toMad]; omega
  | .pos a => by have := depth_le a; simp [depth, toMad]; omega
  | .add a b => by have := depth_le a; have := depth_le b; simp [depth, toMad]; omega
  | .sub a b => by have := depth_le a; have := depth_le b; simp [depth, toMad]; omega
  | .mul a b => by have := depth_le a; have := depth_le b; simp [depth, toMad]; omega
  | .div a b => by have := depth_le a; have := depth_le b; simp [depth, toMad]; omega
  | .pow a b => by have := depth_le a; have := depth_le b; simp [depth, toMad]; omega
  | .call f a => by have := depth_le a; simp [depth, toMad]; omega

theorem read_toMad (e : E) : read (toMad e) = some (norm e) := by
  have h := atom_toMad e (10 * (toMad e).length + 4 + 3) [] (by have := depth_le e; omega)
  rw [List.append_nil] at h
  have h2 := sum_atom_end h
  unfold read
  rw [show 10 * (toMad e).length + 10 = 10 * (toMad e).length + 4 + 6 by omega, h2]

/-- Functions whose names lose letters when the expression is written: `exp`, `erf`, `erfc`, `round` among those of xtrack. -/
def LosesLetters (f : List Char) : Prop := ∃ c ∈ f.head?, c = '.' ∨ c = '_' ∨ c = 'e' ∨ c = 'x' ∨ c = 'p' ∨ c = 'r'

/-- The outermost operation is not such a function. -/
def Kept : E → Prop
  | .call f _ => f ≠ [] ∧ ¬ LosesLetters f
  | _ => True

theorem write_kept (e : E) (h : Kept e) : write e = toMad e := by
  have hb : ∀ t : List Tok, stripBack (Tok.rpar :: t) = Tok.rpar :: t := fun t => by simp [stripBack]
  cases e with
  | num q => by_cases hq : q < 0 <;> simp [write, toMad, numToks, hq, stripFront, stripBack]
  | var s => simp [write, toMad, stripFront, stripBack]
  | call f a =>
    obtain ⟨hne, hl⟩ := h
    cases f with
    | nil => exact absurd rfl hne
    | cons c f =>
      have hc : c ∉ stripped := fun hc => hl ⟨c, by simp, by simpa [stripped] using hc⟩
      simp [write, toMad, stripFront, hc, stripBack]
  | _ => simp [write, toMad, stripFront, stripBack]

/-- **C142.** An expression written by `to_madx_sequence` and read back by `xt.load` has the same value for all values of the
variables. *Missing*: names with capital letters, and expressions whose outermost operation is `exp`, `erf`, `erfc` or `round`; both
fail, see below. -/
theorem C142_partial (e : E) (hl : LowerCase e) (hk : Kept e) : ∃ e', read (write e) = some e' ∧
    ∀ vars fn pw, eval vars fn pw e' = eval vars fn pw e :=
  ⟨norm e, by rw [write_kept e hk, read_toMad], fun vars fn pw => eval_norm vars fn pw e hl⟩

example : LowerCase (.mul (.num (-2)) (.pow (.call ['s', 'i', 'n'] (.var ['x'])) (.num (1 / 2)))) ∧
    Kept (.mul (.num (-2)) (.pow (.call ['s', 'i', 'n'] (.var ['x'])) (.num (1 / 2)))) := by
  refine ⟨⟨trivial, ⟨by decide, (by decide : lower ['x'] = ['x'])⟩, trivial⟩, trivial⟩

/-- The same for the names: what is read of the text of any expression is that expression in lower case. -/
theorem C142_names (e : E) (hk : Kept e) : read (write e) = some (norm e) := by rw [write_kept e hk, read_toMad]

/-- **C142 fails** for `y := exp(x)`: the letters of `exp` are among the characters stripped, what is written is `((x))`, and `y` is
read as `x`. -/
theorem C142_exp_violated : read (write (.call ['e', 'x', 'p'] (.var ['x']))) = some (.var ['x']) := by decide +kernel

/-- **C142 fails** for `round(x)`: what is written is a call of `ound`, and for `erf(x)`: a call of `f`. -/
theorem C142_round_violated :
    read (write (.call ['r', 'o', 'u', 'n', 'd'] (.var ['x']))) = some (.call ['o', 'u', 'n', 'd'] (.var ['x'])) ∧
    read (write (.call ['e', 'r', 'f'] (.var ['x']))) = some (.call ['f'] (.var ['x'])) := by decide +kernel

/-- **C142 fails** for names which differ in the case of their letters: two variables become one, and `A - a` is read as zero. -/
theorem C142_case_violated : ∃ (vars : List Char → ℝ) (e e' : E), read (write e) = some e' ∧
    (∀ fn pw, eval vars fn pw e' = 0) ∧ ∀ fn pw, eval vars fn pw e = 1 := by
  refine ⟨fun s => if s = ['A'] then 1 else 0, .sub (.var ['A']) (.var ['a']), .sub (.var ['a']) (.var ['a']), by decide +kernel,
    ?_, ?_⟩ <;> intros <;> simp [eval]

/-! ### Reading of what others have written -/

/-- The same text in the usual notation, which is also that of the expressions given as strings in xtrack: a sign applies to the
whole power. -/
inductive Usual : List Tok → E → Prop
  | atomNum (q : ℚ) : Usual [.num q] (.num q)
  | atomVar (s : List Char) : Usual [.name s] (.var (lower s))
  | power {a b : List Tok} {x y : E} : Usual a x → Usual b y → Usual (a ++ [.caret] ++ b) (.pow x y)
  | negPower {a b : List Tok} {x y : E} : Usual a x → Usual b y → Usual ([.minus] ++ a ++ [.caret] ++ b) (.neg (.pow x y))

/-- **Reading fails** for a sign before a power: `-x^2` is read as `(-x)^2`; for `x = 3` this is `9` instead of `-9`. -/
theorem C142_sign_violated : ∃ (t : List Tok) (e e' : E), Usual t e ∧ read t = some e' ∧
    eval (fun _ => 3) (fun _ x => x) (fun x _ => x * x) e = -9 ∧ eval (fun _ => 3) (fun _ x => x) (fun x _ => x * x) e' = 9 := by
  refine ⟨[.minus, .name ['x'], .caret, .num 2], .neg (.pow (.var ['x']) (.num 2)), .pow (.neg (.var ['x'])) (.num 2),
    Usual.negPower (Usual.atomVar ['x']) (Usual.atomNum 2), by decide +kernel, ?_, ?_⟩ <;> norm_num [eval]

/-- Sums, products and powers are read from left to right, products before sums and powers before products. -/
theorem C142_precedence (a b c : ℚ) :
    read [.num a, .minus, .num b, .plus, .num c] = some (.add (.sub (.num a) (.num b)) (.num c)) ∧
    read [.num a, .slash, .num b, .star, .num c] = some (.mul (.div (.num a) (.num b)) (.num c)) ∧
    read [.num a, .caret, .num b, .caret, .num c] = some (.pow (.pow (.num a) (.num b)) (.num c)) ∧
    read [.num a, .plus, .num b, .star, .num c] = some (.add (.num a) (.mul (.num b) (.num c))) ∧
    read [.num a, .star, .num b, .caret, .num c] = some (.mul (.num a) (.pow (.num b) (.num c))) ∧
    read [.num a, .star, .minus, .num b] = some (.mul (.num a) (.neg (.num b))) := by
  simp [read, sum, product, power, atom, sumLoop, productLoop, powerLoop]

end Verif.Mad
