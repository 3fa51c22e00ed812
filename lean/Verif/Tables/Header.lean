import Verif.Tables.Csv
import Mathlib.Data.Nat.Log
import Mathlib.Tactic.NormNum

/-!
# Attributes of a table in the header of a TFS file (C117)

Modelled: `/repo/xtrack/table.py`: `_format_tfs_header_value` (lines 852-881), the lines `@ NAME %token value` of `to_tfs` (lines 1803-1813) and their
reading by `_parse_headers`, `_convert_header_value`, `_strip_outer_quotes` (lines 80-138) and `from_tfs` (lines 1900-1936).
One line of the header at a time.  The columns are read by another package and are not modelled.
-/

namespace Verif.Tables

/-- Value of an attribute; `json` is anything which is saved as JSON text (arrays, lists, dictionaries). -/
inductive Attr (F : Type) where
  | none
  | bool (b : Bool)
  | int (n : ℤ)
  | flt (x : F)
  | complex (re im : F)
  | str (s : Text)
  | json (payload : Text)

/-- Texts of numbers: `str(n)`, `int(text)`, `f"{x:.16g}"`, `float(text)`, and the text of a complex number. -/
structure HeaderNumbers where
  F : Type
  decimal : ℤ → Text
  readInt : Text → ℤ
  fmt16 : F → Text
  float : Text → F
  /-- `f"{real_part}{sign}{imag_part}i"` -/
  complexText : F → F → Text

/-- `_format_tfs_header_value`: token and text. -/
def formatHeader (N : HeaderNumbers) : Attr N.F → Text × Text
  | .none => ("%s".toList, "null".toList)
  | .bool b => ("%b".toList, if b then ['1'] else ['0'])
  | .int n => ("%d".toList, N.decimal n)
  | .flt x => ("%le".toList, N.fmt16 x)
  | .complex re im => ("%lz".toList, N.complexText re im)
  | .str s => if ' ' ∈ s then ("%s".toList, '"' :: (s ++ ['"'])) else ("%s".toList, s)
  | .json p => ("%s".toList, '"' :: (p ++ ['"']))

/-- `f"{s:<{w}}"` -/
def pad (w : ℕ) (s : Text) : Text := s ++ List.replicate (w - s.length) ' '

/-- The line of an attribute. -/
def headerLine (N : HeaderNumbers) (nameWidth tokenWidth : ℕ) (name : Text) (v : Attr N.F) : Text :=
  '@' :: ' ' :: (pad nameWidth (name.map Char.toUpper) ++ ' ' :: (pad tokenWidth (formatHeader N v).1 ++ ' ' :: (formatHeader N v).2))

def notWs (c : Char) : Bool := !isWs c

/-- `split(None, 2)` if it has three parts. -/
def splitThree (t : Text) : Option (Text × Text × Text) :=
  let t1 := t.dropWhile isWs
  let t2 := (t1.dropWhile notWs).dropWhile isWs
  let t3 := (t2.dropWhile notWs).dropWhile isWs
  if t3 = [] then none else some (t1.takeWhile notWs, t2.takeWhile notWs, t3)

/-- `str.strip` -/
def strip (t : Text) : Text := (((t.dropWhile isWs).reverse).dropWhile isWs).reverse

/-- `_strip_outer_quotes`, lines 80-83. -/
def stripQuotes (t : Text) : Text :=
  if t.length ≥ 2 ∧ t.head? = t.getLast? ∧ (t.head? = some '"' ∨ t.head? = some '\'') then t.tail.dropLast else t

/-- `_convert_header_value`, lines 86-122; not modelled: texts which are not of the form of the token. -/
def convertHeader (N : HeaderNumbers) (token raw : Text) : Attr N.F :=
  let value := strip raw
  let lower := value.map Char.toLower
  if lower = "null".toList then .none
  else
    let letters := (token.map Char.toLower).filter Char.isAlpha
    if letters.getLast? = some 'b' then .bool (lower = "true".toList ∨ lower = ['t'] ∨ lower = "yes".toList ∨ lower = ['y'] ∨ lower = ['1'])
    else if letters.getLast? = some 'd' ∨ letters.getLast? = some 'i' then .int (N.readInt value)
    else if letters.getLast? = some 'e' ∨ letters.getLast? = some 'f' ∨ letters.getLast? = some 'g' then .flt (N.float value)
    else .str (stripQuotes value)

/-- `_parse_headers` for one line, lines 125-138, and the name in lower case (line 1912). -/
def parseHeader (N : HeaderNumbers) (line : Text) : Option (Text × Attr N.F) :=
  match line with
  | '@' :: rest =>
    match splitThree rest with
    | some (name, token, raw) => some (name.map Char.toLower, convertHeader N token raw)
    | Option.none => Option.none
  | _ => Option.none

/-- Name and value of a line after `from_tfs`; the JSON texts are marked in the metadata (lines 1606-1608, 1925-1936). -/
def readHeader (N : HeaderNumbers) (isJson : Bool) (line : Text) : Option (Text × Attr N.F) :=
  (parseHeader N line).map fun p => match isJson, p.2 with
    | true, .str s => (p.1, .json s)
    | _, v => (p.1, v)

def Attr.isJson {F : Type} : Attr F → Bool
  | .json _ => true
  | .none => true
  | _ => false

/-! ## Specification -/

/-- Letters of names of attributes. -/
abbrev nameChars : Text := "abcdefghijklmnopqrstuvwxyz0123456789_".toList

/-- A text which stands for itself: not empty, no spaces at the ends, not `null`, no quotes around. -/
def Bare (s : Text) : Prop :=
  s ≠ [] ∧ (∀ c, s.head? = some c → isWs c = false) ∧ (∀ c, s.getLast? = some c → isWs c = false)
    ∧ s.map Char.toLower ≠ "null".toList ∧ stripQuotes s = s

/-- A text of a number. -/
def NumText (t : Text) : Prop := t ≠ [] ∧ (∀ c ∈ t, isWs c = false) ∧ t.map Char.toLower ≠ "null".toList

/-- Values which can be saved in the header: texts with spaces, or bare; integers; floats with 16 digits. -/
def Attr.Ok (N : HeaderNumbers) : Attr N.F → Prop
  | .none => True
  | .bool _ => True
  | .int n => NumText (N.decimal n) ∧ N.readInt (N.decimal n) = n
  | .flt x => NumText (N.fmt16 x) ∧ N.float (N.fmt16 x) = x
  | .complex _ _ => False
  | .str s => ' ' ∈ s ∨ Bare s
  | .json _ => True

/-! ## Proofs -/

theorem upper_ok : ∀ c ∈ nameChars, isWs c.toUpper = false ∧ c.toUpper.toLower = c := by decide

theorem drop_ws (n : ℕ) (t : Text) : (List.replicate n ' ' ++ t).dropWhile isWs = t.dropWhile isWs := by
  induction n with
  | zero => rfl
  | succ n ih => rw [List.replicate_succ, List.cons_append, List.dropWhile_cons_of_pos (by decide), ih]

theorem take_word (w t : Text) (hw : ∀ c ∈ w, isWs c = false) :
    (w ++ ' ' :: t).takeWhile notWs = w ∧ (w ++ ' ' :: t).dropWhile notWs = ' ' :: t := by
  induction w with
  | nil => constructor <;> simp [notWs, isWs]
  | cons c w ih =>
    have hc : notWs c = true := by simp [notWs, hw c (by simp)]
    obtain ⟨h1, h2⟩ := ih fun d hd => hw d (by simp [hd])
    rw [List.cons_append, List.takeWhile_cons_of_pos hc, List.dropWhile_cons_of_pos hc, h1, h2]
    exact ⟨rfl, rfl⟩

theorem drop_self {t : Text} {c : Char} (h : t.head? = some c) (hc : isWs c = false) : t.dropWhile isWs = t := by
  cases t with
  | nil => simp at h
  | cons d t => simp only [List.head?_cons, Option.some.injEq] at h; subst h; rw [List.dropWhile_cons_of_neg (by simp [hc])]

theorem pad_space (w : ℕ) (s t : Text) : pad w s ++ ' ' :: t = s ++ ' ' :: (List.replicate (w - s.length) ' ' ++ t) := by
  have h : ∀ n : ℕ, List.replicate n ' ' ++ ' ' :: t = ' ' :: (List.replicate n ' ' ++ t) := by
    intro n
    induction n with
    | zero => rfl
    | succ n ih => rw [List.replicate_succ, List.cons_append, ih, List.cons_append]
  unfold pad
  rw [List.append_assoc, h]

theorem splitThree_line (w1 w2 : ℕ) (name token raw : Text) (hn : name ≠ []) (ht : token ≠ []) (hn' : ∀ c ∈ name, isWs c = false)
    (ht' : ∀ c ∈ token, isWs c = false) :
    splitThree (' ' :: (pad w1 name ++ ' ' :: (pad w2 token ++ ' ' :: raw)))
      = if raw.dropWhile isWs = [] then none else some (name, token, raw.dropWhile isWs) := by
  have e1 : pad w1 name ++ ' ' :: (pad w2 token ++ ' ' :: raw)
      = name ++ ' ' :: (List.replicate (w1 - name.length) ' ' ++ (pad w2 token ++ ' ' :: raw)) :=
    pad_space w1 name _
  have e2 : pad w2 token ++ ' ' :: raw = token ++ ' ' :: (List.replicate (w2 - token.length) ' ' ++ raw) :=
    pad_space w2 token _
  obtain ⟨a, name', rfl⟩ := List.exists_cons_of_ne_nil hn
  obtain ⟨b, token', rfl⟩ := List.exists_cons_of_ne_nil ht
  have ha := hn' a (by simp)
  have hb := ht' b (by simp)
  have s1 : (' ' :: (pad w1 (a :: name') ++ ' ' :: (pad w2 (b :: token') ++ ' ' :: raw))).dropWhile isWs
      = (a :: name') ++ ' ' :: (List.replicate (w1 - (a :: name').length) ' ' ++ (pad w2 (b :: token') ++ ' ' :: raw)) := by
    rw [List.dropWhile_cons_of_pos (by decide), e1]
    exact drop_self (c := a) rfl ha
  have s2 : (' ' :: (List.replicate (w1 - (a :: name').length) ' ' ++ (pad w2 (b :: token') ++ ' ' :: raw))).dropWhile isWs
      = (b :: token') ++ ' ' :: (List.replicate (w2 - (b :: token').length) ' ' ++ raw) := by
    rw [List.dropWhile_cons_of_pos (by decide), drop_ws, e2]
    exact drop_self (c := b) rfl hb
  have s3 : (' ' :: (List.replicate (w2 - (b :: token').length) ' ' ++ raw)).dropWhile isWs = raw.dropWhile isWs := by
    rw [List.dropWhile_cons_of_pos (by decide), drop_ws]
  unfold splitThree
  simp only
  rw [s1, (take_word _ _ hn').1, (take_word _ _ hn').2, s2, (take_word _ _ ht').1, (take_word _ _ ht').2, s3]

theorem strip_self {t : Text} (h0 : t ≠ []) (h1 : ∀ c, t.head? = some c → isWs c = false) (h2 : ∀ c, t.getLast? = some c → isWs c = false) :
    t.dropWhile isWs = t ∧ strip t = t := by
  obtain ⟨a, t', rfl⟩ := List.exists_cons_of_ne_nil h0
  have e := drop_self (t := a :: t') (c := a) rfl (h1 a rfl)
  refine ⟨e, ?_⟩
  unfold strip
  rw [e]
  have hl : ((a :: t').reverse).head? = (a :: t').getLast? := List.head?_reverse
  obtain ⟨c, hc⟩ : ∃ c, (a :: t').getLast? = some c := ⟨_, List.getLast?_eq_some_getLast (by simp)⟩
  rw [drop_self (by rw [hl]; exact hc) (h2 c hc), List.reverse_reverse]

theorem quoted_facts (s : Text) : (∀ c, ('"' :: (s ++ ['"'])).head? = some c → isWs c = false)
    ∧ (∀ c, ('"' :: (s ++ ['"'])).getLast? = some c → isWs c = false)
    ∧ ('"' :: (s ++ ['"'])).map Char.toLower ≠ "null".toList ∧ stripQuotes ('"' :: (s ++ ['"'])) = s := by
  have hl : ('"' :: (s ++ ['"'])).getLast? = some '"' := by
    rw [← List.cons_append, List.getLast?_concat]
  refine ⟨?_, ?_, ?_, ?_⟩
  · intro c hc
    simp only [List.head?_cons, Option.some.injEq] at hc
    subst hc; decide
  · intro c hc
    rw [hl, Option.some.injEq] at hc
    subst hc; decide
  · intro h
    have := congrArg List.head? h
    simp at this
  · unfold stripQuotes
    rw [if_pos ⟨by simp, by rw [hl]; rfl, Or.inl rfl⟩]
    simp

/-- **C117, partial.**  An attribute which is saved in the header of a TFS file comes back with its name and its value.  Missing: complex
numbers, floats with more than 16 digits, and some texts. -/
theorem C117_header_partial (N : HeaderNumbers) (w1 w2 : ℕ) (name : Text) (hn : name ≠ []) (hname : ∀ c ∈ name, c ∈ nameChars)
    (v : Attr N.F) (h : v.Ok N) : readHeader N v.isJson (headerLine N w1 w2 name v) = some (name, v) := by
  have hup : ∀ c ∈ name.map Char.toUpper, isWs c = false := by
    intro c hc
    obtain ⟨d, hd, rfl⟩ := List.mem_map.mp hc
    exact (upper_ok d (hname d hd)).1
  have hlow : (name.map Char.toUpper).map Char.toLower = name := by
    rw [List.map_map]
    conv_rhs => rw [← List.map_id name]
    apply List.map_congr_left
    intro c hc
    exact (upper_ok c (hname c hc)).2
  have key : ∀ (token raw : Text) (r : Attr N.F), token ≠ [] → (∀ c ∈ token, isWs c = false) → raw ≠ [] →
      (∀ c, raw.head? = some c → isWs c = false) → formatHeader N v = (token, raw) → convertHeader N token raw = r →
      parseHeader N (headerLine N w1 w2 name v) = some (name, r) := by
    intro token raw r ht ht' hr hr1 hf hc
    unfold headerLine parseHeader
    rw [hf]
    simp only
    obtain ⟨a, raw', rfl⟩ := List.exists_cons_of_ne_nil hr
    have e := drop_self (t := a :: raw') (c := a) rfl (hr1 a rfl)
    rw [splitThree_line w1 w2 _ token (a :: raw') (by simpa using hn) ht hup ht', e, if_neg (by simp)]
    simp only
    rw [hlow, hc]
  have num : ∀ {t : Text}, NumText t → t ≠ [] ∧ (∀ c, t.head? = some c → isWs c = false) ∧ strip t = t := by
    intro t ht
    have h1 : ∀ c, t.head? = some c → isWs c = false := fun c hc => ht.2.1 c (List.mem_of_head? hc)
    exact ⟨ht.1, h1, (strip_self ht.1 h1 fun c hc => ht.2.1 c (List.mem_of_getLast? hc)).2⟩
  unfold readHeader
  cases v with
  | none =>
    rw [key "%s".toList "null".toList .none (by decide) (by decide) (by decide) (by simp [isWs, isBreak]) rfl (by
      unfold convertHeader; rw [if_pos (by decide)])]
    rfl
  | bool b =>
    cases b
    · rw [key "%b".toList ['0'] (.bool false) (by decide) (by decide) (by decide) (by simp [isWs, isBreak]) rfl (by
        unfold convertHeader
        have e : strip ['0'] = ['0'] := by decide
        simp only [e]
        rw [if_neg (by decide), if_pos (by decide)]
        congr 1)]
      rfl
    · rw [key "%b".toList ['1'] (.bool true) (by decide) (by decide) (by decide) (by simp [isWs, isBreak]) rfl (by
        unfold convertHeader
        have e : strip ['1'] = ['1'] := by decide
        simp only [e]
        rw [if_neg (by decide), if_pos (by decide)]
        congr 1)]
      rfl
  | int n =>
    obtain ⟨h1, h2⟩ := h
    obtain ⟨g1, g2, g3⟩ := num h1
    rw [key "%d".toList (N.decimal n) (.int n) (by decide) (by decide) g1 g2 rfl (by
      unfold convertHeader
      simp only [g3]
      rw [if_neg h1.2.2, if_neg (by decide), if_pos (by decide), h2])]
    rfl
  | flt x =>
    obtain ⟨h1, h2⟩ := h
    obtain ⟨g1, g2, g3⟩ := num h1
    rw [key "%le".toList (N.fmt16 x) (.flt x) (by decide) (by decide) g1 g2 rfl (by
      unfold convertHeader
      simp only [g3]
      rw [if_neg h1.2.2, if_neg (by decide), if_neg (by decide), if_pos (by decide), h2])]
    rfl
  | complex re im => exact absurd h id
  | str s =>
    by_cases hs : ' ' ∈ s
    · obtain ⟨q1, q2, q3, q4⟩ := quoted_facts s
      rw [key "%s".toList ('"' :: (s ++ ['"'])) (.str s) (by decide) (by decide) (by simp) q1 (by simp [formatHeader, hs]) (by
        unfold convertHeader
        simp only [(strip_self (by simp) q1 q2).2]
        rw [if_neg q3, if_neg (by decide), if_neg (by decide), if_neg (by decide), q4])]
      rfl
    · obtain ⟨b1, b2, b3, b4, b5⟩ := Or.resolve_left h hs
      rw [key "%s".toList s (.str s) (by decide) (by decide) b1 b2 (by simp [formatHeader, hs]) (by
        unfold convertHeader
        simp only [(strip_self b1 b2 b3).2]
        rw [if_neg b4, if_neg (by decide), if_neg (by decide), if_neg (by decide), b5])]
      rfl
  | json p =>
    obtain ⟨q1, q2, q3, q4⟩ := quoted_facts p
    rw [key "%s".toList ('"' :: (p ++ ['"'])) (.str p) (by decide) (by decide) (by simp) q1 rfl (by
      unfold convertHeader
      simp only [(strip_self (by simp) q1 q2).2]
      rw [if_neg q3, if_neg (by decide), if_neg (by decide), if_neg (by decide), q4])]
    rfl

/-- Texts to which the theorem applies. -/
example : Bare "b2".toList := by
  refine ⟨by decide, ?_, ?_, by decide, by decide⟩ <;> (intro c hc; simp at hc; subst hc; decide)

/-- **C117, violation.**  A complex attribute comes back as a text. -/
theorem C117_complex_violated (N : HeaderNumbers) (w1 w2 : ℕ) (re im : N.F) (h : NumText (N.complexText re im))
    (hq : stripQuotes (N.complexText re im) = N.complexText re im) :
    readHeader N false (headerLine N w1 w2 "z".toList (.complex re im)) = some ("z".toList, .str (N.complexText re im)) := by
  have h1 : ∀ c, (N.complexText re im).head? = some c → isWs c = false := fun c hc => h.2.1 c (List.mem_of_head? hc)
  obtain ⟨e1, e2⟩ := strip_self h.1 h1 fun c hc => h.2.1 c (List.mem_of_getLast? hc)
  unfold readHeader headerLine parseHeader
  simp only [formatHeader]
  rw [splitThree_line w1 w2 _ _ _ (by decide) (by decide) (by decide) (by decide), e1, if_neg h.1]
  simp only [Option.map_some]
  unfold convertHeader
  simp only [e2]
  rw [if_neg h.2.2, if_neg (by decide), if_neg (by decide), if_neg (by decide), hq]
  rfl

/-- **C117, violation.**  An empty text is lost, the text `null` comes back as `None`, quotes around a text are lost. -/
theorem C117_text_violated (N : HeaderNumbers) :
    readHeader N false (headerLine N 0 0 "a".toList (.str [])) = Option.none
      ∧ readHeader N false (headerLine N 0 0 "a".toList (.str "null".toList)) = some ("a".toList, .none)
      ∧ readHeader N false (headerLine N 0 0 "a".toList (.str "'b'".toList)) = some ("a".toList, .str "b".toList) := by
  refine ⟨?_, ?_, ?_⟩ <;>
  · unfold readHeader headerLine parseHeader
    simp only [formatHeader]
    rw [if_neg (by decide)]
    simp only
    rw [splitThree_line 0 0 _ _ _ (by decide) (by decide) (by decide) (by decide)]
    first
      | (rw [if_pos (by decide)]; rfl)
      | (rw [if_neg (by decide)]; simp only [Option.map_some]; unfold convertHeader; simp only
         first
           | (rw [if_pos (by decide)]; rfl)
           | (rw [if_neg (by decide), if_neg (by decide), if_neg (by decide), if_neg (by decide)]; rfl))

/-- Rounding of a positive integer to this many decimal digits, halves to even, as in `f"{x:.16g}"`. -/
def roundSig (digits n : ℕ) : ℕ :=
  let unit := 10 ^ (Nat.log 10 n + 1 - digits)
  let q := n / unit
  let r := n % unit
  if 2 * r > unit ∨ (2 * r = unit ∧ q % 2 = 1) then (q + 1) * unit else q * unit

/-- **C117, violation.**  Floats are written with 16 digits, which is not enough: `10^16 + 2`, a double precision number, comes back as `10^16`. -/
theorem C117_float_violated (N : HeaderNumbers) (ofNat : ℕ → N.F) (hfmt : ∀ n, N.float (N.fmt16 (ofNat n)) = ofNat (roundSig 16 n))
    (htxt : ∀ x, NumText (N.fmt16 x)) :
    readHeader N false (headerLine N 0 0 "a".toList (.flt (ofNat (10 ^ 16 + 2)))) = some ("a".toList, .flt (ofNat (10 ^ 16))) := by
  have h := htxt (ofNat (10 ^ 16 + 2))
  have h1 : ∀ c, (N.fmt16 (ofNat (10 ^ 16 + 2))).head? = some c → isWs c = false := fun c hc => h.2.1 c (List.mem_of_head? hc)
  obtain ⟨e1, e2⟩ := strip_self h.1 h1 fun c hc => h.2.1 c (List.mem_of_getLast? hc)
  have hr : roundSig 16 (10 ^ 16 + 2) = 10 ^ 16 := by
    have hlog : Nat.log 10 (10 ^ 16 + 2) = 16 := by
      rw [Nat.log_eq_iff (Or.inl (by norm_num))]; constructor <;> decide
    simp only [roundSig, hlog]
    decide
  unfold readHeader headerLine parseHeader
  simp only [formatHeader]
  rw [splitThree_line 0 0 _ _ _ (by decide) (by decide) (by decide) (by decide), e1, if_neg h.1]
  simp only [Option.map_some]
  unfold convertHeader
  simp only [e2]
  rw [if_neg h.2.2, if_neg (by decide), if_neg (by decide), if_pos (by decide), hfmt, hr]
  rfl

end Verif.Tables
