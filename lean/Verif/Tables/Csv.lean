import Mathlib.Data.List.Basic
import Mathlib.Data.List.Forall2
import Mathlib.Tactic.Push
import Mathlib.Tactic.SplitIfs
import Mathlib.Tactic.Ring

/-!
# Tables saved as CSV (C115)

Modelled: `/repo/xtrack/table.py`: `_serialize_csv_value` (lines 713-725), `_cast_csv_column` (lines 727-784), the text written by `to_csv`
(lines 1292-1337) and read by `from_csv` (lines 1340-1431), on the level of characters.  Of the Python library: `csv.writer`
and `csv.reader` with their default dialect, `str.splitlines`, `str.strip`.  The texts of numbers (`str` of an integer, `repr` of a
float, `float` of a text) are a parameter with laws.  Simplified: the text of a bool is read in any case of letters; an integer
column with missing values becomes a float column (not modelled, such columns cannot be saved as integers); columns
with lists in JSON are left out, and so are complex columns.
-/

namespace Verif.Tables

abbrev Text := List Char

/-! ## Python's `csv` -/

/-- `csv.writer` puts quotes around a field if it contains one of these. -/
def special (c : Char) : Bool := c = ',' || c = '"' || c = '\n' || c = '\r'

/-- A quote is doubled. -/
def escape (f : Text) : Text := f.flatMap fun c => if c = '"' then ['"', '"'] else [c]

def writeField (f : Text) : Text := if f.any special then '"' :: (escape f ++ ['"']) else f

/-- A row; the row of one empty field is written with quotes. -/
def writeRow (fs : List Text) : Text := if fs = [[]] then ['"', '"'] else [','].intercalate (fs.map writeField)

/-- States of `csv.reader`: start of a field, in a field, in a field with quotes, after a quote in such a field. -/
inductive St where
  | start
  | field
  | quoted
  | quote
deriving DecidableEq

/-- `csv.reader` on a text whose lines end with `\n`: state, field and row read so far. -/
def readRows : St → Text → List Text → Text → List (List Text)
  | st, cur, row, [] => if st = .start ∧ row = [] then [] else [row ++ [cur]]
  | .start, _, row, c :: cs =>
    if c = '"' then readRows .quoted [] row cs
    else if c = ',' then readRows .start [] (row ++ [[]]) cs
    else if c = '\n' then (if row = [] then [] else row ++ [[]]) :: readRows .start [] [] cs
    else readRows .field [c] row cs
  | .field, cur, row, c :: cs =>
    if c = ',' then readRows .start [] (row ++ [cur]) cs
    else if c = '\n' then (row ++ [cur]) :: readRows .start [] [] cs
    else readRows .field (cur ++ [c]) row cs
  | .quoted, cur, row, c :: cs => if c = '"' then readRows .quote cur row cs else readRows .quoted (cur ++ [c]) row cs
  | .quote, cur, row, c :: cs =>
    if c = '"' then readRows .quoted (cur ++ ['"']) row cs
    else if c = ',' then readRows .start [] (row ++ [cur]) cs
    else if c = '\n' then (row ++ [cur]) :: readRows .start [] [] cs
    else readRows .field (cur ++ [c]) row cs

/-- Characters at which `str.splitlines` splits. -/
def isBreak (c : Char) : Bool :=
  c = '\n' || c = '\r' || c = '\x0b' || c = '\x0c' || c = '\x1c' || c = '\x1d' || c = '\x1e' || c = '\u0085' || c = '\u2028' || c = '\u2029'

/-- `str.splitlines`; `acc` is the line so far. -/
def splitlines : Text → Text → List Text
  | acc, [] => if acc = [] then [] else [acc]
  | acc, '\r' :: '\n' :: cs => acc :: splitlines [] cs
  | acc, c :: cs => if isBreak c then acc :: splitlines [] cs else splitlines (acc ++ [c]) cs

/-- White space for `str.strip` (of ASCII, and the line breaks). -/
def isWs (c : Char) : Bool := c = ' ' || c = '\t' || isBreak c || c = '\x1f'

/-- Lines which `from_csv` takes as data, lines 1366-1379: those which are not blank and do not start with `#` after `strip`. -/
def isData (l : Text) : Bool :=
  match l.dropWhile isWs with
  | [] => false
  | c :: _ => c ≠ '#'

/-! ## Values and columns -/

/-- Texts of numbers in Python.  `F` are the floating point numbers. -/
structure Numbers where
  F : Type
  nan : F
  /-- `repr(x)` -/
  repr : F → Text
  /-- `float(text)` -/
  float : Text → F
  /-- `str(n)` -/
  decimal : ℤ → Text
  /-- `int(x)` -/
  int : F → ℤ

/-- The value of a cell. -/
inductive Cell (F : Type) where
  | str (s : Text)
  | int (n : ℤ)
  | flt (x : F)
  | bool (b : Bool)
  | none

/-- Kinds of numpy types: strings and objects, integers, floats, bools. -/
inductive Kind where
  | text
  | int
  | flt
  | bool
deriving DecidableEq

/-- `_serialize_csv_value` and the text which `csv.writer` makes of it. -/
def cellText (N : Numbers) [DecidableEq N.F] : Cell N.F → Text
  | .str s => s
  | .int n => N.decimal n
  | .flt x => if x = N.nan then "nan".toList else N.repr x
  | .bool b => if b then "True".toList else "False".toList
  | .none => "null".toList

/-- Missing numbers, `val in ('', None) or val.lower() in ('nan', 'null')`. -/
def missing (t : Text) : Bool := t = [] || t.map Char.toLower = "nan".toList || t.map Char.toLower = "null".toList

/-- `_cast_csv_column` for one value; `none` is an exception. -/
def cast (N : Numbers) (k : Kind) (t : Text) : Option (Cell N.F) :=
  match k with
  | .text => some (.str t)
  | .int => if missing t then some (.flt N.nan) else some (.int (N.int (N.float t)))
  | .flt => if missing t then some (.flt N.nan) else some (.flt (N.float t))
  | .bool =>
    let l := t.map Char.toLower
    if l = "true".toList ∨ l = "1".toList ∨ l = "yes".toList then some (.bool true)
    else if l = "false".toList ∨ l = "0".toList ∨ l = "no".toList ∨ l = [] then some (.bool false)
    else none

/-- A table: names and kinds of the columns, and rows. -/
structure Tab (F : Type) where
  names : List Text
  kinds : List Kind
  rows : List (List (Cell F))

/-- The lines written by `to_csv`: comments end with `\n`, the lines of `csv.writer` with `\r\n`. -/
def csvText (N : Numbers) [DecidableEq N.F] (comments : List Text) (t : Tab N.F) : Text :=
  comments.flatMap (fun c => '#' :: (c ++ ['\n']))
    ++ (t.names :: t.rows.map (fun r => r.map (cellText N))).flatMap fun fs => writeRow fs ++ ['\r', '\n']

/-- One row of texts to cells, lines 1395-1401 and 1406-1421. -/
def castRow (N : Numbers) (kinds : List Kind) (fs : List Text) : Option (List (Cell N.F)) :=
  if fs.length > kinds.length then none
  else (kinds.zip (fs ++ List.replicate (kinds.length - fs.length) [])).mapM fun kf => cast N kf.1 kf.2

/-- `from_csv`; the kinds are those in the comments. -/
def fromCsv (N : Numbers) (kinds : List Kind) (text : Text) : Option (Tab N.F) :=
  match readRows .start [] [] (['\n'].intercalate ((splitlines [] text).filter isData)) with
  | [] => none
  | names :: rows => (rows.mapM (castRow N kinds)).map fun r => ⟨names, kinds, r⟩

/-! ## Specification -/

/-- Integers which a double precision number can hold next to their neighbours. -/
def Small (n : ℤ) : Prop := |n| ≤ 2 ^ 53

/-- What Python guarantees about texts of numbers. -/
structure Numbers.Lawful (N : Numbers) : Prop where
  /-- `float(repr(x)) == x` -/
  float_repr : ∀ x, x ≠ N.nan → N.float (N.repr x) = x
  int_exact : ∀ n, Small n → N.int (N.float (N.decimal n)) = n
  repr_some : ∀ x, missing (N.repr x) = false ∨ x = N.nan
  decimal_some : ∀ n, missing (N.decimal n) = false
  repr_plain : ∀ x, ∀ c ∈ N.repr x, isBreak c = false
  decimal_plain : ∀ n, ∀ c ∈ N.decimal n, isBreak c = false

/-- The cell is a value of the kind. -/
def Cell.Of {F : Type} : Kind → Cell F → Prop
  | .text, .str s => ∀ c ∈ s, isBreak c = false
  | .int, .int n => Small n
  | .flt, .flt _ => True
  | .bool, .bool _ => True
  | _, _ => False

/-- The row of texts is not taken for a comment or a blank line: its first field does not begin with `#` and
it is not a single blank field. -/
def FirstOk (fs : List Text) : Prop :=
  ∃ f rest, fs = f :: rest ∧ (∀ c cs, f.dropWhile isWs = c :: cs → c ≠ '#') ∧ (rest = [] → f = [] ∨ f.dropWhile isWs ≠ [])

/-- A table which can be saved. -/
structure Tab.Ok (N : Numbers) [DecidableEq N.F] (t : Tab N.F) : Prop where
  names : t.names.length = t.kinds.length
  names_plain : ∀ n ∈ t.names, ∀ c ∈ n, isBreak c = false
  names_first : FirstOk t.names
  rows : ∀ r ∈ t.rows, List.Forall₂ Cell.Of t.kinds r
  rows_first : ∀ r ∈ t.rows, FirstOk (r.map (cellText N))

/-! ## Proofs -/

theorem special_break {c : Char} (h : isBreak c = false) : c ≠ '\n' ∧ c ≠ '\r' := by
  constructor <;> (rintro rfl; simp [isBreak] at h)

/-- What follows a field. -/
def Ends (cs : Text) : Prop := cs = [] ∨ (∃ t, cs = ',' :: t) ∨ ∃ t, cs = '\n' :: t

/-- The reader at the end of a field. -/
def finish (cur : Text) (row : List Text) (cs : Text) : List (List Text) :=
  match cs with
  | [] => [row ++ [cur]]
  | c :: t => if c = ',' then readRows .start [] (row ++ [cur]) t else (row ++ [cur]) :: readRows .start [] [] t

theorem field_finish (cur : Text) (row : List Text) (cs : Text) (h : Ends cs) : readRows .field cur row cs = finish cur row cs := by
  rcases h with rfl | ⟨t, rfl⟩ | ⟨t, rfl⟩ <;> simp [readRows, finish]

theorem quote_finish (cur : Text) (row : List Text) (cs : Text) (h : Ends cs) : readRows .quote cur row cs = finish cur row cs := by
  rcases h with rfl | ⟨t, rfl⟩ | ⟨t, rfl⟩ <;> simp [readRows, finish]

theorem field_read (f : Text) : ∀ (cur : Text) (row : List Text) (cs : Text), (∀ c ∈ f, c ≠ ',' ∧ c ≠ '\n') →
    readRows .field cur row (f ++ cs) = readRows .field (cur ++ f) row cs := by
  induction f with
  | nil => intro cur row cs _; simp
  | cons c f ih =>
    intro cur row cs h
    have hc := h c (by simp)
    rw [List.cons_append, readRows, if_neg hc.1, if_neg hc.2, ih _ _ _ fun d hd => h d (by simp [hd])]
    simp

theorem quoted_read (f : Text) : ∀ (cur : Text) (row : List Text) (cs : Text),
    readRows .quoted cur row (escape f ++ '"' :: cs) = readRows .quote (cur ++ f) row cs := by
  induction f with
  | nil => intro cur row cs; simp [escape, readRows]
  | cons c f ih =>
    intro cur row cs
    have e : escape (c :: f) = (if c = '"' then ['"', '"'] else [c]) ++ escape f := by simp [escape]
    rw [e]
    by_cases hc : c = '"'
    · rw [if_pos hc]
      simp only [List.cons_append, List.nil_append]
      rw [readRows, if_pos rfl, readRows, if_pos rfl, ih, hc]
      simp
    · rw [if_neg hc]
      simp only [List.cons_append, List.nil_append]
      rw [readRows, if_neg hc, ih]
      simp

/-- Reading a field which was written; `hne` : not an empty field at the start of the end. -/
theorem writeField_read (f : Text) (row : List Text) (cs : Text) (h : Ends cs) (hne : f = [] → row ≠ [] ∨ ∃ t, cs = ',' :: t) :
    readRows .start [] row (writeField f ++ cs) = finish f row cs := by
  unfold writeField
  split_ifs with hs
  · simp only [List.cons_append, List.append_assoc, List.singleton_append]
    rw [readRows, if_pos rfl, quoted_read]
    exact quote_finish _ _ _ h
  · cases f with
    | nil =>
      rcases h with rfl | ⟨t, rfl⟩ | ⟨t, rfl⟩
      · have := (hne rfl).resolve_right (by simp); simp [readRows, finish, this]
      · simp [readRows, finish]
      · have := (hne rfl).resolve_right (by simp); simp [readRows, finish, this]
    | cons c f =>
      have hall : ∀ d ∈ c :: f, special d = false := by
        intro d hd
        by_contra hc
        exact hs (List.any_eq_true.mpr ⟨d, hd, by simpa using hc⟩)
      have hc := hall c (by simp)
      simp only [special, Bool.or_eq_false_iff, decide_eq_false_iff_not] at hc
      rw [List.cons_append, readRows, if_neg hc.1.1.2, if_neg hc.1.1.1, if_neg hc.1.2, field_read, field_finish _ _ _ h]
      · rfl
      · intro d hd
        have := hall d (by simp [hd])
        simp only [special, Bool.or_eq_false_iff, decide_eq_false_iff_not] at this
        exact ⟨this.1.1.1, this.1.2⟩

/-- What the reader does after the end of a row. -/
def after : Text → List (List Text)
  | [] => []
  | _ :: t => readRows .start [] [] t

theorem fields_read (fs : List Text) : ∀ (f : Text) (row : List Text) (cs : Text), (cs = [] ∨ ∃ t, cs = '\n' :: t) →
    (row = [] → fs = [] → f ≠ []) →
    readRows .start [] row ([','].intercalate ((f :: fs).map writeField) ++ cs)
      = (row ++ f :: fs) :: after cs := by
  induction fs with
  | nil =>
    intro f row cs hcs hne
    simp only [List.map_cons, List.map_nil, List.intercalate_singleton]
    rw [writeField_read]
    · rcases hcs with rfl | ⟨t, rfl⟩ <;> simp [finish, after]
    · rcases hcs with rfl | ⟨t, rfl⟩
      · exact Or.inl rfl
      · exact Or.inr (Or.inr ⟨t, rfl⟩)
    · intro hf
      left
      intro hr
      exact hne hr rfl hf
  | cons g fs ih =>
    intro f row cs hcs hne
    have e : [','].intercalate ((f :: g :: fs).map writeField) ++ cs
        = writeField f ++ ',' :: ([','].intercalate ((g :: fs).map writeField) ++ cs) := by
      simp [List.intercalate_cons_cons]
    rw [e, writeField_read _ _ _ (Or.inr (Or.inl ⟨_, rfl⟩)) fun _ => Or.inr ⟨_, rfl⟩]
    simp only [finish, if_true]
    rw [ih g (row ++ [f]) cs hcs (by simp)]
    simp

/-- A row which was written is read. -/
theorem row_read (fs : List Text) (hfs : fs ≠ []) (cs : Text) (hcs : cs = [] ∨ ∃ t, cs = '\n' :: t) :
    readRows .start [] [] (writeRow fs ++ cs) = fs :: after cs := by
  unfold writeRow
  split_ifs with h
  · subst h
    rcases hcs with rfl | ⟨t, rfl⟩ <;> simp [readRows, after]
  · cases fs with
    | nil => exact absurd rfl hfs
    | cons f fs =>
      rw [fields_read fs f [] cs hcs (by rintro _ rfl rfl; exact h rfl)]
      simp

theorem rows_read (rs : List (List Text)) (h : ∀ r ∈ rs, r ≠ []) :
    readRows .start [] [] (['\n'].intercalate (rs.map writeRow)) = rs := by
  induction rs with
  | nil => simp [readRows]
  | cons r rs ih =>
    have ih := ih fun r' hr => h r' (by simp [hr])
    cases rs with
    | nil =>
      have := row_read r (h r (by simp)) [] (Or.inl rfl)
      simpa [after] using this
    | cons r' rs =>
      have e : ['\n'].intercalate ((r :: r' :: rs).map writeRow)
          = writeRow r ++ '\n' :: ['\n'].intercalate ((r' :: rs).map writeRow) := by
        simp [List.intercalate_cons_cons]
      rw [e, row_read r (h r (by simp)) _ (Or.inr ⟨_, rfl⟩), after, ih]

theorem splitlines_line (l : Text) : ∀ (acc : Text) (cs : Text), (∀ c ∈ l, isBreak c = false) →
    splitlines acc (l ++ '\r' :: '\n' :: cs) = (acc ++ l) :: splitlines [] cs
      ∧ splitlines acc (l ++ '\n' :: cs) = (acc ++ l) :: splitlines [] cs := by
  induction l with
  | nil =>
    intro acc cs _
    constructor
    · simp [splitlines]
    · simp [splitlines, isBreak]
  | cons c l ih =>
    intro acc cs h
    have hc := h c (by simp)
    obtain ⟨i1, i2⟩ := ih (acc ++ [c]) cs fun d hd => h d (by simp [hd])
    have hr : c ≠ '\r' := (special_break hc).2
    constructor
    · rw [List.cons_append, splitlines, if_neg (by simp [hc]), i1]
      · simp
      · intro _ h1; exact absurd h1 hr
    · rw [List.cons_append, splitlines, if_neg (by simp [hc]), i2]
      · simp
      · intro _ h1; exact absurd h1 hr

theorem escape_plain {f : Text} (h : ∀ c ∈ f, isBreak c = false) : ∀ c ∈ escape f, isBreak c = false := by
  intro c hc
  simp only [escape, List.mem_flatMap] at hc
  obtain ⟨d, hd, hc⟩ := hc
  split_ifs at hc with hq
  · simp only [List.mem_cons, List.not_mem_nil, or_false, or_self] at hc
    subst hc; decide
  · simp only [List.mem_cons, List.not_mem_nil, or_false] at hc
    subst hc; exact h _ hd

theorem writeRow_plain {fs : List Text} (h : ∀ f ∈ fs, ∀ c ∈ f, isBreak c = false) : ∀ c ∈ writeRow fs, isBreak c = false := by
  have hf : ∀ f ∈ fs, ∀ c ∈ writeField f, isBreak c = false := by
    intro f hf c hc
    unfold writeField at hc
    split_ifs at hc
    · simp only [List.mem_cons, List.mem_append, List.not_mem_nil, or_false] at hc
      rcases hc with rfl | hc | rfl
      · decide
      · exact escape_plain (h f hf) c hc
      · decide
    · exact h f hf c hc
  intro c hc
  unfold writeRow at hc
  split_ifs at hc
  · simp only [List.mem_cons, List.not_mem_nil, or_false, or_self] at hc
    subst hc; decide
  · induction fs with
    | nil => simp at hc
    | cons f fs ih =>
      cases fs with
      | nil => simp only [List.map_cons, List.map_nil, List.intercalate_singleton] at hc; exact hf f (by simp) c hc
      | cons g fs =>
        simp only [List.map_cons, List.intercalate_cons_cons, List.mem_append, List.mem_cons, List.not_mem_nil, or_false] at hc
        rcases hc with (hc | rfl) | hc
        · exact hf f (by simp) c hc
        · decide
        · by_cases hg : g :: fs = [[]]
          · obtain ⟨rfl, rfl⟩ : g = [] ∧ fs = [] := by simpa using hg
            simp [writeField] at hc
          · exact ih (fun f' hf' => h f' (by simp [List.mem_cons.mp hf'])) (fun f' hf' => hf f' (by simp [List.mem_cons.mp hf'])) hg (by simpa using hc)

theorem isData_row (fs : List Text) (h : FirstOk fs) : isData (writeRow fs) = true := by
  obtain ⟨f, rest, rfl, h1, h2⟩ := h
  have key : ∀ tail : Text, (rest = [] → f ≠ []) → (rest = [] → tail = []) → (rest ≠ [] → ∃ t, tail = ',' :: t) →
      isData (writeField f ++ tail) = true := by
    intro tail hne ht0 ht1
    unfold writeField
    split_ifs with hs
    · simp [isData, isWs, isBreak]
    · unfold isData
      rw [List.dropWhile_append]
      by_cases he : (f.dropWhile isWs).isEmpty
      · rw [if_pos he]
        by_cases hr : rest = []
        · rcases h2 hr with h | h
          · exact absurd h (hne hr)
          · exact absurd (List.isEmpty_iff.mp he) h
        · obtain ⟨t, rfl⟩ := ht1 hr
          simp [isWs, isBreak]
      · rw [if_neg he]
        cases hd : f.dropWhile isWs with
        | nil => rw [hd] at he; simp at he
        | cons c cs => have := h1 c cs hd; simp [this]
  unfold writeRow
  split_ifs with he
  · simp [isData, isWs, isBreak]
  · cases rest with
    | nil =>
      have := key [] (by rintro - rfl; exact he rfl) (fun _ => rfl) (fun h => absurd rfl h)
      simpa using this
    | cons g rest =>
      have := key (',' :: [','].intercalate ((g :: rest).map writeField)) (by simp) (by simp) (fun _ => ⟨_, rfl⟩)
      simpa [List.intercalate_cons_cons] using this

theorem cast_text (N : Numbers) [DecidableEq N.F] (hN : N.Lawful) (k : Kind) (v : Cell N.F) (h : Cell.Of k v) :
    cast N k (cellText N v) = some v := by
  cases k <;> cases v <;> simp only [Cell.Of] at h
  · rfl
  · simp [cast, cellText, hN.decimal_some, hN.int_exact _ h]
  · rename_i x
    by_cases hx : x = N.nan
    · subst hx; simp [cast, cellText, missing]
    · have := (hN.repr_some x).resolve_right hx
      simp [cast, cellText, hx, this, hN.float_repr x hx]
  · rename_i b
    cases b <;> simp [cast, cellText] <;> decide

theorem castRow_text (N : Numbers) [DecidableEq N.F] (hN : N.Lawful) (kinds : List Kind) (r : List (Cell N.F))
    (h : List.Forall₂ Cell.Of kinds r) : castRow N kinds (r.map (cellText N)) = some r := by
  have hl := h.length_eq
  unfold castRow
  rw [if_neg (by simp [hl])]
  simp only [List.length_map, hl, Nat.sub_self, List.replicate_zero, List.append_nil]
  clear hl
  induction h with
  | nil => rfl
  | cons h _ ih => simp only [List.map_cons, List.zip_cons_cons, List.mapM_cons, cast_text N hN _ _ h, ih]; rfl

theorem cellText_plain (N : Numbers) [DecidableEq N.F] (hN : N.Lawful) (k : Kind) (v : Cell N.F) (h : Cell.Of k v) :
    ∀ c ∈ cellText N v, isBreak c = false := by
  cases k <;> cases v <;> simp only [Cell.Of] at h
  · exact h
  · exact hN.decimal_plain _
  · unfold cellText
    simp only
    split_ifs
    · decide
    · exact hN.repr_plain _
  · rename_i b; cases b <;> (simp only [cellText]; decide)

theorem of_mem {F : Type} {ks : List Kind} {r : List (Cell F)} (h : List.Forall₂ Cell.Of ks r) (v : Cell F) (hv : v ∈ r) :
    ∃ k, Cell.Of k v := by
  induction h with
  | nil => simp at hv
  | cons hkv _ ih =>
    rcases List.mem_cons.mp hv with rfl | hv
    · exact ⟨_, hkv⟩
    · exact ih hv

theorem splitlines_rows (rs : List (List Text)) (h : ∀ r ∈ rs, ∀ f ∈ r, ∀ c ∈ f, isBreak c = false) :
    splitlines [] (rs.flatMap fun fs => writeRow fs ++ ['\r', '\n']) = rs.map writeRow := by
  induction rs with
  | nil => simp [splitlines]
  | cons r rs ih =>
    have := (splitlines_line (writeRow r) [] (rs.flatMap fun fs => writeRow fs ++ ['\r', '\n'])
      (writeRow_plain (h r (by simp)))).1
    rw [List.flatMap_cons, List.append_assoc]
    simp only [List.cons_append, List.nil_append, List.map_cons] at this ⊢
    rw [this, ih fun r' hr => h r' (by simp [hr])]

theorem splitlines_comments (cm : List Text) (rest : Text) (h : ∀ l ∈ cm, ∀ c ∈ l, isBreak c = false) :
    splitlines [] (cm.flatMap (fun c => '#' :: (c ++ ['\n'])) ++ rest) = cm.map (fun c => '#' :: c) ++ splitlines [] rest := by
  induction cm with
  | nil => rfl
  | cons l cm ih =>
    have := (splitlines_line ('#' :: l) [] (cm.flatMap (fun c => '#' :: (c ++ ['\n'])) ++ rest)
      (by intro c hc
          rcases List.mem_cons.mp hc with rfl | hc
          · decide
          · exact h l (by simp) c hc)).2
    rw [List.flatMap_cons]
    simp only [List.cons_append, List.nil_append, List.append_assoc, List.map_cons] at this ⊢
    rw [this, ih fun r' hr => h r' (by simp [hr])]

/-- **C115, partial.**  A table which is saved as CSV and loaded has the same columns with the same values (floats exactly), whatever commas,
quotes, spaces there are in the texts.  Missing: integers beyond `2^53`, `None` and numbers in columns of objects, line breaks in texts, and
texts at the begin of a row which start with `#`. -/
theorem C115_csv_partial (N : Numbers) [DecidableEq N.F] (hN : N.Lawful) (comments : List Text)
    (hc : ∀ l ∈ comments, ∀ c ∈ l, isBreak c = false) (t : Tab N.F) (h : t.Ok N) :
    fromCsv N t.kinds (csvText N comments t) = some t := by
  have hplain : ∀ r ∈ t.names :: t.rows.map (fun r => r.map (cellText N)), ∀ f ∈ r, ∀ c ∈ f, isBreak c = false := by
    intro r hr
    rcases List.mem_cons.mp hr with rfl | hr
    · exact h.names_plain
    · obtain ⟨r', hr', rfl⟩ := List.mem_map.mp hr
      intro f hf
      obtain ⟨v, hv, rfl⟩ := List.mem_map.mp hf
      have hall := h.rows r' hr'
      obtain ⟨k, hk⟩ := of_mem hall v hv
      exact cellText_plain N hN k v hk
  have hfirst : ∀ r ∈ t.names :: t.rows.map (fun r => r.map (cellText N)), FirstOk r := by
    intro r hr
    rcases List.mem_cons.mp hr with rfl | hr
    · exact h.names_first
    · obtain ⟨r', hr', rfl⟩ := List.mem_map.mp hr
      exact h.rows_first r' hr'
  have hfil : ((t.names :: t.rows.map (fun r => r.map (cellText N))).map writeRow).filter isData
      = (t.names :: t.rows.map (fun r => r.map (cellText N))).map writeRow := by
    rw [List.filter_eq_self]
    intro l hl
    obtain ⟨r, hr, rfl⟩ := List.mem_map.mp hl
    exact isData_row r (hfirst r hr)
  have hcm : (comments.map (fun c => '#' :: c)).filter isData = [] := by
    rw [List.filter_eq_nil_iff]
    intro l hl
    obtain ⟨c, -, rfl⟩ := List.mem_map.mp hl
    simp [isData, isWs, isBreak]
  have hread : readRows .start [] [] (['\n'].intercalate ((splitlines [] (csvText N comments t)).filter isData))
      = t.names :: t.rows.map (fun r => r.map (cellText N)) := by
    unfold csvText
    rw [splitlines_comments _ _ hc, splitlines_rows _ hplain, List.filter_append, hcm, List.nil_append, hfil, rows_read]
    intro r hr
    obtain ⟨f, rest, rfl, -⟩ := hfirst r hr
    simp
  unfold fromCsv
  rw [hread]
  simp only
  have : (t.rows.map fun r => r.map (cellText N)).mapM (castRow N t.kinds) = some t.rows := by
    have hr := h.rows
    generalize t.rows = rs at hr
    clear hfil hread hplain hfirst
    induction rs with
    | nil => rfl
    | cons r rs ih =>
      simp only [List.map_cons, List.mapM_cons, castRow_text N hN t.kinds r (hr r (by simp)), ih fun r' h' => hr r' (by simp [h'])]
      rfl
  rw [this]
  rfl

/-! ## Witness of the laws, and violations -/

/-- Rounding of an integer to a double precision number, as far as `2^54`: to even beyond `2^53`. -/
def toDouble (n : ℤ) : ℤ := if |n| ≤ 2 ^ 53 then n else if n % 4 = 1 then n - 1 else if n % 4 = 3 then n + 1 else n

/-- Numbers with simple texts: `f`, `-` and strokes for a float, strokes for an integer; all floats are integers, -1000 is nan. -/
def strokes (n : ℤ) : Text := (if n < 0 then ['-'] else ['+']) ++ List.replicate n.natAbs '1'

def unstroke (t : Text) : ℤ := if t.head? = some '-' then -((t.length : ℤ) - 1) else (t.length : ℤ) - 1

theorem unstroke_strokes (n : ℤ) : unstroke (strokes n) = n := by
  unfold unstroke strokes
  split_ifs with h h1 h1 <;> simp at h1 ⊢ <;> omega

def sample : Numbers where
  F := ℤ
  nan := -1000
  repr x := 'f' :: strokes x
  float t := if t.head? = some 'f' then unstroke t.tail else toDouble (unstroke t)
  decimal n := strokes n
  int x := x

instance : DecidableEq sample.F := inferInstanceAs (DecidableEq ℤ)

theorem strokes_plain (n : ℤ) : ∀ c ∈ strokes n, isBreak c = false := by
  intro c hc
  unfold strokes at hc
  have : c = '-' ∨ c = '+' ∨ c = '1' := by
    split_ifs at hc <;> simp at hc <;> tauto
  rcases this with rfl | rfl | rfl <;> decide

theorem strokes_some (n : ℤ) : missing (strokes n) = false := by
  unfold missing strokes
  split_ifs <;> simp

theorem sample_lawful : sample.Lawful where
  float_repr x _ := by
    have h : unstroke (strokes x) = x := unstroke_strokes x
    simpa [sample] using h
  int_exact n h := by
    have h1 : (strokes n).head? ≠ some 'f' := by unfold strokes; split_ifs <;> simp
    simp only [sample, if_neg h1, unstroke_strokes, toDouble, if_pos (show |n| ≤ 2 ^ 53 from h)]
  repr_some x := Or.inl (by simp [sample, missing, strokes])
  decimal_some n := strokes_some n
  repr_plain x := by
    intro c hc
    rcases List.mem_cons.mp hc with rfl | hc
    · decide
    · exact strokes_plain x c hc
  decimal_plain n := strokes_plain n


/-- A table with a comma, quotes and a bool to which the theorem applies. -/
example : Tab.Ok sample ⟨["name".toList, "v".toList], [.text, .bool], [[.str "a,\"b\" ".toList, .bool true]]⟩ where
  names := rfl
  names_plain := by decide
  names_first := ⟨_, _, rfl, by rintro c cs h rfl; simp [isWs, isBreak] at h, by decide⟩
  rows := by
    intro r hr
    simp only [List.mem_cons, List.not_mem_nil, or_false] at hr
    subst hr
    refine .cons ?_ (.cons trivial .nil)
    simp only [Cell.Of]; decide
  rows_first := by
    intro r hr
    simp only [List.mem_cons, List.not_mem_nil, or_false] at hr
    subst hr
    exact ⟨_, _, rfl, by rintro c cs h rfl; simp [cellText, isWs, isBreak] at h, by decide⟩

/-- **C115, violation.**  A row whose first text starts with `#` is taken for a comment: the row is lost without an exception. -/
theorem C115_comment_violated (N : Numbers) [DecidableEq N.F] :
    fromCsv N [.text, .bool] (csvText N [] ⟨["name".toList, "v".toList], [.text, .bool],
      [[.str "#a".toList, .bool true], [.str "b".toList, .bool false]]⟩)
      = some ⟨["name".toList, "v".toList], [.text, .bool], [[.str "b".toList, .bool false]]⟩ := by
  simp [csvText, cellText, writeRow, writeField, special, splitlines, isBreak, isData, isWs, fromCsv, readRows, castRow, cast]

/-- **C115, violation.**  Blank lines in a text disappear. -/
theorem C115_blank_violated (N : Numbers) [DecidableEq N.F] :
    fromCsv N [.text, .text] (csvText N [] ⟨["name".toList, "v".toList], [.text, .text], [[.str "a".toList, .str "b\n\nc".toList]]⟩)
      = some ⟨["name".toList, "v".toList], [.text, .text], [[.str "a".toList, .str "b\nc".toList]]⟩ := by
  simp [csvText, cellText, writeRow, writeField, special, splitlines, isBreak, isData, isWs, fromCsv, readRows, castRow, cast, escape]

/-- **C115, violation.**  `None`, numbers and bools in a column of objects come back as texts. -/
theorem C115_object_violated (N : Numbers) [DecidableEq N.F] (n : ℤ) :
    cast N .text (cellText N .none) = some (.str "null".toList) ∧ cast N .text (cellText N (.bool true)) = some (.str "True".toList)
      ∧ cast N .text (cellText N (.int n)) = some (.str (N.decimal n)) := ⟨rfl, rfl, rfl⟩

/-- **C115, violation.**  Integers are read through floating point numbers: from `2^53 + 1` on they change. -/
theorem C115_integer_violated (N : Numbers) [DecidableEq N.F] (hd : ∀ n, missing (N.decimal n) = false)
    (h : ∀ n, |n| ≤ 2 ^ 54 → N.int (N.float (N.decimal n)) = toDouble n) :
    cast N .int (cellText N (.int (2 ^ 53 + 1))) = some (.int (2 ^ 53)) := by
  have h1 := h (2 ^ 53 + 1) (by decide)
  simp only [cast, cellText, hd, Bool.false_eq_true, if_false, h1]
  have : toDouble (2 ^ 53 + 1) = 2 ^ 53 := by decide
  rw [this]

end Verif.Tables
