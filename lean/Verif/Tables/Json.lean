import Mathlib.Data.List.Basic
import Mathlib.Data.Rat.Defs

/-!
# Saving as JSON (C116)

Modelled: `/repo/xtrack/json.py` (`_XtrackJSONEncoder`, `_complex_object_hook`, `dump`, `load`), and of `/repo/xtrack/table.py`: `to_json`, `from_json`
(lines 607-648), the columns and attributes of `from_dict` (lines 560-602), `_serialize_attr_value` and `_deserialize_attr_value`
(lines 378-401).  Numbers are rational; arrays have one dimension.
-/

namespace Verif.Tables

/-- Values in Python.  `array` is an array of real numbers, `carray` one of complex numbers with its type. -/
inductive Py where
  | none
  | bool (b : Bool)
  | num (x : ℚ)
  | str (s : String)
  | list (l : List Py)
  | dict (d : List (String × Py))
  | complex (re im : ℚ)
  | carray (dtype : String) (l : List (ℚ × ℚ))

/-- JSON texts. -/
inductive J where
  | null
  | bool (b : Bool)
  | num (x : ℚ)
  | str (s : String)
  | arr (l : List J)
  | obj (d : List (String × J))

/-- `_COMPLEX_SCALAR_TAG`, `_COMPLEX_ARRAY_TAG`, lines 11-12. -/
abbrev scalarTag : String := "__complex__"
abbrev arrayTag : String := "__complex_ndarray__"

/-- What is written for an array of complex numbers, lines 20-30. -/
def encodeArray (dtype : String) (l : List (ℚ × ℚ)) : J :=
  .obj [(arrayTag, .obj [("dtype", .str dtype), ("shape", .arr [.num l.length]), ("real", .arr (l.map fun z => .num z.1)),
    ("imag", .arr (l.map fun z => .num z.2))])]

mutual
/-- `json.dump` with `_XtrackJSONEncoder`. -/
def encode : Py → J
  | .none => .null
  | .bool b => .bool b
  | .num x => .num x
  | .str s => .str s
  | .list l => .arr (encodeList l)
  | .dict d => .obj (encodeDict d)
  | .complex re im => .obj [(scalarTag, .arr [.num re, .num im])]
  | .carray dt l => encodeArray dt l
def encodeList : List Py → List J
  | [] => []
  | v :: l => encode v :: encodeList l
def encodeDict : List (String × Py) → List (String × J)
  | [] => []
  | (k, v) :: d => (k, encode v) :: encodeDict d
end

/-- Value of a key. -/
def get (d : List (String × Py)) (k : String) : Option Py := (d.find? fun e => e.1 = k).map (·.2)

/-- A list of numbers. -/
def numbers : List Py → Option (List ℚ)
  | [] => some []
  | .num x :: l => (numbers l).map (x :: ·)
  | _ :: _ => none

/-- `_complex_object_hook`, lines 35-53; `Option.none` is an exception. -/
def hook (d : List (String × Py)) : Option Py :=
  match get d scalarTag with
  | some (.list [.num re, .num im]) => some (.complex re im)
  | some _ => none
  | Option.none =>
    match get d arrayTag with
    | Option.none => some (.dict d)
    | some (.dict m) =>
      match get m "real", get m "imag", get m "dtype" with
      | some (.list r), some (.list i), some (.str dt) =>
        match numbers r, numbers i with
        | some r, some i => if r.length = i.length then some (.carray dt (r.zip i)) else none
        | _, _ => none
      | _, _, _ => none
    | some _ => none

mutual
/-- `json.load` with an `object_hook`, which is called for each object after its parts. -/
def decode (h : List (String × Py) → Option Py) : J → Option Py
  | .null => some .none
  | .bool b => some (.bool b)
  | .num x => some (.num x)
  | .str s => some (.str s)
  | .arr l => (decodeList h l).map .list
  | .obj d => (decodeDict h d).bind h
def decodeList (h : List (String × Py) → Option Py) : List J → Option (List Py)
  | [] => some []
  | v :: l => (decode h v).bind fun v' => (decodeList h l).map (v' :: ·)
def decodeDict (h : List (String × Py) → Option Py) : List (String × J) → Option (List (String × Py))
  | [] => some []
  | (k, v) :: d => (decode h v).bind fun v' => (decodeDict h d).map ((k, v') :: ·)
end

/-- `xt.json.load`, lines 72-98. -/
def load : J → Option Py := decode hook

/-- `json.load` without hook, as in `Table.from_json`, `table.py:641-647`. -/
def loadPlain : J → Option Py := decode fun d => some (.dict d)

/-! ### Files -/

/-- What is in a file. -/
inductive File where
  | text (j : J)
  | gzip (j : J)

/-- The name of the file ends with `.gz`. -/
def endsGz (name : List Char) : Bool := ".gz".toList.isSuffixOf name

/-- `json.dump`, lines 56-69. -/
def dump (v : Py) (name : List Char) : File := if endsGz name then .gzip (encode v) else .text (encode v)

/-- `json.load` of a file; reading a compressed file as text is an error, and the other way round. -/
def loadFile (f : File) (name : List Char) : Option Py :=
  match f, endsGz name with
  | .text j, false => load j
  | .gzip j, true => load j
  | _, _ => Option.none

/-- `Table.from_json`, `table.py:641-648`: the dictionary which it reads. -/
def tableFile (f : File) (_name : List Char) : Option Py :=
  match f with
  | .text j => loadPlain j
  | .gzip _ => Option.none

/-! ### Columns of a table -/

/-- A column: texts, real or complex numbers. -/
inductive Column where
  | texts (l : List String)
  | reals (l : List ℚ)
  | complexes (dtype : String) (l : List (ℚ × ℚ))

/-- The column in the dictionary of `to_dict`. -/
def Column.py : Column → Py
  | .texts l => .list (l.map .str)
  | .reals l => .list (l.map .num)
  | .complexes dt l => .carray dt l

/-- A text. -/
def asText : Py → Option String
  | .str s => some s
  | _ => Option.none

/-- `np.array(value)`, `table.py:587-591`, as far as it is a column: `none` otherwise (an array without dimensions). -/
def toColumn : Py → Option Column
  | .list l =>
    match numbers l with
    | some r => some (.reals r)
    | Option.none => (l.mapM asText).map .texts
  | .carray dt l => some (.complexes dt l)
  | _ => Option.none

/-! ### Attributes with particles -/

/-- `_deserialize_attr_value`: the value, and what the dictionary is afterwards (`value.pop`). `particles` makes the particles. -/
def deserialize {P : Type} (particles : List (String × Py) → P) (v : Py) : (P ⊕ Py) × Py :=
  match v with
  | .dict d =>
    match get d "__class__" with
    | some (.str c) =>
      if c = "Particles" then
        let d' := d.filter fun e => e.1 ≠ "__class__"
        (.inl (particles d'), .dict d')
      else (.inr v, v)
    | _ => (.inr v, v)
  | _ => (.inr v, v)

/-! ## Specification and proofs -/

mutual
/-- No dictionary in the value uses the two tags as keys. -/
def Py.Clean : Py → Prop
  | .list l => cleanList l
  | .dict d => cleanDict d
  | _ => True
def cleanList : List Py → Prop
  | [] => True
  | v :: l => v.Clean ∧ cleanList l
def cleanDict : List (String × Py) → Prop
  | [] => True
  | (k, v) :: d => k ≠ scalarTag ∧ k ≠ arrayTag ∧ v.Clean ∧ cleanDict d
end

theorem get_none {d : List (String × Py)} {k : String} (h : ∀ e ∈ d, e.1 ≠ k) : get d k = Option.none := by
  unfold get
  rw [List.find?_eq_none.mpr (by simpa using h)]
  rfl

theorem clean_keys : ∀ (d : List (String × Py)), cleanDict d → ∀ e ∈ d, e.1 ≠ scalarTag ∧ e.1 ≠ arrayTag
  | [], _ => by simp
  | (k, v) :: d, h => by
    unfold cleanDict at h
    intro e he
    rcases List.mem_cons.mp he with rfl | he
    · exact ⟨h.1, h.2.1⟩
    · exact clean_keys d h.2.2.2 e he

theorem hook_clean (d : List (String × Py)) (h : cleanDict d) : hook d = some (.dict d) := by
  have hk := clean_keys d h
  unfold hook
  rw [get_none fun e he => (hk e he).1, get_none fun e he => (hk e he).2]

theorem numbers_map (l : List ℚ) : numbers (l.map .num) = some l := by
  induction l with
  | nil => rfl
  | cons x l ih => simp [numbers, ih]

theorem decodeList_num (h : List (String × Py) → Option Py) (l : List ℚ) :
    decodeList h (l.map .num) = some (l.map .num) := by
  induction l with
  | nil => rfl
  | cons x l ih => simp [decodeList, decode, ih]

theorem zip_fst_snd (l : List (ℚ × ℚ)) : (l.map (·.1)).zip (l.map (·.2)) = l := by
  induction l with
  | nil => rfl
  | cons z l ih => simp [ih]

theorem load_array (dt : String) (l : List (ℚ × ℚ)) : load (encodeArray dt l) = some (.carray dt l) := by
  have h1 : decodeList hook (l.map fun z => J.num z.1) = some ((l.map (·.1)).map .num) := by
    rw [← decodeList_num hook (l.map (·.1)), List.map_map]; rfl
  have h2 : decodeList hook (l.map fun z => J.num z.2) = some ((l.map (·.2)).map .num) := by
    rw [← decodeList_num hook (l.map (·.2)), List.map_map]; rfl
  have hm : ∀ a b c e : Py, hook [("dtype", a), ("shape", b), ("real", c), ("imag", e)]
      = some (.dict [("dtype", a), ("shape", b), ("real", c), ("imag", e)]) := fun a b c e => rfl
  have ho : ∀ m, hook [(arrayTag, Py.dict m)] = (match get m "real", get m "imag", get m "dtype" with
      | some (.list r), some (.list i), some (.str dt) =>
        match numbers r, numbers i with
        | some r, some i => if r.length = i.length then some (.carray dt (r.zip i)) else none
        | _, _ => Option.none
      | _, _, _ => Option.none) := fun m => rfl
  simp only [load, encodeArray, decode, decodeDict, Option.map_some, Option.bind_some, h1, h2, decodeList, hm, ho]
  have g1 : ∀ a b c e : Py, get [("dtype", a), ("shape", b), ("real", c), ("imag", e)] "real" = some c := fun _ _ _ _ => rfl
  have g2 : ∀ a b c e : Py, get [("dtype", a), ("shape", b), ("real", c), ("imag", e)] "imag" = some e := fun _ _ _ _ => rfl
  have g3 : ∀ a b c e : Py, get [("dtype", a), ("shape", b), ("real", c), ("imag", e)] "dtype" = some a := fun _ _ _ _ => rfl
  simp only [g1, g2, g3, numbers_map, List.length_map, if_true, zip_fst_snd]

mutual
theorem load_encode : ∀ v : Py, v.Clean → load (encode v) = some v
  | .none, _ => rfl
  | .bool _, _ => rfl
  | .num _, _ => rfl
  | .str _, _ => rfl
  | .list l, h => by
    unfold Py.Clean at h
    simp only [load, encode, decode, load_encodeList l h, Option.map_some]
  | .dict d, h => by
    unfold Py.Clean at h
    simp only [load, encode, decode, load_encodeDict d h, Option.bind_some, hook_clean d h]
  | .complex re im, _ => rfl
  | .carray dt l, _ => load_array dt l
theorem load_encodeList : ∀ l : List Py, cleanList l → decodeList hook (encodeList l) = some l
  | [], _ => rfl
  | v :: l, h => by
    unfold cleanList at h
    have h1 : decode hook (encode v) = some v := load_encode v h.1
    simp only [encodeList, decodeList, h1, Option.bind_some, load_encodeList l h.2, Option.map_some]
theorem load_encodeDict : ∀ d : List (String × Py), cleanDict d → decodeDict hook (encodeDict d) = some d
  | [], _ => rfl
  | (k, v) :: d, h => by
    unfold cleanDict at h
    have h1 : decode hook (encode v) = some v := load_encode v h.2.2.1
    simp only [encodeDict, decodeDict, h1, Option.bind_some, load_encodeDict d h.2.2.2, Option.map_some]
end

/-- **C116.**  What is saved with `xt.json.dump` is loaded by `xt.json.load` as it was, complex numbers and complex arrays included, to
a plain or compressed file. -/
theorem C116_json (v : Py) (h : v.Clean) (name : List Char) : loadFile (dump v name) name = some v := by
  unfold loadFile dump
  cases endsGz name <;> simp [load_encode v h]

example : Py.Clean (.dict [("f1020", .carray "complex128" [(1, 2), (3, 4)]), ("q", .list [.complex 1 2, .none])]) := by
  simp only [Py.Clean, cleanDict, cleanList, and_true]; decide

theorem decodeList_str (h : List (String × Py) → Option Py) (l : List String) :
    decodeList h (l.map .str) = some (l.map .str) := by
  induction l with
  | nil => rfl
  | cons x l ih => simp [decodeList, decode, ih]

theorem encodeList_num (l : List ℚ) : encodeList (l.map .num) = l.map .num := by
  induction l with
  | nil => rfl
  | cons x l ih => simp [encodeList, encode, ih]

theorem encodeList_str (l : List String) : encodeList (l.map .str) = l.map .str := by
  induction l with
  | nil => rfl
  | cons x l ih => simp [encodeList, encode, ih]

theorem toColumn_reals (l : List ℚ) : toColumn (.list (l.map .num)) = some (.reals l) := by
  simp [toColumn, numbers_map]

theorem toColumn_texts (l : List String) (hl : l ≠ []) : toColumn (.list (l.map .str)) = some (.texts l) := by
  obtain ⟨s, l', rfl⟩ := List.exists_cons_of_ne_nil hl
  have h1 : numbers ((s :: l').map .str) = Option.none := rfl
  simp only [toColumn, h1]
  have h2 : ∀ l : List String, (l.map Py.str).mapM asText = some l := by
    intro l
    induction l with
    | nil => rfl
    | cons s l ih => simp only [List.map_cons, List.mapM_cons, ih]; rfl
  rw [h2]; rfl

/-- **C116, partial.**  Columns of texts and of real numbers of a table survive `to_json` and `from_json`.  Missing: complex columns. -/
theorem C116_columns_partial (c : Column) (h : (∃ l, c = .reals l) ∨ ∃ l, l ≠ [] ∧ c = .texts l) (name : List Char)
    (hname : endsGz name = false) : (tableFile (dump c.py name) name).bind toColumn = some c := by
  unfold tableFile dump
  rw [hname]
  rcases h with ⟨l, rfl⟩ | ⟨l, hl, rfl⟩
  · simp only [Bool.false_eq_true, if_false, loadPlain, Column.py, encode, decode, encodeList_num, decodeList_num, Option.map_some,
      Option.bind_some, toColumn_reals]
  · simp only [Bool.false_eq_true, if_false, loadPlain, Column.py, encode, decode, encodeList_str, decodeList_str, Option.map_some,
      Option.bind_some, toColumn_texts l hl]

/-- **C116, violation.**  `Table.from_json` does not use the hook: a complex column (all driving terms are) comes back as a dictionary and is
not a column. -/
theorem C116_complex_violated (dt : String) (l : List (ℚ × ℚ)) (name : List Char) (hname : endsGz name = false) :
    (∃ d, tableFile (dump (Column.complexes dt l).py name) name = some (.dict d))
      ∧ (tableFile (dump (Column.complexes dt l).py name) name).bind toColumn = Option.none := by
  have h1 := decodeList_num (fun d => some (.dict d)) (l.map (·.1))
  have h2 := decodeList_num (fun d => some (.dict d)) (l.map (·.2))
  rw [List.map_map] at h1 h2
  have : ∃ d, tableFile (dump (Column.complexes dt l).py name) name = some (.dict d) := by
    unfold tableFile dump
    rw [hname]
    simp only [Bool.false_eq_true, if_false, loadPlain, Column.py, encode, encodeArray, decode, decodeDict, Option.bind_some, Option.map_some,
      decodeList, Function.comp_def] at h1 h2 ⊢
    rw [h1, h2]
    exact ⟨_, rfl⟩
  obtain ⟨d, hd⟩ := this
  exact ⟨⟨d, hd⟩, by rw [hd]; rfl⟩

/-- **C116, violation.**  A table saved to a file with the ending `.gz` is compressed and cannot be loaded. -/
theorem C116_gz_violated (v : Py) (name : List Char) (hname : endsGz name = true) : tableFile (dump v name) name = Option.none := by
  unfold tableFile dump
  rw [hname]; rfl

example : endsGz "tw.json.gz".toList = true := by decide
example : endsGz "tw.json".toList = false := by decide

/-- **C116, violation.**  `from_dict` changes the dictionary it is given: the second time an attribute with particles stays a dictionary. -/
theorem C116_twice_violated {P : Type} (particles : List (String × Py) → P) (d : List (String × Py))
    (h : get d "__class__" = some (.str "Particles")) :
    (∃ p, (deserialize particles (.dict d)).1 = .inl p)
      ∧ ∃ v, (deserialize particles (deserialize particles (.dict d)).2).1 = .inr v := by
  have hd : deserialize particles (.dict d)
      = (.inl (particles (d.filter fun e => e.1 ≠ "__class__")), .dict (d.filter fun e => e.1 ≠ "__class__")) := by
    simp [deserialize, h]
  rw [hd]
  refine ⟨⟨_, rfl⟩, .dict (d.filter fun e => e.1 ≠ "__class__"), ?_⟩
  have hn : get (d.filter fun e => e.1 ≠ "__class__") "__class__" = Option.none :=
    get_none fun e he => by simpa using (List.mem_filter.mp he).2
  simp only [deserialize]
  rw [hn]

end Verif.Tables
