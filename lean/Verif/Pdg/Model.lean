import Verif.Pdg.Tables

namespace Verif.Pdg

/-- `_to_normal_script`, lines 477-484, one character. -/
def normChar : Char → Char
  | '⁰' => '0' | '¹' => '1' | '²' => '2' | '³' => '3' | '⁴' => '4' | '⁵' => '5' | '⁶' => '6' | '⁷' => '7' | '⁸' => '8' | '⁹' => '9'
  | '⁺' => '+' | '⁻' => '-' | 'ₛ' => 's' | 'ₑ' => 'e'
  | c => c

/-- `_digits_to_superscript`, lines 472-475, one character. -/
def superChar : Char → Char
  | '0' => '⁰' | '1' => '¹' | '2' => '²' | '3' => '³' | '4' => '⁴' | '5' => '⁵' | '6' => '⁶' | '7' => '⁷' | '8' => '⁸' | '9' => '⁹'
  | '+' => '⁺' | '-' => '⁻'
  | c => c

/-- `lower` for Latin and Greek letters, followed by `replace('ς', 'σ')`, line 195. -/
def lowerChar (c : Char) : Char :=
  if 65 ≤ c.toNat ∧ c.toNat ≤ 90 then Char.ofNat (c.toNat + 32)
  else if 913 ≤ c.toNat ∧ c.toNat ≤ 937 then Char.ofNat (c.toNat + 32)
  else if c = 'ς' then 'σ' else c

/-- `_to_normal_script(name).lower()` -/
def plain (t : Text) : Text := t.map fun c => lowerChar (normChar c)

/-- `_flip_end_sign`, lines 451-469, on the reversed name. -/
def flipRev : Text → Text
  | '⁺' :: '⁺' :: t => '⁻' :: '⁻' :: t
  | '+' :: '+' :: t => '-' :: '-' :: t
  | '⁻' :: '⁻' :: t => '⁺' :: '⁺' :: t
  | '-' :: '-' :: t => '+' :: '+' :: t
  | '⁺' :: t => '⁻' :: t
  | '+' :: t => '-' :: t
  | '⁻' :: t => '⁺' :: t
  | '-' :: t => '+' :: t
  | t => t

@[inherit_doc flipRev]
def flipEnd (t : Text) : Text := (flipRev t.reverse).reverse

/-- `get_pdg_inv`, lines 443-448 (no name occurs twice: `_check_pdg_table`). -/
def lookup (name : Text) : Option ℤ := (table.find? fun e => e.names.any fun n => plain n == name).map (·.id)

/-- Does `t` begin with `sub`. -/
def isPre : Text → Text → Bool
  | [], _ => true
  | _ :: _, [] => false
  | a :: s, b :: t => a == b && isPre s t

/-- `sub in t` -/
def contains (sub : Text) : Text → Bool
  | [] => isPre sub []
  | c :: t => isPre sub (c :: t) || contains sub t

/-- `t.replace(sub, '')`, with a bound for the number of steps. -/
def removeN (sub : Text) : ℕ → Text → Text
  | 0, t => t
  | _ + 1, [] => []
  | k + 1, c :: t => if isPre sub (c :: t) then removeN sub k ((c :: t).drop sub.length) else c :: removeN sub k t

@[inherit_doc removeN]
def remove (sub t : Text) : Text := removeN sub t.length t

def isDigit (c : Char) : Bool := '0'.toNat ≤ c.toNat && c.toNat ≤ '9'.toNat

/-- `A.isnumeric()` -/
def isNumeric (t : Text) : Bool := !t.isEmpty && t.all isDigit

/-- `int(A)` -/
def readNat (t : Text) : ℕ := t.foldl (fun a c => 10 * a + (c.toNat - '0'.toNat)) 0

/-- `f'{A}'` for numbers below `1000` -/
def dec (n : ℕ) : Text :=
  let d := fun k => Char.ofNat ('0'.toNat + k % 10)
  if n < 10 then [d n] else if n < 100 then [d (n / 10), d n] else [d (n / 100), d (n / 10), d n]

/-- `get_pdg_id_ion`, lines 351-360; `none` is the exception. -/
def ionId (A Z : ℕ) : Option ℤ := if Z < 1 ∨ A < 2 ∨ A < Z then none else some (1000000000 + Z * 10000 + A * 10)

/-- One of the loops over the elements, lines 219-229; the result of the first element which fits, which can be the exception of
`get_pdg_id_ion`. -/
def searchIon (ionName : Text) : List (ℕ × Text) → Option (Option ℤ)
  | [] => none
  | (Z, e) :: rest =>
    let A := remove (plain e) ionName
    if contains (plain e) ionName && (isNumeric A && decide (0 < readNat A)) then some (ionId (readNat A) Z) else searchIon ionName rest

/-- The name without the word `anti`, lines 197-203; empty if there is none. -/
def antiName (lname : Text) : Text :=
  if isPre ['a', 'n', 't', 'i', '-'] lname then flipEnd (lname.drop 5)
  else if isPre ['a', 'n', 't', 'i', ' '] lname then flipEnd (lname.drop 5)
  else if isPre ['a', 'n', 't', 'i'] lname then flipEnd (lname.drop 4)
  else []

/-- `get_pdg_id_from_name`, lines 168-232. -/
def idOfName (name : Text) : Option ℤ :=
  let lname := plain name
  match lookup lname with
  | some i => some i
  | none =>
    match lookup (antiName lname) with
    | some i => some (-i)
    | none =>
      let ionName := lname.filter fun c => !(c == '_' || c == '-' || c == ' ' || c == '.')
      match searchIon ionName elementsLong with
      | some r => r
      | none => (searchIon ionName elements).join

/-- Which name is asked for. -/
inductive Style where
  | long
  | short
  | ascii
  deriving DecidableEq

/-- Charge, mass number, atomic number and name. -/
structure Props where
  charge : ℤ
  A : ℤ
  Z : ℤ
  name : Text
  deriving DecidableEq

def elementName (l : List (ℕ × Text)) (Z : ℕ) : Option Text := (l.find? fun e => e.1 == Z).map (·.2)

/-- The first branch of `get_properties_from_pdg_id`, lines 283-305. -/
def tableProps (e : Entry) (st : Style) : Props :=
  let name := match st with
    | .long => e.names.getLastD []
    | .short => e.names.headD []
    | .ascii => if e.id = 1000010020 then ['H', '2'] else if e.id = 1000010030 then ['H', '3'] else (e.names.headD []).map normChar
  if e.id.natAbs = 2212 ∨ e.id.natAbs = 2112 then ⟨e.charge, 1, e.charge, name⟩
  else if e.id = 1000010020 then ⟨e.charge, 2, 1, name⟩
  else if e.id = 1000010030 then ⟨e.charge, 3, 1, name⟩
  else ⟨e.charge, 0, 0, name⟩

/-- The second branch, lines 307-325; `n` is the number above `1000000000`. -/
def ionProps (n : ℕ) (st : Style) : Option Props :=
  let m := n % 10000000
  let Z := m / 10000
  let A := m % 10000 / 10
  match st with
  | .long => (elementName elementsLong Z).map fun e => ⟨Z, A, Z, e ++ '-' :: dec A⟩
  | .short => (elementName elements Z).map fun e => ⟨Z, A, Z, (dec A).map superChar ++ e⟩
  | .ascii => (elementName elements Z).map fun e => ⟨Z, A, Z, e ++ dec A⟩

/-- The first two branches. -/
def posProps (i : ℤ) (st : Style) : Option Props :=
  match table.find? (fun e => e.id == i) with
  | some e => some (tableProps e st)
  | none => if i > 1000000000 then ionProps (i - 1000000000).toNat st else none

/-- `get_properties_from_pdg_id`, lines 234-331; `none` is the exception. -/
def props (i : ℤ) (st : Style) : Option Props :=
  match posProps i st with
  | some p => some p
  | none =>
    if i > 1000000000 then none
    else (posProps (-i) st).map fun p => ⟨-p.charge, p.A, -p.Z, flipEnd (['a', 'n', 't', 'i', '-'] ++ p.name)⟩

/-- `is_ion`, lines 124-132, for numbers from `1000000000`. -/
def isIon (i : ℤ) : Bool :=
  if i ≥ 1000000000 then
    let m := (i - 1000000000).toNat % 10000000
    decide (m / 10000 > 0) && decide (m % 10000 / 10 > m / 10000)
  else false

end Verif.Pdg
