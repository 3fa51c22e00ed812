import Mathlib.Data.List.Basic
import Mathlib.Tactic.Push
import Mathlib.Tactic.SplitIfs

/-!
# Selection of columns and attributes when a table is saved (C114)

Modelled: `/repo/xtrack/table.py`: `_resolve_name_selection` (lines 336-374), `_split_include_exclude` (lines 406-439), and their use
in `to_dict` (lines 479-560), `to_csv` (lines 1240-1269) and `to_tfs` (lines 1497-1543).  Names are of any type; sets of names are
lists.  `none` is an exception (`KeyError`).
-/

namespace Verif.Tables

variable {α : Type} [DecidableEq α]

/-- `_resolve_name_selection`; `ignore` is `missing='ignore'`. -/
def resolve (all : List α) (inc : Option (List α)) (exc : Option (List α)) (ignore : Bool) : Option (List α) :=
  let missing (sel : List α) : Bool := sel.any fun n => n ∉ all
  if !ignore && (inc.getD []).any (fun n => n ∉ all) then none
  else if !ignore && missing (exc.getD []) then none
  else
    let inc' := inc.map fun s => s.filter (· ∈ all)
    let exc' := (exc.getD []).filter (· ∈ all)
    some (all.filter fun n => (match inc' with | none => true | some s => decide (n ∈ s)) && decide (n ∉ exc'))

/-- `_split_include_exclude`: included columns, included attributes, excluded columns, excluded attributes. -/
def split (inc exc : Option (List α)) (cols attrs : List α) (ignore : Bool) :
    Option (Option (List α) × Option (List α) × Option (List α) × Option (List α)) :=
  let all := cols ++ attrs
  if !ignore && (inc.getD []).any (fun n => n ∉ all) then none
  else if !ignore && (exc.getD []).any (fun n => n ∉ all) then none
  else
    let inc' := inc.map fun s => s.filter (· ∈ all)
    let exc' := exc.map fun s => s.filter (· ∈ all)
    -- `if exclude_set` is false for an empty set
    let exc'' := if (exc'.getD []) = [] then none else exc'
    some (inc'.map fun s => s.filter (· ∈ cols), inc'.map fun s => s.filter (· ∈ attrs),
      exc''.map fun s => s.filter (· ∈ cols), exc''.map fun s => s.filter (· ∈ attrs))

/-- Columns and attributes chosen by `to_csv`. -/
def csvSelection (inc exc : Option (List α)) (cols attrs : List α) (ignore : Bool) : Option (List α × List α) :=
  (split inc exc cols attrs ignore).bind fun s =>
    (resolve cols s.1 s.2.2.1 ignore).bind fun c => (resolve attrs s.2.1 s.2.2.2 ignore).map fun a => (c, a)

/-- Columns and attributes chosen by `to_dict` and `to_tfs`: the names of metadata entries are taken out first. -/
def dictSelection (isMeta : α → Bool) (inc exc : Option (List α)) (cols attrs : List α) (ignore : Bool) :
    Option (List α × List α) :=
  let incArg := match inc with
    | none => none
    | some s => let f := s.filter fun n => !isMeta n
                if f = [] then none else some f
  let excArg := match exc with
    | none => none
    | some s => if s = [] then none else some (s.filter fun n => !isMeta n)
  csvSelection incArg excArg cols attrs ignore

/-- The names of dropped columns in the metadata of `to_dict`, lines 540-549; the argument `includeMeta` is overwritten in lines
490-500. -/
def dictDropped (isMeta : α → Bool) (_includeMeta : Bool) (inc : Option (List α)) (cols selected : List α) : Option (List α) :=
  let includeMeta := match inc with
    | none => []
    | some s => s.filter isMeta
  if includeMeta = [] then none else some (cols.filter fun n => n ∉ selected)

/-! ## Specification -/

/-- A name is wanted if it is among those to include (if given) and not among those to exclude. -/
def Wanted (inc exc : Option (List α)) (n : α) : Prop := (∀ s, inc = some s → n ∈ s) ∧ (∀ s, exc = some s → n ∉ s)

instance (inc exc : Option (List α)) (n : α) : Decidable (Wanted inc exc n) := by
  unfold Wanted
  cases inc <;> cases exc <;> simp only [reduceCtorEq, Option.some.injEq, forall_eq', false_implies, implies_true, true_and, and_true] <;> infer_instance

/-- All names given are known. -/
def Known (inc exc : Option (List α)) (all : List α) : Prop :=
  (∀ s, inc = some s → ∀ n ∈ s, n ∈ all) ∧ (∀ s, exc = some s → ∀ n ∈ s, n ∈ all)

theorem resolve_sub (all : List α) (inc exc : Option (List α)) (ignore : Bool) (hi : ∀ s, inc = some s → ∀ n ∈ s, n ∈ all)
    (he : ∀ s, exc = some s → ∀ n ∈ s, n ∈ all) :
    resolve all inc exc ignore = some (all.filter fun n => decide (Wanted inc exc n)) := by
  unfold resolve
  have h1 : (inc.getD []).any (fun n => decide (n ∉ all)) = false := by
    cases inc with
    | none => rfl
    | some s => simpa using hi s rfl
  have h2 : (exc.getD []).any (fun n => decide (n ∉ all)) = false := by
    cases exc with
    | none => rfl
    | some s => simpa using he s rfl
  simp only [h1, h2, Bool.and_false, Bool.false_eq_true, if_false, Option.some.injEq]
  apply List.filter_congr
  intro n hn
  cases inc <;> cases exc <;> simp [Wanted, hn]

/-- **C114.**  What `to_csv` saves: just the wanted columns and attributes, in the order of the table; unknown names are an error
unless they are to be ignored. -/
theorem C114_csv (inc exc : Option (List α)) (cols attrs : List α) (ignore : Bool) :
    (ignore = true ∨ Known inc exc (cols ++ attrs) → csvSelection inc exc cols attrs ignore
      = some (cols.filter fun n => decide (Wanted inc exc n), attrs.filter fun n => decide (Wanted inc exc n)))
    ∧ (¬ (ignore = true ∨ Known inc exc (cols ++ attrs)) → csvSelection inc exc cols attrs ignore = none) := by
  unfold csvSelection split
  constructor
  · intro hk
    have h1 : (!ignore && (inc.getD []).any (fun n => decide (n ∉ cols ++ attrs))) = false := by
      rcases hk with rfl | hk
      · rfl
      · cases inc with
        | none => simp
        | some s => have := hk.1 s rfl; simp at this ⊢; intro _ n hn h1; exact (this n hn).resolve_left h1
    have h2 : (!ignore && (exc.getD []).any (fun n => decide (n ∉ cols ++ attrs))) = false := by
      rcases hk with rfl | hk
      · rfl
      · cases exc with
        | none => simp
        | some s => have := hk.2 s rfl; simp at this ⊢; intro _ n hn h1; exact (this n hn).resolve_left h1
    simp only [h1, h2, Bool.false_eq_true, if_false, Option.bind_some]
    rw [resolve_sub, Option.bind_some, resolve_sub, Option.map_some]
    · congr 2
      · apply List.filter_congr
        intro n hn
        apply decide_eq_decide.mpr
        cases inc <;> cases exc <;> simp only [Wanted, Option.map_none, Option.map_some] <;> split_ifs <;> simp_all <;> grind
      · apply List.filter_congr
        intro n hn
        apply decide_eq_decide.mpr
        cases inc <;> cases exc <;> simp only [Wanted, Option.map_none, Option.map_some] <;> split_ifs <;> simp_all <;> grind
    all_goals
      intro s hs n hn
      cases inc <;> cases exc <;> simp only [Option.map_none, Option.map_some] at hs <;> (try split_ifs at hs) <;>
        simp_all <;> (subst hs; simp_all)
  · intro hk
    push Not at hk
    obtain ⟨hig, hk⟩ := hk
    have hig' : ignore = false := by simpa using hig
    subst hig'
    simp only [Bool.not_false, Bool.true_and]
    by_cases h1 : (inc.getD []).any (fun n => decide (n ∉ cols ++ attrs)) = true
    · rw [if_pos h1]; rfl
    · by_cases h2 : (exc.getD []).any (fun n => decide (n ∉ cols ++ attrs)) = true
      · rw [if_neg h1, if_pos h2]; rfl
      · exfalso
        apply hk
        constructor
        · rintro s rfl n hn
          simp at h1 ⊢
          by_contra hc
          push Not at hc
          exact hc.2 (h1 n hn hc.1)
        · rintro s rfl n hn
          simp at h2 ⊢
          by_contra hc
          push Not at hc
          exact hc.2 (h2 n hn hc.1)

/-- **C114, partial.**  `to_dict`, `to_json` and `to_tfs` save the same if some name to include is not the name of a metadata entry. -/
theorem C114_dict_partial (isMeta : α → Bool) (inc exc : Option (List α)) (cols attrs : List α) (ignore : Bool)
    (hinc : ∀ s, inc = some s → ∃ n ∈ s, isMeta n = false) (hcol : ∀ n ∈ cols ++ attrs, isMeta n = false)
    (hk : ignore = true ∨ ∀ s, (inc = some s ∨ exc = some s) → ∀ n ∈ s, isMeta n = false → n ∈ cols ++ attrs) :
    dictSelection isMeta inc exc cols attrs ignore
      = some (cols.filter fun n => decide (Wanted inc exc n), attrs.filter fun n => decide (Wanted inc exc n)) := by
  unfold dictSelection
  simp only
  rw [(C114_csv _ _ _ _ _).1]
  · congr 2
    · apply List.filter_congr
      intro n hn
      have := hcol n (by simp [hn])
      apply decide_eq_decide.mpr
      cases inc with
      | none => cases exc with
        | none => simp [Wanted]
        | some e => simp only [Wanted]; split_ifs <;> simp_all
      | some s =>
        obtain ⟨m, hm, hm'⟩ := hinc s rfl
        have hne : s.filter (fun n => !isMeta n) ≠ [] := by
          intro h; have : m ∈ s.filter (fun n => !isMeta n) := by simp [hm, hm']
          rw [h] at this; simp at this
        cases exc with
        | none => simp only [Wanted]; rw [if_neg hne]; simp_all
        | some e => simp only [Wanted]; rw [if_neg hne]; split_ifs <;> simp_all
    · apply List.filter_congr
      intro n hn
      have := hcol n (by simp [hn])
      apply decide_eq_decide.mpr
      cases inc with
      | none => cases exc with
        | none => simp [Wanted]
        | some e => simp only [Wanted]; split_ifs <;> simp_all
      | some s =>
        obtain ⟨m, hm, hm'⟩ := hinc s rfl
        have hne : s.filter (fun n => !isMeta n) ≠ [] := by
          intro h; have : m ∈ s.filter (fun n => !isMeta n) := by simp [hm, hm']
          rw [h] at this; simp at this
        cases exc with
        | none => simp only [Wanted]; rw [if_neg hne]; simp_all
        | some e => simp only [Wanted]; rw [if_neg hne]; split_ifs <;> simp_all
  · rcases hk with h | hk
    · exact Or.inl h
    · right
      constructor
      · intro s hs n hn
        cases inc with
        | none => simp at hs
        | some t =>
          simp only at hs
          split_ifs at hs
          simp only [Option.some.injEq] at hs
          subst hs
          simp only [List.mem_filter, Bool.not_eq_true'] at hn
          exact hk t (Or.inl rfl) n hn.1 hn.2
      · intro s hs n hn
        cases exc with
        | none => simp at hs
        | some t =>
          simp only at hs
          split_ifs at hs
          simp only [Option.some.injEq] at hs
          subst hs
          simp only [List.mem_filter, Bool.not_eq_true'] at hn
          exact hk t (Or.inr rfl) n hn.1 hn.2

example : dictSelection (fun n : ℕ => decide (n ≥ 100)) (some [1, 3, 100]) (some [3]) [1, 2] [3, 4] false = some ([1], []) := by decide

/-- **C114, violation.**  If nothing is to be included, or metadata only, then all columns and attributes are saved. -/
theorem C114_empty_violated (isMeta : α → Bool) (s : List α) (hs : ∀ n ∈ s, isMeta n = true) (cols attrs : List α) :
    dictSelection isMeta (some s) none cols attrs false = some (cols, attrs)
      ∧ (∀ n ∈ cols ++ attrs, isMeta n = false → ¬ Wanted (some s) none n) := by
  constructor
  · have : s.filter (fun n => !isMeta n) = [] := by
      rw [List.filter_eq_nil_iff]; intro n hn; simp [hs n hn]
    unfold dictSelection
    simp only [this, if_true]
    rw [(C114_csv _ _ _ _ _).1 (Or.inr ⟨by simp, by simp⟩)]
    simp [Wanted]
  · intro n _ hn h
    have := hs n (h.1 s rfl)
    rw [hn] at this; simp at this

/-- **C114, violation.**  The argument `include_meta=True` is without effect: the names of the dropped columns are not saved. -/
theorem C114_meta_violated (isMeta : α → Bool) (cols selected : List α) : dictDropped isMeta true none cols selected = none := rfl

end Verif.Tables
