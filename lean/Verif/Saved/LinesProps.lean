import Verif.Saved.Lines

/-!
# C138: lines and environments survive being written and read, and being copied
-/

namespace Verif.Saved

/-! ### Composers -/

/-- Names and places only. -/
def Plain (l : List Comp) : Prop := ∀ c ∈ l, (∃ s, c = .name s) ∨ ∃ p, c = .place p

theorem compsToDict_plain {l : List Comp} (h : Plain l) : ∃ d, compsToDict l = some d ∧
    d.map (fun x : String ⊕ Place => match x with | .inl s => Comp.name s | .inr p => Comp.place p) = l := by
  induction l with
  | nil => exact ⟨[], rfl, rfl⟩
  | cons a t ih =>
    obtain ⟨d, hd, e⟩ := ih fun c hc => h c (List.mem_cons_of_mem _ hc)
    rcases h a List.mem_cons_self with ⟨s, rfl⟩ | ⟨p, rfl⟩
    · exact ⟨.inl s :: d, by simp [compsToDict, hd], by simp [e]⟩
    · exact ⟨.inr p :: d, by simp [compsToDict, hd], by simp [e]⟩

theorem compsToDict_none {l : List Comp} (h : ¬ Plain l) : compsToDict l = none := by
  induction l with
  | nil => exact absurd (fun c hc => by simp at hc) h
  | cons a t ih =>
    cases a with
    | line _ => rfl
    | nested _ => rfl
    | name s =>
      have : ¬ Plain t := fun ht => h fun c hc => by
        rcases List.mem_cons.1 hc with rfl | hc
        · exact .inl ⟨s, rfl⟩
        · exact ht c hc
      simp [compsToDict, ih this]
    | place p =>
      have : ¬ Plain t := fun ht => h fun c hc => by
        rcases List.mem_cons.1 hc with rfl | hc
        · exact .inr ⟨p, rfl⟩
        · exact ht c hc
      simp [compsToDict, ih this]

/-- A composer of names and places comes back exactly: components with all their positions and anchors, reference, length,
tolerance, mirror. -/
theorem C138_composer_partial (c : Composer) (h : Plain c.comps) : ∃ d, composerToDict c = some d ∧ composerFromDict d = c := by
  obtain ⟨d, hd, e⟩ := compsToDict_plain h
  refine ⟨{ comps := d, refer := some c.refer, length := c.length, sTol := some c.sTol,
            mirror := if c.mirror then some true else none }, by simp only [composerToDict, hd, Option.map_some], ?_⟩
  cases c with
  | mk comps refer length sTol mirror =>
    simp only at e
    cases mirror <;> simp [composerFromDict, ← e]

example : Plain [.name "q", .place ⟨"ip", some "3", some "q", none, some "end"⟩] := by
  intro c hc
  simp only [List.mem_cons, List.not_mem_nil, or_false] at hc
  rcases hc with rfl | rfl
  · exact .inl ⟨_, rfl⟩
  · exact .inr ⟨_, rfl⟩

/-- **Violation.** A line whose components contain another line (or a nested list) as such cannot be written at all, even long after
it left compose mode: `NotImplementedError`. -/
theorem C138_nested_violated (l : Ln) (c : Composer) (hc : l.composer = some c) (h : ¬ Plain c.comps) : lnToDict l = none := by
  simp [lnToDict, hc, composerToDict, compsToDict_none h]

/-- `ring = env.new_line(components=[arc, 'ip'])`. -/
def ring : Ln := ⟨.list ["q", "ip"], false, some ⟨[.line ["q"], .name "ip"], "center", none, 1 / 10 ^ 6, false⟩, none, [], true⟩

example : lnToDict ring = none := by rfl

/-! ### Lines -/

/-- Reading back what was written gives a line with the same elements in the same order, the same flags and the same names before
slicing; a line in compose mode comes back in normal mode unless it asks to stay, and then with the same composer. In particular
reading fails only if building did.

What is missing: lines with lines among their components (`C138_nested_violated`). -/
theorem C138_reload_partial (build : Composer → Option (List String)) (l : Ln)
    (hc : ∀ c, l.composer = some c → Plain c.comps)
    (hm : l.compose = false → ∃ n, l.names = .list n)
    (hk : l.compose = true → ∃ c, l.composer = some c) :
    ∃ d, lnToDict l = some d ∧
      (∀ l', lnFromDict build d = some l' →
        elementsOf build l' = elementsOf build l ∧ l'.config = l.config ∧ l'.before = l.before ∧ l'.composer = l.composer ∧
        (l'.compose = true ↔ l.compose = true ∧ l.endOnReload = false)) ∧
      (lnFromDict build d = none ↔ l.compose = true ∧ l.endOnReload = true ∧ elementsOf build l = none) := by
  cases l with
  | mk names compose composer before config endOnReload =>
  simp only at hc hm hk
  cases composer with
  | none =>
    have hcf : compose = false := by
      cases compose
      · rfl
      · obtain ⟨c, h⟩ := hk rfl; exact absurd h (by simp)
    subst hcf
    obtain ⟨n, hn⟩ := hm rfl
    subst hn
    refine ⟨_, rfl, ?_, ?_⟩
    · intro l' h
      simp [lnFromDict] at h
      subst h
      simp [elementsOf, Names.chars]
    · simp [lnFromDict]
  | some c =>
    obtain ⟨d, hd, e⟩ := C138_composer_partial c (hc c rfl)
    refine ⟨⟨names, compose, some d, before, config, endOnReload⟩, by simp only [lnToDict, hd, Option.map_some], ?_, ?_⟩
    · intro l' h
      cases compose with
      | false =>
        obtain ⟨n, hn⟩ := hm rfl
        subst hn
        simp [lnFromDict] at h
        subst h
        simp [elementsOf, Names.chars, e]
      | true =>
        cases endOnReload with
        | false =>
          simp [lnFromDict] at h
          subst h
          simp [elementsOf, e]
        | true =>
          simp [lnFromDict, e] at h
          obtain ⟨n, hn, h⟩ := h
          subst h
          simp [elementsOf, hn, Names.chars]
    · cases compose <;> cases endOnReload <;> simp [lnFromDict, elementsOf, e]

/-- A line in compose mode with two components. -/
def composing : Ln := ⟨.placeholder, true, some ⟨[.name "q", .name "ip"], "center", none, 1 / 10 ^ 6, false⟩, none, [], true⟩

/-- A simple builder: the names in sequence. -/
def seqBuild (c : Composer) : Option (List String) :=
  some (c.comps.filterMap fun x => match x with | .name s => some s | .place p => some p.name | _ => none)

example : (lnToDict composing).bind (lnFromDict seqBuild) =
    some ⟨.list ["q", "ip"], false, composing.composer, none, [], true⟩ := by decide +kernel

/-- Both copies of a line in normal mode have the same elements in the same order and the same flags set.

What is missing: deep copies in compose mode (`C138_copy_violated`). -/
theorem C138_copy_partial (build : Composer → Option (List String)) (l : Ln) (h : l.compose = false) :
    elementsOf build (deepCopy l) = elementsOf build l ∧ elementsOf build (shallowCopy l) = elementsOf build l ∧
    (∀ k, (k, true) ∈ (deepCopy l).config ↔ (k, true) ∈ l.config) ∧ (∀ k, (k, true) ∈ (shallowCopy l).config ↔ (k, true) ∈ l.config) := by
  refine ⟨?_, ?_, ?_, ?_⟩
  · simp [elementsOf, deepCopy, h, Names.chars]
  · simp [elementsOf, shallowCopy, h, Names.chars]
  · intro k; simp [deepCopy, dropFalse]
  · intro k; simp [shallowCopy, dropFalse]

/-- A shallow copy in compose mode has the same composer and makes the same elements. -/
theorem C138_shallow (build : Composer → Option (List String)) (l : Ln) (h : l.compose = true) :
    elementsOf build (shallowCopy l) = elementsOf build l ∧ (shallowCopy l).compose = true ∧ (shallowCopy l).composer = l.composer := by
  simp [elementsOf, shallowCopy, h]

/-- **Violation.** The deep copy of a line in compose mode is a line in normal mode whose elements are named `_`, `_`, `C`, `O`, ...
whatever its composer contains. -/
theorem C138_copy_violated (build : Composer → Option (List String)) (l : Ln) (h : l.names = .placeholder) :
    elementsOf build (deepCopy l) = some ["_", "_", "C", "O", "M", "P", "O", "S", "E", "_", "_"] := by
  simp only [elementsOf, deepCopy, h, Names.chars]
  decide +kernel

/-- **Violation.** The names before slicing are lost by both copies (they are kept by writing and reading). -/
theorem C138_slicing_violated (l : Ln) : (deepCopy l).before = none ∧ (shallowCopy l).before = none := ⟨rfl, rfl⟩

/-- **Violation.** `line.to_json(file, include_version=False)` writes the version all the same, as does every call which does not use
the misspelt name `inlude_version`. -/
theorem C138_version_violated : jsonVersion [("include_version", false)] = true ∧
    ∀ kwargs : List (String × Bool), (∀ e ∈ kwargs, e.1 ≠ "inlude_version") → jsonVersion kwargs = true := by
  refine ⟨by decide +kernel, ?_⟩
  intro kwargs h
  have : kwargs.any (fun e => e.1 = "inlude_version") = false := by
    rw [List.any_eq_false]
    intro e he
    simpa using h e he
  simp [jsonVersion, this]

/-! ### Environments -/

/-- `M` says which elements each line of the environment stands for: those of its names in normal mode, and those its components
stand for in compose mode. -/
def Means (ls : List EnvLn) (M : String → List String) : Prop :=
  ∀ l ∈ ls, M l.name = if l.compose then l.names.flatMap (fun c => if c ∈ ls.map (·.name) then M c else [c]) else l.names

/-- Each line in compose mode only uses lines which come before it. -/
def InOrder : List String → List EnvLn → Prop
  | _, [] => True
  | before, l :: t => (l.compose = true → ∀ c ∈ l.names, c ∈ l.name :: t.map (·.name) → c ∈ before) ∧ InOrder (before ++ [l.name]) t

theorem expand_eq {known : List (String × List String)} {M : String → List String} (hk : ∀ e ∈ known, e.2 = M e.1)
    (l : List String) : expand known l = l.flatMap fun c => if c ∈ known.map (·.1) then M c else [c] := by
  simp only [expand]
  congr 1
  funext c
  cases h : known.find? fun e => e.1 = c with
  | none =>
    have : c ∉ known.map (·.1) := by
      intro hm
      obtain ⟨e, he, rfl⟩ := List.mem_map.1 hm
      have := List.find?_eq_none.1 h e he
      simp at this
    simp [if_neg this]
  | some e =>
    have hc : e.1 = c := by simpa using List.find?_some h
    have he := List.mem_of_find?_eq_some h
    have : c ∈ known.map (·.1) := List.mem_map.2 ⟨e, he, hc⟩
    rw [if_pos this]
    simp [hk e he, hc]

theorem readLines_means (M : String → List String) : ∀ (ls : List EnvLn) (known : List (String × List String)) (all : List EnvLn),
    all.map (·.name) = known.map (·.1) ++ ls.map (·.name) → (∀ l ∈ ls, l ∈ all) → Means all M →
    (∀ e ∈ known, e.2 = M e.1) → InOrder (known.map (·.1)) ls →
    readLines known ls = known ++ ls.map fun l => (l.name, M l.name)
  | [], known, all, _, _, _, _, _ => by simp [readLines]
  | l :: t, known, all, hall, hin, hM, hk, hord => by
    obtain ⟨ho, hrest⟩ := hord
    have hval : (if l.compose = true then expand known l.names else l.names) = M l.name := by
      rw [hM l (hin l List.mem_cons_self)]
      by_cases hc : l.compose = true
      · rw [if_pos hc, if_pos hc, expand_eq hk]
        have : ∀ c ∈ l.names, (if c ∈ known.map (·.1) then M c else [c]) = (if c ∈ all.map (·.name) then M c else [c]) := by
          intro c hcn
          by_cases hkn : c ∈ known.map (·.1)
          · rw [if_pos hkn, if_pos (by rw [hall]; exact List.mem_append_left _ hkn)]
          · rw [if_neg hkn, if_neg]
            rw [hall, List.mem_append]
            rintro (h | h)
            · exact hkn h
            · exact hkn (ho hc c hcn (by simpa using h))
        rw [List.flatMap_def, List.flatMap_def, List.map_congr_left this]
      · rw [if_neg hc, if_neg hc]
    simp only [readLines, hval]
    rw [readLines_means M t (known ++ [(l.name, M l.name)]) all (by simp [hall])
      (fun x hx => hin x (List.mem_cons_of_mem _ hx)) hM
      (by
        intro e he
        rcases List.mem_append.1 he with h | h
        · exact hk e h
        · simp only [List.mem_singleton] at h; subst h; rfl)
      (by simpa using hrest)]
    simp

/-- When every line in compose mode only uses lines which come before it in the environment, every line stands for the same elements
after writing and reading (and after `env.copy()`, which is the same).

What is missing: lines which use lines defined after them (`C138_order_violated`). -/
theorem C138_env_partial (ls : List EnvLn) (M : String → List String) (hM : Means ls M) (ho : InOrder [] ls) :
    readLines [] ls = ls.map fun l => (l.name, M l.name) := by
  simpa using readLines_means M ls [] ls (by simp) (fun _ h => h) hM (by simp) (by simpa using ho)

example : InOrder [] [⟨"cell", false, ["q", "d"]⟩, ⟨"ring", true, ["cell", "cell"]⟩] := by
  simp [InOrder]

/-- **Violation.** A line in compose mode which uses a line defined after it: before saving it stands for the elements of that line,
and after reading it holds the name of the line as if this were an element. -/
theorem C138_order_violated : ∃ (ls : List EnvLn) (M : String → List String), Means ls M ∧ M "ring" = ["q", "d", "q", "d"] ∧
    readLines [] ls = [("ring", ["cell", "cell"]), ("cell", ["q", "d"])] := by
  refine ⟨[⟨"ring", true, ["cell", "cell"]⟩, ⟨"cell", false, ["q", "d"]⟩],
    fun n => if n = "ring" then ["q", "d", "q", "d"] else if n = "cell" then ["q", "d"] else [], ?_, by simp, by decide +kernel⟩
  intro l hl
  simp only [List.mem_cons, List.not_mem_nil, or_false] at hl
  rcases hl with rfl | rfl <;> simp

end Verif.Saved
