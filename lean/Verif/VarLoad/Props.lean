import Verif.VarLoad.Model

/-!
# C195: loading variables gives those of the file, in any order, and leaves the settings
-/

namespace Verif.VarLoad

/-! ## Specification -/

/-- The entry of a name. -/
def entry (es : List (String × Def)) (n : String) : Option Def :=
  (es.find? fun x => x.1 = n).map (·.2)

def Def.names : Def → List String
  | .val _ => []
  | .expr _ us => us

/-- What a name has after loading: its entry, else what it had before, else zero if it is used by an entry. -/
def expected (es : List (String × Def)) (s : St) (n : String) : Option Def :=
  match entry es n with
  | some d => some d
  | none =>
    match s.defs n with
    | some d => some d
    | none => if es.any (fun x => x.2.names.contains n) then some (.val 0) else none

/-! ## Lemmas -/

theorem touch_zero : ∀ (us : List String) (s : St), s.zero = true →
    (touch us s).2 = none ∧ (touch us s).1.zero = true ∧ (touch us s).1.taken = s.taken ∧
      ∀ n, (touch us s).1.defs n = match s.defs n with
        | some d => some d
        | none => if us.contains n then some (.val 0) else none := by
  intro us
  induction us with
  | nil =>
    intro s hz
    refine ⟨rfl, hz, rfl, ?_⟩
    intro n
    simp only [touch]
    cases s.defs n <;> simp
  | cons u us ih =>
    intro s hz
    simp only [touch]
    cases hu : s.defs u with
    | some d =>
      obtain ⟨h1, h2, h3, h4⟩ := ih s hz
      refine ⟨h1, h2, h3, ?_⟩
      intro n
      dsimp only
      rw [h4 n]
      cases hn : s.defs n with
      | some d' => rfl
      | none =>
        have hne : n ≠ u := by rintro rfl; rw [hu] at hn; exact absurd hn (by simp)
        simp [hne]
    | none =>
      simp only [hz, if_true]
      obtain ⟨h1, h2, h3, h4⟩ := ih (s.put u (.val 0)) hz
      refine ⟨h1, h2, h3, ?_⟩
      intro n
      rw [h4 n]
      by_cases hne : n = u
      · subst hne; simp [St.put, hu]
      · simp [St.put, hne]

theorem setItem_zero (s : St) (k : String) (d : Def) (hz : s.zero = true) (ht : s.taken k = false) :
    (setItem s k d).2 = none ∧ (setItem s k d).1.zero = true ∧ (setItem s k d).1.taken = s.taken ∧
      ∀ n, (setItem s k d).1.defs n = if n = k then some d else match s.defs n with
        | some d => some d
        | none => if d.names.contains n then some (.val 0) else none := by
  unfold setItem
  rw [ht]
  simp only [Bool.false_eq_true, if_false]
  cases d with
  | val v =>
    refine ⟨rfl, hz, rfl, ?_⟩
    intro n
    simp only [St.put, Def.names]
    split
    · rfl
    · cases s.defs n <;> simp
  | expr t us =>
    obtain ⟨h1, h2, h3, h4⟩ := touch_zero us s hz
    dsimp only
    revert h1 h2 h3 h4
    generalize touch us s = r
    obtain ⟨s', e⟩ := r
    rintro rfl h2 h3 h4
    refine ⟨rfl, h2, h3, ?_⟩
    intro n
    have h4n := h4 n
    dsimp only at h4n
    simp only [St.put, Def.names, h4n]
    cases s.defs n <;> rfl

theorem setAll_zero : ∀ (es : List (String × Def)) (s : St), s.zero = true → (∀ x ∈ es, s.taken x.1 = false) → (es.map (·.1)).Nodup →
    (setAll es s).2 = none ∧ (setAll es s).1.taken = s.taken ∧ ∀ n, (setAll es s).1.defs n = expected es s n := by
  intro es
  induction es with
  | nil =>
    intro s _ _ _
    refine ⟨rfl, rfl, ?_⟩
    intro n
    simp only [setAll, expected, entry, List.find?_nil, Option.map_none, List.any_nil]
    cases s.defs n <;> simp
  | cons x es ih =>
    obtain ⟨k, d⟩ := x
    intro s hz ht hn
    simp only [List.map_cons, List.nodup_cons] at hn
    obtain ⟨h1, h2, h3, h4⟩ := setItem_zero s k d hz (ht _ List.mem_cons_self)
    simp only [setAll]
    revert h1 h2 h3 h4
    generalize setItem s k d = r
    obtain ⟨s', e⟩ := r
    rintro rfl h2 h3 h4
    dsimp only at h2 h3 h4 ⊢
    obtain ⟨i1, i2, i3⟩ := ih s' h2 (fun x hx => by rw [h3]; exact ht x (List.mem_cons_of_mem _ hx)) hn.2
    refine ⟨i1, i2.trans h3, ?_⟩
    intro n
    rw [i3 n]
    simp only [expected, entry, List.find?_cons, List.any_cons]
    rw [h4 n]
    by_cases hk : k = n
    · subst hk
      have : es.find? (fun x => x.1 = k) = none := by
        rw [List.find?_eq_none]
        intro x hx hh
        exact hn.1 (List.mem_map.2 ⟨x, hx, by simpa using hh⟩)
      simp [this]
    · have hk' : ¬ n = k := fun h => hk h.symm
      simp only [hk, decide_false, hk', if_false]
      cases (es.find? fun x => decide (x.1 = n)) with
      | some y => rfl
      | none =>
        cases s.defs n with
        | some d' => rfl
        | none =>
          simp only [Option.map_none]
          by_cases hc : d.names.contains n = true
          · have ho : (d.names.contains n || es.any fun x => x.2.names.contains n) = true := by rw [hc]; rfl
            rw [if_pos hc]
            exact (if_pos ho).symm
          · rw [if_neg hc]
            by_cases he : (es.any fun x => x.2.names.contains n) = true
            · exact (if_pos he).trans (if_pos (by rw [he, Bool.or_true])).symm
            · refine (if_neg he).trans (if_neg ?_).symm
              rw [(Bool.not_eq_true _).mp hc, Bool.false_or]
              exact he

/-! ## C195 -/

/-- C195: loading a file none of whose names is that of an element never fails, and gives every name what is expected. -/
theorem C195_loaded_partial (es : List (String × Def)) (s : St) (ht : ∀ x ∈ es, s.taken x.1 = false) (hn : (es.map (·.1)).Nodup) :
    (load (some es) s).2 = none ∧ ∀ n, (load (some es) s).1.defs n = expected es s n := by
  obtain ⟨h1, -, h3⟩ := setAll_zero es { s with zero := true } rfl ht hn
  exact ⟨h1, h3⟩

theorem entry_perm {es fs : List (String × Def)} (h : es.Perm fs) (hn : (es.map (·.1)).Nodup) (n : String) : entry es n = entry fs n := by
  have key : ∀ {es : List (String × Def)}, (es.map (·.1)).Nodup → ∀ d, entry es n = some d ↔ (n, d) ∈ es := by
    intro es
    induction es with
    | nil => intro _ d; simp [entry]
    | cons x es ih =>
      obtain ⟨k, d'⟩ := x
      intro hn d
      simp only [List.map_cons, List.nodup_cons] at hn
      have := ih hn.2 d
      simp only [entry, List.find?_cons] at this ⊢
      by_cases hk : k = n
      · subst hk
        simp only [decide_true, Option.map_some, Option.some.injEq, List.mem_cons, Prod.mk.injEq, true_and]
        constructor
        · intro h; exact Or.inl h.symm
        · rintro (h | h)
          · exact h.symm
          · exact absurd (List.mem_map.2 ⟨_, h, rfl⟩) hn.1
      · have hk' : ¬ n = k := fun h => hk h.symm
        simp only [hk, decide_false, this, List.mem_cons, Prod.mk.injEq, hk', false_and, false_or]
  have hn' : (fs.map (·.1)).Nodup := (h.map _).nodup_iff.1 hn
  apply Option.ext
  intro d
  rw [key hn, key hn', h.mem_iff]

/-- C195: the order of the entries of a file does not matter. -/
theorem C195_order_partial (es fs : List (String × Def)) (h : es.Perm fs) (s : St) (ht : ∀ x ∈ es, s.taken x.1 = false)
    (hn : (es.map (·.1)).Nodup) : ∀ n, (load (some es) s).1.defs n = (load (some fs) s).1.defs n := by
  intro n
  rw [(C195_loaded_partial es s ht hn).2, (C195_loaded_partial fs s (fun x hx => ht x (h.mem_iff.2 hx)) ((h.map _).nodup_iff.1 hn)).2]
  unfold expected
  rw [entry_perm h hn]
  have : (es.any fun x => x.2.names.contains n) = (fs.any fun x => x.2.names.contains n) := by
    rw [Bool.eq_iff_iff, List.any_eq_true, List.any_eq_true]
    exact ⟨fun ⟨x, hx, hh⟩ => ⟨x, h.mem_iff.1 hx, hh⟩, fun ⟨x, hx, hh⟩ => ⟨x, h.mem_iff.2 hx, hh⟩⟩
  rw [this]

theorem touch_flag : ∀ (us : List String) (s : St), (touch us s).1.zero = s.zero := by
  intro us
  induction us with
  | nil => intro s; rfl
  | cons u us ih =>
    intro s
    simp only [touch]
    split
    · exact ih s
    · split
      · exact ih _
      · rfl

theorem setAll_flag : ∀ (es : List (String × Def)) (s : St), (setAll es s).1.zero = s.zero := by
  have item : ∀ (s : St) k d, (setItem s k d).1.zero = s.zero := by
    intro s k d
    unfold setItem
    split
    · rfl
    · cases d with
      | val v => rfl
      | expr t us =>
        have := touch_flag us s
        dsimp only
        revert this
        generalize touch us s = r
        obtain ⟨s', e⟩ := r
        intro h
        cases e <;> exact h
  intro es
  induction es with
  | nil => intro s; rfl
  | cons x es ih =>
    obtain ⟨k, d⟩ := x
    intro s
    have := item s k d
    simp only [setAll]
    revert this
    generalize setItem s k d = r
    obtain ⟨s', e⟩ := r
    intro h
    cases e with
    | some e => exact h
    | none => exact (ih s').trans h

/-- C195: updating with or without the option, and loading, leave the setting as it was, also if there is an error. -/
theorem C195_setting (opt : Option Bool) (es : List (String × Def)) (data : Option (List (String × Def))) (s : St) :
    (update opt es s).1.zero = s.zero ∧ (load data s).1.zero = s.zero := by
  constructor
  · cases opt with
    | none => exact setAll_flag es s
    | some b => rfl
  · cases data <;> rfl

/-- C195: the other functions leave the setting if there is no error. -/
theorem C195_setting_partial (constants : List (String × Def)) (data : Option (List (String × Def))) (s : St) :
    ((loadJson data s).2 = none → (loadJson data s).1.zero = s.zero) ∧
      ((loadMadx constants data s).2 = none → (loadMadx constants data s).1.zero = s.zero) := by
  constructor
  · unfold loadJson
    cases data with
    | none => intro h; rfl
    | some es =>
      dsimp only
      split
      · intro h; exact absurd h (by simp)
      · intro _; rfl
  · unfold loadMadx
    split
    · intro h; exact absurd h (by simp)
    · cases data with
      | none => intro h; exact absurd h (by simp)
      | some es =>
        dsimp only
        split
        · intro h; exact absurd h (by simp)
        · intro _; rfl

/-- An environment without variables, with an element `q`, in which missing variables are errors. -/
def bare : St := ⟨fun _ => none, false, fun n => n = "q"⟩

/-- C195, violated: after an error of `load_json` missing variables are zero: a misspelled name, an error before, is no more. -/
theorem C195_json_violated : ∃ data, (loadJson data bare).2 = some .clash ∧ (loadJson data bare).1.zero = true ∧
    (setItem bare "a" (.expr "2*bb" ["bb"])).2 = some .key ∧
    (setItem (loadJson data bare).1 "a" (.expr "2*bb" ["bb"])).2 = none :=
  ⟨some [("q", .val 1)], by decide, by decide, by decide, by decide⟩

/-- C195, violated: so for every environment and MAD-X file with an error of syntax, if the constants of MAD-X can be set. -/
theorem C195_madx_violated (constants : List (String × Def)) (s : St) (hz : s.zero = false)
    (hc : (update none constants { s with zero := true }).2 = none) :
    (loadMadx constants none s).2 = some .parse ∧ (loadMadx constants none s).1.zero = true ∧ s.zero = false := by
  have hf := (C195_setting none constants none { s with zero := true }).1
  unfold loadMadx
  revert hc hf
  generalize update none constants { s with zero := true } = r
  obtain ⟨s', e⟩ := r
  rintro rfl hf
  exact ⟨rfl, hf, hz⟩

/-- A file which uses names before they are defined. -/
example : (∀ x ∈ [("a", Def.expr "2*b" ["b", "c"]), ("b", Def.val 3)], bare.taken x.1 = false) ∧
    ([("a", Def.expr "2*b" ["b", "c"]), ("b", Def.val 3)].map (·.1)).Nodup ∧
    (load (some [("a", Def.expr "2*b" ["b", "c"]), ("b", Def.val 3)]) bare).1.defs "c" = some (.val 0) := by
  decide

/-- The constants can be set. -/
example : (update none [("pi", .val 3)] { bare with zero := true }).2 = none := by decide

end Verif.VarLoad
