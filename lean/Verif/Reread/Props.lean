import Verif.Reread.Model

/-!
# C188: a dictionary can be read again
-/

namespace Verif.Reread

/-! ## Specification -/

/-- Reading the same dictionary twice gives the same twice. -/
def Again {A B : Type} (read : A → B × A) (d : A) : Prop := (read (read d).2).1 = (read d).1

/-- Reading does not change the dictionary. -/
def Untouched {A B : Type} (read : A → B × A) (d : A) : Prop := (read d).2 = d

theorem Untouched.again {A B : Type} {read : A → B × A} {d : A} (h : Untouched read d) : Again read d := by
  unfold Again; rw [h]

/-! ## Functions -/

variable {D : Type}

theorem functions_read (known : String → Bool) (fs : List (String × Fn D)) (h : ∀ kf ∈ fs, known kf.2.cls = true) :
    functionsFromDict known (functionsToDict fs) =
      (.ok fs, fs.map fun kf => (kf.1, { cls := none, data := kf.2.data })) := by
  induction fs with
  | nil => rfl
  | cons kf rest ih =>
    have ih := ih (fun x hx => h x (List.mem_cons_of_mem _ hx))
    simp only [functionsToDict, List.map_cons] at ih ⊢
    simp only [functionsFromDict, h kf List.mem_cons_self, if_true, ih]
    rfl

/-- C188 (functions, first reading): all functions are read as they were written. -/
theorem C188_functions_first (known : String → Bool) (fs : List (String × Fn D)) (h : ∀ kf ∈ fs, known kf.2.cls = true) :
    (functionsFromDict known (functionsToDict fs)).1 = .ok fs := by
  rw [functions_read known fs h]

/-- C188 (functions), violated: with any function at all, the second reading of the same dictionary fails. -/
theorem C188_functions_violated (known : String → Bool) (fs : List (String × Fn D)) (h : ∀ kf ∈ fs, known kf.2.cls = true)
    (hne : fs ≠ []) :
    (functionsFromDict known (functionsFromDict known (functionsToDict fs)).2).1 = .error (.keyError "__class__") ∧
      ¬ Again (functionsFromDict known) (functionsToDict fs) := by
  have h2 : (functionsFromDict known (functionsFromDict known (functionsToDict fs)).2).1 = .error (.keyError "__class__") := by
    rw [functions_read known fs h]
    cases fs with
    | nil => exact absurd rfl hne
    | cons kf rest => rfl
  refine ⟨h2, ?_⟩
  intro ha
  unfold Again at ha
  rw [h2, C188_functions_first known fs h] at ha
  exact absurd ha (by simp)

example : (functionsFromDict (fun c => c == "FunctionPieceWiseLinear")
    (functionsToDict [("f", ({ cls := "FunctionPieceWiseLinear", data := [1, 2] } : Fn (List Nat)))])).1.toOption.isSome = true := by
  decide

/-! ## Tables -/

/-- Attributes as tables have them: a dictionary among them is not one of particles written before. -/
def Written (as : List (String × Attr D)) : Prop := ∀ k v, (k, Attr.dict (some "Particles") v) ∉ as

/-- C188 (tables, first reading): all attributes are read as they were written, particles as particles. -/
theorem C188_table_first (as : List (String × Attr D)) (h : Written as) : (attrsFromDict (attrsToDict as)).1 = as := by
  simp only [attrsFromDict, attrsToDict, List.map_map]
  have : ∀ ka ∈ as, ((fun ka : String × Attr D => (ka.1, (deserializeAttr ka.2).1)) ∘ fun ka => (ka.1, serializeAttr ka.2)) ka = ka := by
    intro ka hka
    obtain ⟨k, a⟩ := ka
    cases a with
    | plain v => rfl
    | particles v => rfl
    | dict c v =>
      have hc : c ≠ some "Particles" := by rintro rfl; exact h k v hka
      simp [serializeAttr, deserializeAttr, hc]
  rw [List.map_congr_left this]
  simp

/-- C188 (tables): a table without particles among its attributes can be read any number of times. -/
theorem C188_table_partial (as : List (String × Attr D)) (h : Written as) (hp : ∀ k v, (k, Attr.particles v) ∉ as) :
    Untouched attrsFromDict (attrsToDict as) := by
  simp only [Untouched, attrsFromDict, attrsToDict, List.map_map]
  apply List.map_congr_left
  intro ka hka
  obtain ⟨k, a⟩ := ka
  cases a with
  | plain v => rfl
  | particles v => exact absurd hka (hp k v)
  | dict c v =>
    have hc : c ≠ some "Particles" := by rintro rfl; exact h k v hka
    simp [serializeAttr, deserializeAttr, hc]

/-- C188 (tables), violated: particles among the attributes of a table (the closed orbit of a twiss table) come out of the second
reading as a mere dictionary. -/
theorem C188_table_violated (as : List (String × Attr D)) (h : Written as) (k : String) (v : D)
    (hp : (k, Attr.particles v) ∈ as) :
    (k, Attr.dict none v) ∈ (attrsFromDict (attrsFromDict (attrsToDict as)).2).1 ∧
      ¬ Again attrsFromDict (attrsToDict as) := by
  have key : ∀ ka ∈ (attrsFromDict (attrsFromDict (attrsToDict as)).2).1, ∀ w : D, ka.2 ≠ Attr.particles w := by
    intro ka hka w
    simp only [attrsFromDict, attrsToDict, List.map_map, List.mem_map, Function.comp] at hka
    obtain ⟨⟨k', a⟩, hm, rfl⟩ := hka
    cases a with
    | plain v => simp [serializeAttr, deserializeAttr]
    | particles v => simp [serializeAttr, deserializeAttr]
    | dict c v =>
      have hc : c ≠ some "Particles" := by rintro rfl; exact h k' v hm
      simp [serializeAttr, deserializeAttr, hc]
  refine ⟨?_, ?_⟩
  · simp only [attrsFromDict, attrsToDict, List.map_map, List.mem_map, Function.comp]
    exact ⟨(k, .particles v), hp, by simp [serializeAttr, deserializeAttr]⟩
  · intro ha
    unfold Again at ha
    rw [C188_table_first as h] at ha
    rw [ha] at key
    exact key _ hp v rfl

example : Written [("particle_on_co", Attr.particles 1), ("qx", .plain 2), ("other", .dict none 3)] := by
  intro k v h
  simp at h

/-! ## Elements -/

/-- C188 (elements): reading elements never changes their dictionaries, whether it succeeds or not. -/
theorem C188_elements (known : String → Bool) (el : FnDict D) : Untouched (elementFromDict known) el := by
  unfold Untouched elementFromDict
  dsimp only
  split
  · rfl
  · split <;> rfl

/-- C188 (elements): and gives the class and the data which are there. -/
theorem C188_elements_read (known : String → Bool) (f : Fn D) (h : known f.cls = true) :
    (elementFromDict known { cls := some f.cls, data := f.data }).1 = .ok f := by
  simp [elementFromDict, h]

/-! ## Ancient lines -/

variable {E : Type}

/-- C188 (ancient lines): the dictionary is changed to the new format, but reading it again gives the same. -/
theorem C188_ancient (names : List String) (els : Elements E) : Again (lineElements names) els := by
  unfold Again lineElements
  cases els with
  | list l => by_cases h : l.length = names.length <;> simp [h]
  | dict d => rfl

theorem put_new (d : List (String × E)) (k : String) (e : E) (h : k ∉ d.map Prod.fst) : put d k e = d ++ [(k, e)] := by
  unfold put
  rw [if_neg]
  simp only [List.any_eq_true, beq_iff_eq, not_exists, not_and]
  intro x hx hk
  exact h (hk ▸ List.mem_map_of_mem hx)

theorem zipDict_go (names : List String) : ∀ (l : List E) (d : List (String × E)), names.Nodup →
    (∀ n ∈ names, n ∉ d.map Prod.fst) → (names.zip l).foldl (fun d x => put d x.1 x.2) d = d ++ names.zip l := by
  induction names with
  | nil => intro l d _ _; simp
  | cons n ns ih =>
    intro l d hn hd
    cases l with
    | nil => simp
    | cons e es =>
      rw [List.nodup_cons] at hn
      simp only [List.zip_cons_cons, List.foldl_cons]
      rw [put_new d n e (hd n List.mem_cons_self), ih es _ hn.2]
      · simp
      · intro m hm
        simp only [List.map_append, List.map_cons, List.map_nil, List.mem_append, List.mem_singleton, not_or]
        exact ⟨hd m (List.mem_cons_of_mem _ hm), fun h => hn.1 (h ▸ hm)⟩

/-- C188 (ancient lines): with names which are all different every name gets its element. -/
theorem C188_ancient_read (names : List String) (l : List E) (hn : names.Nodup) (hl : l.length = names.length) :
    (lineElements names (.list l)).1 = .ok (names.zip l) := by
  have := zipDict_go names l [] hn (by simp)
  simp only [lineElements, hl, if_true, zipDict]
  rw [this]; rfl

example : (lineElements ["a", "b"] (.list [1, 2])).2 = .dict [("a", 1), ("b", 2)] := by decide

/-! ## Metadata -/

/-- C188 (metadata): if the dictionary has no metadata, two objects read from it have their own. -/
theorem C188_metadata_partial (m : Mem) (k k' : String) (v : Int) :
    let r1 := readMetadata m none
    let r2 := readMetadata r1.2 none
    getMetadata (setMetadata r2.2 r1.1 k v) r2.1 k' = getMetadata r2.2 r2.1 k' := by
  simp only [readMetadata, getMetadata, setMetadata, List.getElem?_modify]
  simp

theorem lookup_put (d : List (String × Int)) (k : String) (v : Int) : (put d k v).lookup k = some v := by
  unfold put
  split
  · rename_i h
    induction d with
    | nil => simp at h
    | cons x xs ih =>
      by_cases hx : x.1 = k
      · simp [List.lookup, hx]
      · have hx' : (k == x.1) = false := by simp [Ne.symm hx]
        have : (xs.any fun x => x.1 == k) = true := by simpa [hx] using h
        simp only [List.map_cons, beq_iff_eq, hx, if_false]
        rw [List.lookup_cons, hx']
        simpa using ih this
  · rename_i h
    induction d with
    | nil => simp [List.lookup]
    | cons x xs ih =>
      have hx : x.1 ≠ k := by intro hk; exact h (by simp [hk])
      have hx' : (k == x.1) = false := by simp [Ne.symm hx]
      rw [List.cons_append, List.lookup_cons, hx']
      exact ih (by intro hh; exact h (by simp [hh]))

/-- C188 (metadata), violated: two objects read from the same dictionary with metadata share them: whatever is set in
one of them is found in the other, and in the dictionary. -/
theorem C188_metadata_violated (m : Mem) (a : Nat) (ha : a < m.length) (k : String) (v : Int) :
    let r1 := readMetadata m (some a)
    let r2 := readMetadata r1.2 (some a)
    getMetadata (setMetadata r2.2 r1.1 k v) r2.1 k = some v := by
  simp only [readMetadata, getMetadata, setMetadata, List.getElem?_modify]
  simp [ha, lookup_put]

example : getMetadata (setMetadata [[("a", 1)]] ⟨0⟩ "a" 2) ⟨0⟩ "a" = some 2 := by decide

end Verif.Reread
