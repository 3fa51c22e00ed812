import Verif.Load.Model

/-!
# C191: `xt.load` reads what it is given
-/

namespace Verif.Load

variable {D O : Type}

/-! ## Specification -/

/-- The endings of the formats. -/
def ending : Format → List String
  | .json => [".json", ".json.gz"]
  | .madx => [".seq", ".madx", ".str"]
  | .python => [".py"]
  | .csv => [".csv"]
  | .hdf5 => [".h5", ".hdf5"]
  | .tfs => [".tfs"]

/-! ## Lemmas -/

theorem suffix_last (stem ext p : Text) (h : p.length ≤ ext.length) :
    p.isSuffixOf (stem ++ ext) = p.isSuffixOf ext := by
  rw [Bool.eq_iff_iff, List.isSuffixOf_iff_suffix, List.isSuffixOf_iff_suffix]
  constructor
  · intro hp
    exact List.suffix_of_suffix_length_le hp (List.suffix_append stem ext) h
  · intro hp
    exact hp.trans (List.suffix_append stem ext)

/-- A suffix which is longer than the ending contains it. -/
theorem suffix_long (stem ext p : Text) (h : ext.length ≤ p.length) (hp : p.isSuffixOf (stem ++ ext) = true) :
    ext.isSuffixOf p = true := by
  rw [List.isSuffixOf_iff_suffix] at hp ⊢
  exact List.suffix_of_suffix_length_le (List.suffix_append stem ext) hp h

theorem suffix_false (stem ext p : Text) (h1 : p.isSuffixOf ext = false) (h2 : ext.isSuffixOf p = false) :
    p.isSuffixOf (stem ++ ext) = false := by
  rcases Nat.le_total p.length ext.length with h | h
  · rw [suffix_last stem ext p h, h1]
  · cases hs : p.isSuffixOf (stem ++ ext) with
    | false => rfl
    | true => rw [suffix_long stem ext p h hs] at h2; exact absurd h2 (by simp)

theorem suffix_true (stem ext p : Text) (h1 : p.isSuffixOf ext = true) : p.isSuffixOf (stem ++ ext) = true := by
  rw [List.isSuffixOf_iff_suffix] at h1 ⊢
  exact h1.trans (List.suffix_append stem ext)

theorem endsIn_false (st : Text) (x : String) (l : List String)
    (h : ∀ p ∈ l, p.toList.isSuffixOf x.toList = false ∧ x.toList.isSuffixOf p.toList = false) :
    endsIn (st ++ x.toList) l = false := by
  unfold endsIn
  rw [List.any_eq_false]
  intro p hp
  rw [suffix_false _ _ _ (h p hp).1 (h p hp).2]
  simp

theorem endsIn_true (st : Text) (x : String) (l : List String) (h : ∃ p ∈ l, p.toList.isSuffixOf x.toList = true) :
    endsIn (st ++ x.toList) l = true := by
  obtain ⟨p, hp, h⟩ := h
  exact List.any_eq_true.mpr ⟨p, hp, suffix_true _ _ _ h⟩

/-! ## C191 -/

/-- C191 (formats): whatever comes before it and with whatever capital letters, every ending means its format. -/
theorem C191_guess (f : Format) (ext : String) (h : ext ∈ ending f) (stem e : Text) (he : lower e = ext.toList) :
    guess (stem ++ e) = some f := by
  have hl : lower (stem ++ e) = lower stem ++ ext.toList := by rw [← he]; exact List.map_append
  unfold guess
  rw [hl]
  generalize lower stem = st
  cases f <;> simp only [ending, List.mem_cons, List.not_mem_nil, or_false] at h
  · rcases h with rfl | rfl
    · simp only [endsIn_true st ".json" [".json", ".json.gz"] (by decide), Bool.false_eq_true, if_false, if_true]
    · simp only [endsIn_true st ".json.gz" [".json", ".json.gz"] (by decide), Bool.false_eq_true, if_false, if_true]
  · rcases h with rfl | rfl | rfl
    · simp only [endsIn_false st ".seq" [".json", ".json.gz"] (by decide),
        endsIn_true st ".seq" [".seq", ".madx", ".str"] (by decide), Bool.false_eq_true, if_false, if_true]
    · simp only [endsIn_false st ".madx" [".json", ".json.gz"] (by decide),
        endsIn_true st ".madx" [".seq", ".madx", ".str"] (by decide), Bool.false_eq_true, if_false, if_true]
    · simp only [endsIn_false st ".str" [".json", ".json.gz"] (by decide),
        endsIn_true st ".str" [".seq", ".madx", ".str"] (by decide), Bool.false_eq_true, if_false, if_true]
  · subst h
    simp only [endsIn_false st ".py" [".json", ".json.gz"] (by decide),
      endsIn_false st ".py" [".seq", ".madx", ".str"] (by decide),
      endsIn_true st ".py" [".py"] (by decide), Bool.false_eq_true, if_false, if_true]
  · subst h
    simp only [endsIn_false st ".csv" [".json", ".json.gz"] (by decide),
      endsIn_false st ".csv" [".seq", ".madx", ".str"] (by decide),
      endsIn_false st ".csv" [".py"] (by decide),
      endsIn_false st ".csv" [".h5", ".hdf5"] (by decide),
      endsIn_true st ".csv" [".csv"] (by decide), Bool.false_eq_true, if_false, if_true]
  · rcases h with rfl | rfl
    · simp only [endsIn_false st ".h5" [".json", ".json.gz"] (by decide),
        endsIn_false st ".h5" [".seq", ".madx", ".str"] (by decide),
        endsIn_false st ".h5" [".py"] (by decide),
        endsIn_true st ".h5" [".h5", ".hdf5"] (by decide), Bool.false_eq_true, if_false, if_true]
    · simp only [endsIn_false st ".hdf5" [".json", ".json.gz"] (by decide),
        endsIn_false st ".hdf5" [".seq", ".madx", ".str"] (by decide),
        endsIn_false st ".hdf5" [".py"] (by decide),
        endsIn_true st ".hdf5" [".h5", ".hdf5"] (by decide), Bool.false_eq_true, if_false, if_true]
  · subst h
    simp only [endsIn_false st ".tfs" [".json", ".json.gz"] (by decide),
      endsIn_false st ".tfs" [".seq", ".madx", ".str"] (by decide),
      endsIn_false st ".tfs" [".py"] (by decide),
      endsIn_false st ".tfs" [".h5", ".hdf5"] (by decide),
      endsIn_false st ".tfs" [".csv"] (by decide),
      endsIn_true st ".tfs" [".tfs"] (by decide), Bool.false_eq_true, if_false, if_true]

/-- C191 (sources): the same data from the disk, from the net, as a string or as a stream give the same, if the format
is known and is not Python; compressed data are taken from names in small letters. -/
theorem C191_sources_partial (w : World D) (f : Format) (hf : f ≠ .python) (file url : Text) (d : D) (o : O)
    (h1 : isUrl file = false) (h2 : isUrl url = true) (g1 : endsGz file = false) (g2 : endsGz url = false)
    (d1 : w.disk file = some (.plain d)) (d2 : w.net url = some (.plain d)) :
    let r : Except Err (Result D O) := .ok ⟨f, [d], if f = .hdf5 then none else some o⟩
    load w (some (.name file)) none (some f) false o = r ∧ load w (some (.name url)) none (some f) false o = r ∧
      load w none (some d) (some f) false o = r ∧ load w (some (.stream d)) none (some f) false o = r := by
  refine ⟨?_, ?_, ?_, ?_⟩
  · simp [load, formatOf, h1, readFile, g1, d1, content]
  · simp [load, formatOf, h2, readString, g2, d2, content, hf]
  · simp [load, formatOf, readString, hf]
  · simp [load, formatOf, readFile, hf]

/-- C191 (compressed): compressed JSON is read from the disk and from the net. -/
theorem C191_compressed_partial (w : World D) (file url : Text) (d : D) (o : O)
    (h1 : isUrl file = false) (h2 : isUrl url = true) (g1 : endsGz file = true) (g2 : endsGz url = true)
    (d1 : w.disk file = some (.gzip d)) (d2 : w.net url = some (.gzip d)) :
    load w (some (.name file)) none (some .json) false o = .ok ⟨.json, [d], some o⟩ ∧
      load w (some (.name url)) none (some .json) false o = .ok ⟨.json, [d], some o⟩ := by
  refine ⟨?_, ?_⟩
  · simp [load, formatOf, h1, readFile, g1, d1, content]
  · simp [load, formatOf, h2, readString, g2, d2, content]

/-- C191 (lists): a list of MAD-X files is read in its order. -/
theorem C191_list (w : World D) (l : List Text) (data : Text → D) (o : O) (hl : l ≠ [])
    (hg : ∀ n ∈ l, guess n = some .madx) (hd : ∀ n ∈ l, w.disk n = some (.plain (data n))) :
    load w (some (.names l)) none none false o = .ok ⟨.madx, l.map data, some o⟩ := by
  have hc : ∀ m : List Text, (∀ n ∈ m, w.disk n = some (.plain (data n))) → contents w m = .ok (m.map data) := by
    intro m hm
    induction m with
    | nil => rfl
    | cons n ns ih =>
      simp only [contents, hm n List.mem_cons_self, content, Bool.false_eq_true, if_false,
        ih (fun k hk => hm k (List.mem_cons_of_mem _ hk)), List.map_cons]
  have hf : formatOf (some (.names l : Source D)) none = some .madx := by
    cases l with
    | nil => exact absurd rfl hl
    | cons n ns =>
      have hn := hg n List.mem_cons_self
      have ha : (ns.all fun m => guess m == guess n) = true := by
        rw [List.all_eq_true]
        intro m hm
        rw [hn, hg m (List.mem_cons_of_mem _ hm)]
        rfl
      simp only [formatOf]
      rw [if_pos ha, hn]
  simp [load, hf, readFile, hc l hd]

/-- C191 (lists): files of different formats are refused. -/
theorem C191_mixed (w : World D) (n m : Text) (ns : List Text) (hm : m ∈ ns) (h : guess m ≠ guess n) (o : O) :
    load w (some (.names (n :: ns))) none none false o = .error .unknown := by
  have ha : (ns.all fun m => guess m == guess n) = false := by
    rw [List.all_eq_false]
    exact ⟨m, hm, by simp [h]⟩
  simp [load, formatOf, ha]

/-- C191 (sources), violated: a Python file which can be loaded from the disk cannot be loaded from the net. -/
theorem C191_python_violated (w : World D) (file url : Text) (d : D) (o : O) (h1 : isUrl file = false) (h2 : isUrl url = true)
    (g2 : endsGz url = false) (d1 : w.disk file = some (.plain d)) (d2 : w.net url = some (.plain d)) :
    load w (some (.name file)) none (some .python) false o = .ok ⟨.python, [d], some o⟩ ∧
      load w (some (.name url)) none (some .python) false o = .error .notImplemented := by
  refine ⟨?_, ?_⟩
  · simp [load, formatOf, h1, readFile, d1, content]
  · simp [load, formatOf, h2, readString, g2, d2, content]

/-- C191 (compressed), violated: the format of a compressed file with capital letters in its ending is known, but it is not
decompressed. -/
theorem C191_capitals_violated (w : World D) (stem : Text) (d : D) (o : O) (h : isUrl (stem ++ ".JSON.GZ".toList) = false)
    (hd : w.disk (stem ++ ".JSON.GZ".toList) = some (.gzip d)) :
    guess (stem ++ ".JSON.GZ".toList) = some .json ∧
      load w (some (.name (stem ++ ".JSON.GZ".toList))) none none false o = .error .decode := by
  have hg := C191_guess .json ".json.gz" (by decide) stem ".JSON.GZ".toList (by decide)
  refine ⟨hg, ?_⟩
  have hz : endsGz (stem ++ ".JSON.GZ".toList) = false := by
    unfold endsGz
    rw [suffix_last _ _ _ (by decide)]
    decide
  unfold load
  simp only [formatOf, hg, h, readFile, hz, hd, content]
  simp

/-- C191 (lists), violated: MAD-X files which can be loaded one by one from the net cannot be loaded together. -/
theorem C191_urls_violated (w : World D) (u : Text) (us : List Text) (o : O) (hd : w.disk u = none) :
    load w (some (.names (u :: us))) none (some .madx) false o = .error .notFound := by
  simp [load, formatOf, readFile, contents, hd, content]

/-- C191 (options), violated: options for HDF5 files, such as the group, are not heeded. -/
theorem C191_options_violated (w : World D) (s : Option (Source D)) (d : Option D) (o o' : O) :
    load w s d (some .hdf5) false o = load w s d (some .hdf5) false o' := by
  unfold load
  simp only [formatOf, readFile, readString, if_true]

example : guess "/home/a.b/LHC.Seq".toList = some .madx := by decide

example : load (D := Nat) (O := Unit) ⟨fun n => if n = "a.json".toList then some (.plain 3) else none, fun _ => none⟩ (some (.name "a.json".toList)) none none
    false () = .ok ⟨.json, [3], some ()⟩ := by rfl

end Verif.Load
