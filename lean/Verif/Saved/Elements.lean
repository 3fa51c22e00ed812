import Verif.Saved.Model
import Verif.SegMap.Model
import Mathlib.Tactic.Push

/-!
# C137: elements survive being written and read

What is compared is what the user sees of an element: the values of its fields, the strengths of order `i` (with zero beyond the end
of the arrays), the position, the attributes.
-/

namespace Verif.Saved

/-! ### Elements without special treatment -/

theorem get_filterMap {c : Cls} {p : String × Val → Option (String × Val)}
    (hp : ∀ f g, p f = some g → g.1 = f.1) (nd : (c.map (·.1)).Nodup) {f : String × Val} (hf : f ∈ c) :
    get (c.filterMap p) f.1 = (p f).map (·.2) := by
  induction c with
  | nil => simp at hf
  | cons a t ih =>
    simp only [List.map_cons, List.nodup_cons] at nd
    have none_in : ∀ n, n ∉ t.map (·.1) → get (t.filterMap p) n = none := by
      intro n hn
      simp only [get, Option.map_eq_none_iff, List.find?_eq_none, List.mem_filterMap, decide_eq_true_eq]
      rintro g ⟨f', hf', hg⟩ e
      exact hn (List.mem_map.2 ⟨f', hf', by rw [← hp f' g hg, e]⟩)
    rcases List.mem_cons.1 hf with rfl | hft
    · cases h : p f with
      | none => simp only [List.filterMap_cons, h, Option.map_none]; exact none_in _ nd.1
      | some g => simp [List.filterMap_cons, h, get, hp f g h]
    · have hne : a.1 ≠ f.1 := fun e => nd.1 (List.mem_map.2 ⟨f, hft, e.symm⟩)
      cases h : p a with
      | none => simp only [List.filterMap_cons, h]; exact ih nd.2 hft
      | some g =>
        have : g.1 ≠ f.1 := by rw [hp a g h]; exact hne
        simp only [List.filterMap_cons, h, get, List.find?_cons, this, decide_false]
        exact ih nd.2 hft

theorem get_self {c : Cls} (nd : (c.map (·.1)).Nodup) {f : String × Val} (hf : f ∈ c) : get c f.1 = some f.2 := by
  have := get_filterMap (c := c) (p := some) (by rintro f g h; simp_all) nd hf
  simpa using this

/-- Every field, the associated aperture, the extra data and the prototype are the same after writing and reading, whichever of
the defaults are left out. -/
theorem C137_plain (c : Cls) (nd : (c.map (·.1)).Nodup) (drop : String → Bool) (e : Elem) :
    (∀ f ∈ c, (fromDict c (toDict c drop e)).1.val f.1 = e.val f.1) ∧
    (fromDict c (toDict c drop e)).1.aper = e.aper ∧
    (fromDict c (toDict c drop e)).1.extra = e.extra ∧
    (fromDict c (toDict c drop e)).1.proto = e.proto := by
  refine ⟨?_, rfl, ?_, rfl⟩
  · intro f hf
    simp only [fromDict, toDict]
    rw [get_filterMap (by intro f g h; beta_reduce at h; split_ifs at h; cases h; rfl) nd hf, get_self nd hf]
    beta_reduce
    by_cases h : e.val f.1 = f.2 ∧ drop f.1 = true
    · rw [if_pos h]; simp [h.1]
    · rw [if_neg h]; simp
  · simp only [fromDict, toDict]
    cases h : e.extra <;> simp

example : (["length", "k1"] : List String).Nodup := by decide

/-- **Violation.** Reading the same dictionary twice gives two different elements: the first reading removes the associated
aperture from the dictionary of the caller. -/
theorem C137_twice_violated : ∃ (c : Cls) (s : Stored),
    (fromDict c s).1.aper = some "ap" ∧ (fromDict c (fromDict c s).2).1.aper = none :=
  ⟨[], ⟨[], some "ap", none, none⟩, rfl, rfl⟩

/-! ### Multipolar strengths -/

theorem getD_pad (n : ℕ) (l : List ℚ) (i : ℕ) : (pad n l).getD i 0 = l.getD i 0 := by
  simp only [pad, List.getD_eq_getElem?_getD]
  rcases Nat.lt_or_ge i l.length with h | h
  · rw [List.getElem?_append_left h]
  · rw [List.getElem?_append_right h, List.getElem?_eq_none h, List.getElem?_replicate]
    split_ifs <;> rfl

theorem length_pad (n : ℕ) (l : List ℚ) (h : l.length ≤ n) : (pad n l).length = n := by
  simp [pad]; omega

theorem small_getD {l : List ℚ} (h : allSmall l = true) (i : ℕ) : |l.getD i 0| ≤ tiny := by
  simp only [allSmall, List.all_eq_true, decide_eq_true_eq] at h
  rw [List.getD_eq_getElem?_getD]
  cases e : l[i]? with
  | none => simp [tiny]
  | some v => exact h v (List.mem_of_getElem? e)

theorem tiny_nonneg : 0 ≤ tiny := by norm_num [tiny]

theorem keep_getD (l : List ℚ) (i : ℕ) : |((if allSmall l = true then none else some l).getD ([] : List ℚ)).getD i 0 - l.getD i 0| ≤ tiny := by
  by_cases h : allSmall l = true
  · rw [if_pos h]
    have : (([] : List ℚ).getD i 0) = 0 := by simp
    simp only [Option.getD_none, this, zero_sub, abs_neg]
    exact small_getD h i
  · rw [if_neg h]
    simp [tiny_nonneg]

/-- The strength of every order is the same up to `1e-16` after writing and reading, for every default order. -/
theorem C137_strengths (dflt : ℕ) (m : Multi) (i : ℕ) :
    |(multiReload dflt m).knl.getD i 0 - m.knl.getD i 0| ≤ 1 / 10 ^ 16 ∧
    |(multiReload dflt m).ksl.getD i 0 - m.ksl.getD i 0| ≤ 1 / 10 ^ 16 := by
  constructor
  · simp only [multiReload, multiToDict, makeMulti, prepare, getD_pad]
    exact keep_getD m.knl i
  · simp only [multiReload, multiToDict, makeMulti, prepare, getD_pad]
    exact keep_getD m.ksl i

/-- An array with at least one strength above `1e-16` comes back exactly, with all its strengths. -/
theorem C137_strengths_exact (dflt : ℕ) (m : Multi) (i : ℕ) :
    ((∃ v ∈ m.knl, 1 / 10 ^ 16 < |v|) → (multiReload dflt m).knl.getD i 0 = m.knl.getD i 0) ∧
    ((∃ v ∈ m.ksl, 1 / 10 ^ 16 < |v|) → (multiReload dflt m).ksl.getD i 0 = m.ksl.getD i 0) := by
  have key : ∀ l : List ℚ, (∃ v ∈ l, 1 / 10 ^ 16 < |v|) → allSmall l ≠ true := by
    rintro l ⟨v, hv, h⟩ hs
    simp only [allSmall, List.all_eq_true, decide_eq_true_eq] at hs
    exact absurd (hs v hv) (not_le.2 h)
  constructor
  · intro h
    simp only [multiReload, multiToDict, makeMulti, prepare, getD_pad, if_neg (key _ h), Option.getD_some]
  · intro h
    simp only [multiReload, multiToDict, makeMulti, prepare, getD_pad, if_neg (key _ h), Option.getD_some]

/-- Elements made by the constructor have `order + 1` strengths of each kind. -/
theorem makeMulti_wf (dflt : ℕ) (o : Option ℕ) (a b : Option (List ℚ)) :
    (makeMulti dflt o a b).knl.length = (makeMulti dflt o a b).order + 1 ∧
    (makeMulti dflt o a b).ksl.length = (makeMulti dflt o a b).order + 1 := by
  simp only [makeMulti, prepare]
  constructor <;> (rw [length_pad _ _ (by omega)]; omega)

/-- The order after writing and reading. -/
theorem reload_order (dflt : ℕ) (m : Multi) (h1 : m.knl.length = m.order + 1) (h2 : m.ksl.length = m.order + 1)
    (h : dflt ≤ m.order) : (multiReload dflt m).order = m.order := by
  simp only [multiReload, multiToDict, makeMulti, prepare]
  by_cases a : allSmall m.knl = true
  · by_cases b : allSmall m.ksl = true
    · simp only [if_pos a, if_pos b, and_true, Option.getD_none, List.length_nil]
      by_cases z : m.order = 0
      · simp [z, orElse]; omega
      · obtain ⟨k, hk⟩ := Nat.exists_eq_succ_of_ne_zero z
        rw [hk]; simp [orElse]
    · simp only [if_pos a, if_neg b, Option.getD_none, Option.getD_some, List.length_nil, orElse, and_false, reduceCtorEq, if_false]
      omega
  · simp only [if_neg a, reduceCtorEq, false_and, and_false, if_false, Option.getD_some, orElse]
    by_cases b : allSmall m.ksl = true
    · simp only [if_pos b, Option.getD_none, List.length_nil]; omega
    · simp only [if_neg b, Option.getD_some]; omega

/-- `Multipole`: the order and the numbers of strengths come back as they were, for every multipole the constructor makes. -/
theorem C137_slots (o : Option ℕ) (a b : Option (List ℚ)) :
    let m := makeMulti 0 o a b
    (multiReload 0 m).order = m.order ∧ (multiReload 0 m).knl.length = m.knl.length ∧
      (multiReload 0 m).ksl.length = m.ksl.length := by
  intro m
  obtain ⟨w1, w2⟩ := makeMulti_wf 0 o a b
  have r := reload_order 0 m w1 w2 (by omega)
  obtain ⟨v1, v2⟩ := makeMulti_wf 0 (multiToDict m).order (multiToDict m).knl (multiToDict m).ksl
  refine ⟨r, ?_, ?_⟩
  · rw [show (multiReload 0 m).knl.length = (multiReload 0 m).order + 1 from v1, r]; exact w1.symm
  · rw [show (multiReload 0 m).ksl.length = (multiReload 0 m).order + 1 from v2, r]; exact w2.symm

/-- The other magnets (default order 5): the same when the order is at least 5.

What is missing: smaller orders (`C137_slots_violated`). -/
theorem C137_slots_partial (o : Option ℕ) (a b : Option (List ℚ)) (h : 5 ≤ (makeMulti 5 o a b).order) :
    let m := makeMulti 5 o a b
    (multiReload 5 m).order = m.order ∧ (multiReload 5 m).knl.length = m.knl.length ∧
      (multiReload 5 m).ksl.length = m.ksl.length := by
  intro m
  obtain ⟨w1, w2⟩ := makeMulti_wf 5 o a b
  have r := reload_order 5 m w1 w2 h
  obtain ⟨v1, v2⟩ := makeMulti_wf 5 (multiToDict m).order (multiToDict m).knl (multiToDict m).ksl
  refine ⟨r, ?_, ?_⟩
  · rw [show (multiReload 5 m).knl.length = (multiReload 5 m).order + 1 from v1, r]; exact w1.symm
  · rw [show (multiReload 5 m).ksl.length = (multiReload 5 m).order + 1 from v2, r]; exact w2.symm

example : 5 ≤ (makeMulti 5 none (some [0, 1]) none).order := by decide +kernel

/-- **Violation.** A quadrupole made with `order=2` and a sextupole component comes back with order 5; without the component it
comes back with order 2. -/
theorem C137_slots_violated :
    (makeMulti 5 (some 2) (some [0, 0, 1]) none).order = 2 ∧
    (multiReload 5 (makeMulti 5 (some 2) (some [0, 0, 1]) none)).order = 5 ∧
    (multiReload 5 (makeMulti 5 (some 2) none none)).order = 2 := by
  decide +kernel

/-! ### Dipole edges -/

theorem unlessTiny_close (x : ℚ) : |(unlessTiny x).getD 0 - x| ≤ 1 / 10 ^ 16 := by
  simp only [unlessTiny]
  by_cases h : |x| ≤ tiny
  · rw [if_pos h]; simpa [tiny] using h
  · rw [if_neg h]; norm_num

/-- A dipole edge keeps its strengths up to `1e-16`, its model and its side.

What is missing: the position, the taper and the attributes (`C137_edge_violated`). -/
theorem C137_edge_partial (e : DipEdge) :
    |(dipFromDict (dipToDict e)).k - e.k| ≤ 1 / 10 ^ 16 ∧ |(dipFromDict (dipToDict e)).e1 - e.e1| ≤ 1 / 10 ^ 16 ∧
    |(dipFromDict (dipToDict e)).e1fd - e.e1fd| ≤ 1 / 10 ^ 16 ∧ |(dipFromDict (dipToDict e)).hgap - e.hgap| ≤ 1 / 10 ^ 16 ∧
    |(dipFromDict (dipToDict e)).fint - e.fint| ≤ 1 / 10 ^ 16 ∧
    (dipFromDict (dipToDict e)).model = e.model ∧ (dipFromDict (dipToDict e)).side = e.side := by
  refine ⟨unlessTiny_close _, unlessTiny_close _, unlessTiny_close _, unlessTiny_close _, unlessTiny_close _, ?_, ?_⟩
  · simp only [dipFromDict, dipToDict]; split_ifs with h <;> simp_all
  · simp only [dipFromDict, dipToDict]; split_ifs with h <;> simp_all

/-- An edge of strength `k` displaced and tapered as given, with an associated aperture. -/
def sampleEdge (place : List ℚ) (taper : ℚ) (aper : Option String) : DipEdge :=
  ⟨1 / 100, 1 / 10, 0, 0, 0, 1, 1, place, taper, aper, [], none⟩

/-- **Violation.** Every displaced, tilted or tapered edge comes back straight and untapered, and without its aperture. -/
theorem C137_edge_violated (e : DipEdge) :
    ((∃ v ∈ e.place, v ≠ 0) → (dipFromDict (dipToDict e)).place ≠ e.place) ∧
    (e.taper ≠ 0 → (dipFromDict (dipToDict e)).taper ≠ e.taper) ∧
    (e.aper ≠ none → (dipFromDict (dipToDict e)).aper ≠ e.aper) := by
  refine ⟨?_, fun h => h.symm, fun h => h.symm⟩
  rintro ⟨v, hv, h0⟩ eq
  rw [← eq] at hv
  exact h0 (List.eq_of_mem_replicate hv)

example : ∃ v ∈ (sampleEdge [1 / 1000, 0, 0, 0, 0, 0, 0] 0 none).place, v ≠ 0 := ⟨1 / 1000, by simp [sampleEdge], by norm_num⟩

/-! ### Magnet edges -/

/-- A magnet edge can be written when, of each of the two pairs of arrays, either both are empty or one holds a strength above
`1e-16`; then all strengths are stored up to `1e-16`.

What is missing: all other magnet edges (`C137_magnet_edge_violated`). -/
theorem C137_magnet_edge_partial (kn ks knl ksl : List ℚ)
    (h : (kn = [] ∧ ks = []) ∨ ∃ v ∈ kn ++ ks, 1 / 10 ^ 16 < |v|)
    (hl : (knl = [] ∧ ksl = []) ∨ ∃ v ∈ knl ++ ksl, 1 / 10 ^ 16 < |v|) :
    ∃ a b c d, magToDict (makeMag kn ks knl ksl) = some [a, b, c, d] ∧
      ∀ i, |(a.getD []).getD i 0 - kn.getD i 0| ≤ 1 / 10 ^ 16 ∧ |(b.getD []).getD i 0 - ks.getD i 0| ≤ 1 / 10 ^ 16 ∧
        |(c.getD []).getD i 0 - knl.getD i 0| ≤ 1 / 10 ^ 16 ∧ |(d.getD []).getD i 0 - ksl.getD i 0| ≤ 1 / 10 ^ 16 := by
  have key : ∀ (n : ℕ) (a b : List ℚ), (∃ v ∈ a ++ b, 1 / 10 ^ 16 < |v|) →
      ¬(allSmall (pad n a) = true ∧ allSmall (pad n b) = true) := by
    rintro n a b ⟨v, hv, h⟩ ⟨h1, h2⟩
    simp only [allSmall, List.all_eq_true, decide_eq_true_eq, pad] at h1 h2
    rcases List.mem_append.1 hv with m | m
    · exact absurd (h1 v (List.mem_append_left _ m)) (not_le.2 h)
    · exact absurd (h2 v (List.mem_append_left _ m)) (not_le.2 h)
  have nokl : ¬((makeMag kn ks knl ksl).klOrder ≠ -1 ∧
      (if allSmall (makeMag kn ks knl ksl).knl = true then none else some (makeMag kn ks knl ksl).knl) = none ∧
      (if allSmall (makeMag kn ks knl ksl).ksl = true then none else some (makeMag kn ks knl ksl).ksl) = none) := by
    rintro ⟨o, s1, s2⟩
    rcases hl with ⟨rfl, rfl⟩ | hv
    · exact o (by simp [makeMag, prepareInt])
    · have t1 : allSmall (makeMag kn ks knl ksl).knl = true := by
        by_contra hc
        rw [if_neg hc] at s1
        exact absurd s1 (by simp)
      have t2 : allSmall (makeMag kn ks knl ksl).ksl = true := by
        by_contra hc
        rw [if_neg hc] at s2
        exact absurd s2 (by simp)
      exact key _ knl ksl hv ⟨t1, t2⟩
  have nok : ¬((makeMag kn ks knl ksl).kOrder ≠ -1 ∧
      (if allSmall (makeMag kn ks knl ksl).kn = true then none else some (makeMag kn ks knl ksl).kn) = none ∧
      (if allSmall (makeMag kn ks knl ksl).ks = true then none else some (makeMag kn ks knl ksl).ks) = none) := by
    rintro ⟨o, s1, s2⟩
    rcases h with ⟨rfl, rfl⟩ | hv
    · exact o (by simp [makeMag, prepareInt])
    · have t1 : allSmall (makeMag kn ks knl ksl).kn = true := by
        by_contra hc
        rw [if_neg hc] at s1
        exact absurd s1 (by simp)
      have t2 : allSmall (makeMag kn ks knl ksl).ks = true := by
        by_contra hc
        rw [if_neg hc] at s2
        exact absurd s2 (by simp)
      exact key _ kn ks hv ⟨t1, t2⟩
  refine ⟨_, _, _, _, by simp only [magToDict]; rw [if_neg nokl, if_neg nok], ?_⟩
  intro i
  have g : ∀ (n : ℕ) (l : List ℚ),
      |((if allSmall (pad n l) = true then none else some (pad n l)).getD ([] : List ℚ)).getD i 0 - l.getD i 0| ≤ 1 / 10 ^ 16 := by
    intro n l
    have := keep_getD (pad n l) i
    rwa [getD_pad] at this
  exact ⟨g _ kn, g _ ks, g _ knl, g _ ksl⟩

/-- **Violation.** A magnet edge whose arrays are given but all zero cannot be written: an `AttributeError` is raised. -/
theorem C137_magnet_edge_violated (kn ks : List ℚ) (n : ℕ) : magToDict (makeMag kn ks (List.replicate (n + 1) 0) []) = none := by
  have z : ∀ m, allSmall (List.replicate m 0) = true := by
    intro m
    simp only [allSmall, List.all_eq_true, decide_eq_true_eq]
    intro v hv
    rw [List.eq_of_mem_replicate hv]
    simpa using tiny_nonneg
  have e1 : (makeMag kn ks (List.replicate (n + 1) 0) []).knl = List.replicate (n + 1) 0 := by
    simp [makeMag, prepareInt, pad]
  have e2 : (makeMag kn ks (List.replicate (n + 1) 0) []).ksl = List.replicate (n + 1) 0 := by
    simp [makeMag, prepareInt, pad]
  have e3 : (makeMag kn ks (List.replicate (n + 1) 0) []).klOrder ≠ -1 := by
    simp [makeMag, prepareInt]
  simp only [magToDict]
  rw [if_pos]
  refine ⟨e3, ?_, ?_⟩
  · rw [e1, if_pos (z _)]
  · rw [e2, if_pos (z _)]

/-! ### Exciters, AC dipoles, segment maps, rotations -/

theorem pad_self {n : ℕ} {l : List ℚ} (h : l.length = n) : pad n l = l := by simp [pad, h]

/-- An exciter made without a duration comes back as it was.

What is missing: exciters with a duration (`C137_exciter_violated`). -/
theorem C137_exciter_partial (samples : List ℚ) (fs frev : ℚ) (knl ksl : List ℚ) (start : ℤ) :
    exciterReload (makeExciter samples fs frev knl ksl start none) = makeExciter samples fs frev knl ksl start none := by
  simp only [exciterReload, makeExciter]
  rw [length_pad _ _ (Nat.le_max_left _ _), length_pad _ _ (Nat.le_max_right _ _), max_self,
    pad_self (length_pad _ _ (Nat.le_max_left _ _)), pad_self (length_pad _ _ (Nat.le_max_right _ _))]

/-- **Violation.** Whenever the duration is not that of the samples, it is lost: the exciter read back acts for the length of its
samples only. -/
theorem C137_exciter_violated (samples : List ℚ) (fs frev : ℚ) (knl ksl : List ℚ) (start : ℤ) (d : ℚ)
    (h : ⌊d * fs⌋ ≠ samples.length) :
    (exciterReload (makeExciter samples fs frev knl ksl start (some d))).nduration = samples.length ∧
    exciterReload (makeExciter samples fs frev knl ksl start (some d)) ≠ makeExciter samples fs frev knl ksl start (some d) := by
  refine ⟨rfl, fun e => h ?_⟩
  have := congrArg Exciter.nduration e
  simpa [exciterReload, makeExciter] using this.symm

example : ⌊(10 : ℚ) * 1⌋ ≠ (([1, 2] : List ℚ).length : ℤ) := by norm_num

/-- **Violation.** An AC dipole with an effective gradient comes back with none, and setting the frequency of the reloaded element
does not give it one. -/
theorem C137_acdipole_violated (formula : ℚ → ℚ → ℚ → ℚ) (volt freq beta nq : ℚ) (hb : beta ≠ 0) (f : ℚ)
    (hf : formula f nq beta ≠ 0) :
    (setFreq formula (makeAC formula volt freq beta nq) f).effGrad ≠ 0 ∧
    (setFreq formula (acReload formula (makeAC formula volt freq beta nq)) f).effGrad = 0 := by
  simp [setFreq, makeAC, setEffGrad, acReload, hb, hf]

example : (fun a b c : ℚ => (a - b) / c) (3 / 10) (1 / 4) 10 ≠ 0 := by norm_num

/-- Write and read a segment map: the constructor gets the stored `qx`; `coeffs_dqx` is computed anew from `dqx`, `ddqx`, `dnqx`,
which are not fields (line_segment_map.py:263-289), and the flags of damping from `damping_rate_*` and `damping_matrix`, which are
not fields either (431-460). -/
noncomputable def segReload (q : ℝ) : Option (ℝ × List ℝ) := SegMap.tuneFields q 0 0 none

/-- A segment map without chromaticity keeps its tune.

What is missing: the chromaticities, damping and noise (`C137_segment_violated`). -/
theorem C137_segment_partial (q : ℝ) : SegMap.tuneFields q 0 0 none = some (q, [q]) ∧ segReload q = some (q, [q]) := by
  simp [segReload, SegMap.tuneFields]

/-- **Violation.** A segment map with chromaticity `dq` comes back without: the list of coefficients holds the tune only. -/
theorem C137_segment_violated (q dq : ℝ) (h : dq ≠ 0) :
    SegMap.tuneFields q dq 0 none = some (q, [q, dq]) ∧ segReload q = some (q, [q]) ∧
      SegMap.tuneFields q dq 0 none ≠ segReload q := by
  have a : SegMap.tuneFields q dq 0 none = some (q, [q, dq]) := by
    simp [SegMap.tuneFields, h]
  have b : segReload q = some (q, [q]) := by simp [segReload, SegMap.tuneFields]
  exact ⟨a, b, by rw [a, b]; simp⟩

/-- Rotations come back with their angles and their sequence. -/
theorem C137_rotation (s x y : ℚ) (seq : List Char) (r : Rot) (h : makeRot s x y seq = some r) : rotReload r = some r := by
  simp only [makeRot] at h
  by_cases ok : seqOk seq = true
  · rw [if_pos ok] at h
    cases h
    simp only [rotReload]
    by_cases e : seq = ['y', 'x', 's']
    · subst e; simp [makeRot, seqOk]
    · rw [if_neg e]; simp [makeRot, ok]
  · rw [if_neg ok] at h; exact absurd h (by simp)

/-- The sequences a rotation accepts are the six orders of the three axes. -/
theorem C137_sequences (l : List Char) : seqOk l = true ↔ l ∈ [['x', 'y', 's'], ['x', 's', 'y'], ['y', 'x', 's'], ['y', 's', 'x'],
    ['s', 'x', 'y'], ['s', 'y', 'x']] := by
  constructor
  · intro h
    simp only [seqOk, Bool.and_eq_true, decide_eq_true_eq, List.contains_iff_mem] at h
    obtain ⟨⟨⟨h3, hx⟩, hy⟩, hs⟩ := h
    match l, h3 with
    | [a, b, c], _ =>
      simp only [List.mem_cons, List.not_mem_nil, or_false] at hx hy hs
      rcases hx with rfl | rfl | rfl <;> rcases hy with hy | hy | hy <;> rcases hs with hs | hs | hs <;>
        first
        | (subst hy; subst hs; simp)
        | (exact absurd hy (by decide))
        | (exact absurd hs (by decide))
        | (subst hy; exact absurd hs (by decide))
  · intro h
    simp only [List.mem_cons, List.not_mem_nil, or_false] at h
    rcases h with rfl | rfl | rfl | rfl | rfl | rfl <;> decide +kernel

end Verif.Saved
