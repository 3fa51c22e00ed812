import Verif.Composer.ResolveLemmas
import Mathlib.Tactic.NormNum
import Mathlib.Tactic.IntervalCases

/-!
# C33: position resolution honours every placement
-/

namespace Verif.Composer

/-- Position of the anchor of a component that starts at `s` and is `l` long. -/
noncomputable def anchorPos (a : Anchor) (s l : ℝ) : ℝ :=
  match a with
  | .start => s
  | .center => s + l / 2
  | .end => s + l

theorem anchorPos_eq (a : Anchor) (s l : ℝ) : anchorPos a s l = s + offset a l := by
  cases a <;> simp [anchorPos, offset]

/-- The starts `s` put every component where its placement demands: a component without position starts at 0 if it is the first and
else at the end of the previous one; a component with an absolute position has its anchor there; a component
with a relative position has its anchor at that distance from the anchor of a component with the reference name. -/
def Demands (ps : List Place) (len : String → ℝ) (refer : Anchor) (s : Nat → ℝ) : Prop :=
  ∀ (i : Nat) (p : Place), ps[i]? = some p →
    match p.at_, p.from_ with
    | none, _ => (i = 0 → s 0 = 0) ∧ (∀ q : Place, 0 < i → ps[i - 1]? = some q → s i = s (i - 1) + len q.name)
    | some a, none => anchorPos (p.anchor.getD refer) (s i) (len p.name) = a
    | some a, some f => ∃ (j : Nat) (q : Place), ps[j]? = some q ∧ q.name = f ∧
        anchorPos (p.anchor.getD refer) (s i) (len p.name) = anchorPos (p.fromAnchor.getD refer) (s j) (len q.name) + a

/-- Every name that is used as a reference occurs once. -/
def RefUnique (ps : List Place) : Prop :=
  ∀ r ∈ ps, ∀ (i j : Nat) (p q : Place), ps[i]? = some p → ps[j]? = some q → r.from_ = some p.name → r.from_ = some q.name → i = j

/-- `ps'` has the places of `ps` in another order: place `i` of `ps` is place `σ i` of `ps'` (`τ` goes back); a component without
position still follows the same component. -/
structure Reorder (ps ps' : List Place) (σ τ : Nat → Nat) : Prop where
  length : ps'.length = ps.length
  same : ∀ i < ps.length, ps'[σ i]? = ps[i]?
  left : ∀ i < ps.length, τ (σ i) = i
  right : ∀ j < ps.length, τ j < ps.length ∧ σ (τ j) = j
  seq : ∀ (i : Nat) (p : Place), ps[i]? = some p → p.at_ = none → (i = 0 ∧ σ 0 = 0) ∨ (0 < i ∧ σ i = σ (i - 1) + 1)

theorem lt_of_getElem? {α : Type} {l : List α} {i : Nat} {a : α} (h : l[i]? = some a) : i < l.length := by
  by_contra hge
  rw [List.getElem?_eq_none (by omega)] at h; cases h

/-- C33: if resolution succeeds there is one row per component, in the order of the input, and every component is where its
placement demands. -/
theorem C33_positions (ps : List Place) (len : String → ℝ) (refer : Anchor) (rows : List Row)
    (h : resolve ps len refer = some rows) :
    rows.map (fun r => r.name) = ps.map (fun p => p.name) ∧
      ∀ s : Nat → ℝ, (∀ (i : Nat) (r : Row), rows[i]? = some r → s i = r.s) → Demands ps len refer s := by
  obtain ⟨-, hu, hrow⟩ := resolve_eq_some ps len refer rows h
  have hI := final_inv ps len refer
  constructor
  · apply List.ext_getElem?
    intro i
    rw [List.getElem?_map, List.getElem?_map, hrow i]
    cases ps[i]? <;> rfl
  · intro s hs i p hp
    have hval : ∀ (j : Nat) (q : Place) (v : ℝ), ps[j]? = some q → (final ps len refer).s j = some v → s j = v := by
      intro j q v hq hv
      have := hs j ⟨q.name, ((final ps len refer).s j).getD 0, (final ps len refer).ref j⟩ (by rw [hrow j, hq]; rfl)
      rw [this, hv]; rfl
    have hm := hI.meets i p hp (hu i (lt_of_getElem? hp))
    unfold Meets' at hm
    split
    · next ha =>
      simp only [ha] at hm
      rcases hm with ⟨h0, hs0⟩ | ⟨h0, q, v, hq, hv, hi⟩
      · subst h0
        exact ⟨fun _ => hval 0 p 0 hp hs0, fun _ hh => absurd hh (lt_irrefl 0)⟩
      · refine ⟨fun hh => by omega, fun q' _ hq' => ?_⟩
        rw [hq] at hq'; cases hq'
        rw [hval i p _ hp hi, hval (i - 1) q v hq hv]
    · next a ha hf =>
      simp only [ha, hf] at hm
      rw [hval i p _ hp hm, anchorPos_eq]; ring
    · next a f ha hf =>
      simp only [ha, hf] at hm
      obtain ⟨j, q, v, hq, hn, hv, hi, -⟩ := hm
      refine ⟨j, q, hq, hn, ?_⟩
      rw [hval i p _ hp hi, hval j q v hq hv, anchorPos_eq, anchorPos_eq]; ring

/-- The arguments go together: a reference needs a distance, the anchor of a reference needs a reference. -/
def ArgsOk (p : Place) : Prop := (p.from_ ≠ none → p.at_ ≠ none) ∧ (p.fromAnchor ≠ none → p.from_ ≠ none)

theorem consistent_iff (p : Place) : p.consistent ↔ ArgsOk p := by
  unfold Place.consistent ArgsOk
  tauto

/-- C33: resolution either succeeds or raises, and it raises exactly when an argument combination is not allowed or some component
has no chain of references to a component of known position (missing reference or cycle). -/
theorem C33_resolves_iff (ps : List Place) (len : String → ℝ) (refer : Anchor) :
    (∃ rows, resolve ps len refer = some rows) ↔ (∀ p ∈ ps, ArgsOk p) ∧ ∀ i < ps.length, Grounded ps i := by
  simp only [← consistent_iff]
  constructor
  · rintro ⟨rows, h⟩
    obtain ⟨hc, hu, -⟩ := resolve_eq_some ps len refer rows h
    exact ⟨hc, fun i hi => (final_inv ps len refer).grounded i (hu i hi)⟩
  · rintro ⟨hc, hg⟩
    unfold resolve
    rw [if_neg (by push Not; exact hc)]
    simp only
    rw [if_neg (by push Not; exact fun i hi => final_grounded ps len refer i (hg i hi))]
    exact ⟨_, rfl⟩

theorem demands_unique (ps : List Place) (len : String → ℝ) (refer : Anchor) (hu : RefUnique ps) (s s' : Nat → ℝ)
    (hs : Demands ps len refer s) (hs' : Demands ps len refer s') (i : Nat) (hg : Grounded ps i) : s i = s' i := by
  induction hg with
  | first p hp ha =>
    have h1 := hs 0 p hp; have h2 := hs' 0 p hp
    simp only [ha] at h1 h2
    rw [h1.1 trivial, h2.1 trivial]
  | next i p hp ha hg ih =>
    have h1 := hs (i + 1) p hp; have h2 := hs' (i + 1) p hp
    simp only [ha] at h1 h2
    have hlt := lt_of_getElem? hp
    have hq : ps[i]? = some ps[i] := List.getElem?_eq_getElem (by omega)
    have e1 := h1.2 ps[i] (by omega) (by simp)
    have e2 := h2.2 ps[i] (by omega) (by simp)
    simp only [Nat.add_sub_cancel] at e1 e2
    rw [e1, e2, ih]
  | absolute i p hp ha hf =>
    obtain ⟨a, ha⟩ := Option.ne_none_iff_exists'.mp ha
    have h1 := hs i p hp; have h2 := hs' i p hp
    simp only [ha, hf, anchorPos_eq] at h1 h2
    linarith
  | relative i j p q hp ha hf hq hg ih =>
    obtain ⟨a, ha⟩ := Option.ne_none_iff_exists'.mp ha
    have h1 := hs i p hp; have h2 := hs' i p hp
    simp only [ha, hf, anchorPos_eq] at h1 h2
    obtain ⟨j1, q1, hq1, hn1, e1⟩ := h1
    obtain ⟨j2, q2, hq2, hn2, e2⟩ := h2
    have hp' : p ∈ ps := List.mem_of_getElem? hp
    have hj1 : j = j1 := hu p hp' j j1 q q1 hq hq1 hf (by rw [hf, hn1])
    have hj2 : j = j2 := hu p hp' j j2 q q2 hq hq2 hf (by rw [hf, hn2])
    subst hj1; subst hj2
    rw [hq] at hq1 hq2; cases hq1; cases hq2
    rw [ih] at e1
    linarith

/-- C33: when every reference name occurs once, the positions found are the only ones that meet the placements. -/
theorem C33_unique (ps : List Place) (len : String → ℝ) (refer : Anchor) (rows : List Row) (hu : RefUnique ps)
    (h : resolve ps len refer = some rows) (s : Nat → ℝ) (hs : Demands ps len refer s) (i : Nat) (r : Row)
    (hr : rows[i]? = some r) : r.s = s i := by
  have hg := ((C33_resolves_iff ps len refer).mp ⟨rows, h⟩).2
  have hp := (C33_positions ps len refer rows h)
  have hlen : rows.length = ps.length := by simpa using congrArg List.length hp.1
  have hd := hp.2 (fun i => match rows[i]? with | some r => r.s | none => 0) (by intro i r hr; simp [hr])
  have := demands_unique ps len refer hu _ s hd hs i (hg i (by rw [← hlen]; exact lt_of_getElem? hr))
  simpa [hr] using this

theorem Reorder.grounded {ps ps' : List Place} {σ τ : Nat → Nat} (h : Reorder ps ps' σ τ) (i : Nat) (hg : Grounded ps i) :
    Grounded ps' (σ i) := by
  have hs : ∀ (i : Nat) (p : Place), ps[i]? = some p → ps'[σ i]? = some p := fun i p hp => by
    rw [h.same i (lt_of_getElem? hp), hp]
  induction hg with
  | first p hp ha =>
    rcases h.seq 0 p hp ha with ⟨-, h0⟩ | ⟨h0, -⟩
    · rw [h0]; exact .first p (by rw [← h0]; exact hs 0 p hp) ha
    · omega
  | next i p hp ha _ ih =>
    rcases h.seq (i + 1) p hp ha with ⟨h0, -⟩ | ⟨-, h1⟩
    · omega
    · rw [Nat.add_sub_cancel] at h1
      rw [h1]; exact .next (σ i) p (by rw [← h1]; exact hs _ p hp) ha ih
  | absolute i p hp ha hf => exact .absolute _ p (hs i p hp) ha hf
  | relative i j p q hp ha hf hq _ ih => exact .relative _ _ p q (hs i p hp) ha hf (hs j q hq) ih

theorem Reorder.symm {ps ps' : List Place} {σ τ : Nat → Nat} (h : Reorder ps ps' σ τ) : Reorder ps' ps τ σ := by
  have hlt : ∀ i < ps.length, σ i < ps.length := by
    intro i hi
    have := h.same i hi
    rw [List.getElem?_eq_getElem hi] at this
    have := lt_of_getElem? this
    rwa [h.length] at this
  refine ⟨h.length.symm, ?_, ?_, ?_, ?_⟩
  · intro j hj
    rw [h.length] at hj
    obtain ⟨h1, h2⟩ := h.right j hj
    rw [← h.same _ h1, h2]
  · intro j hj
    rw [h.length] at hj
    exact (h.right j hj).2
  · intro i hi
    rw [h.length] at hi ⊢
    exact ⟨hlt i hi, h.left i hi⟩
  · intro j p hp ha
    have hj : j < ps.length := by rw [← h.length]; exact lt_of_getElem? hp
    obtain ⟨h1, h2⟩ := h.right j hj
    have hp' : ps[τ j]? = some p := by rw [← h.same _ h1, h2]; exact hp
    rcases h.seq _ p hp' ha with ⟨h0, h00⟩ | ⟨h0, h3⟩
    · left
      rw [h0, h00] at h2
      subst h2
      exact ⟨rfl, h0⟩
    · right
      rw [h2] at h3
      refine ⟨by omega, ?_⟩
      have : τ (j - 1) = τ j - 1 := by
        rw [h3, Nat.add_sub_cancel, h.left _ (by omega), ← h3]
      omega

theorem Reorder.demands {ps ps' : List Place} {σ τ : Nat → Nat} (h : Reorder ps ps' σ τ) (len : String → ℝ) (refer : Anchor)
    (s : Nat → ℝ) (hd : Demands ps' len refer s) : Demands ps len refer (fun i => s (σ i)) := by
  intro i p hp
  have hs : ∀ (i : Nat) (p : Place), ps[i]? = some p → ps'[σ i]? = some p := fun i p hp => by
    rw [h.same i (lt_of_getElem? hp), hp]
  have hd' := hd (σ i) p (hs i p hp)
  split
  · next ha =>
    simp only [ha] at hd'
    rcases h.seq i p hp ha with ⟨h0, h00⟩ | ⟨h0, h1⟩
    · subst h0
      rw [h00] at hd'
      exact ⟨fun _ => by show s (σ 0) = 0; rw [h00]; exact hd'.1 rfl, fun _ hh => absurd hh (lt_irrefl 0)⟩
    · refine ⟨fun hh => by omega, fun q _ hq => ?_⟩
      have := hd'.2 q (by omega) (by rw [h1, Nat.add_sub_cancel]; exact hs _ q hq)
      show s (σ i) = s (σ (i - 1)) + len q.name
      rw [this, h1, Nat.add_sub_cancel]
  · next a ha hf => simp only [ha, hf] at hd'; exact hd'
  · next a f ha hf =>
    simp only [ha, hf] at hd'
    obtain ⟨j, q, hq, hn, e⟩ := hd'
    have hj := h.symm.same j (lt_of_getElem? hq)
    have hjl : j < ps.length := by rw [← h.length]; exact lt_of_getElem? hq
    refine ⟨τ j, q, by rw [hj]; exact hq, hn, ?_⟩
    show anchorPos _ (s (σ i)) _ = anchorPos _ (s (σ (τ j))) _ + a
    rw [(h.right j hjl).2]; exact e

/-- C33: the order in which the components are defined does not matter for success. -/
theorem C33_order_success (ps ps' : List Place) (len : String → ℝ) (refer : Anchor) (σ τ : Nat → Nat) (h : Reorder ps ps' σ τ) :
    (∃ rows, resolve ps len refer = some rows) ↔ ∃ rows, resolve ps' len refer = some rows := by
  have main : ∀ (ps ps' : List Place) (σ τ : Nat → Nat), Reorder ps ps' σ τ →
      (∃ rows, resolve ps len refer = some rows) → ∃ rows, resolve ps' len refer = some rows := by
    intro ps ps' σ τ h hr
    rw [C33_resolves_iff] at hr ⊢
    refine ⟨fun p hp => ?_, fun j hj => ?_⟩
    · obtain ⟨j, hj, rfl⟩ := List.getElem_of_mem hp
      rw [h.length] at hj
      have := h.symm.same j (by rw [h.length]; exact hj)
      exact hr.1 _ (List.mem_of_getElem? (by rw [this]; exact List.getElem?_eq_getElem _))
    · rw [h.length] at hj
      have := h.right j hj
      rw [← this.2]
      exact h.grounded _ (hr.2 _ this.1)
  exact ⟨main ps ps' σ τ h, main ps' ps τ σ h.symm⟩

/-- C33: the order in which the components are defined does not matter for the positions, when every reference name occurs once.
Partial: without the last hypothesis it does matter, see `C33_repeated_reference_violated`. -/
theorem C33_order_partial (ps ps' : List Place) (len : String → ℝ) (refer : Anchor) (σ τ : Nat → Nat) (h : Reorder ps ps' σ τ)
    (hu : RefUnique ps) (rows rows' : List Row) (hr : resolve ps len refer = some rows)
    (hr' : resolve ps' len refer = some rows') (i : Nat) (r r' : Row) (hi : rows[i]? = some r) (hi' : rows'[σ i]? = some r') :
    r.name = r'.name ∧ r.s = r'.s := by
  have h1 := C33_positions ps len refer rows hr
  have h2 := C33_positions ps' len refer rows' hr'
  have hlen : rows.length = ps.length := by simpa using congrArg List.length h1.1
  have hd := h2.2 (fun i => match rows'[i]? with | some r => r.s | none => 0) (by intro i r hr; simp [hr])
  have := C33_unique ps len refer rows hu hr _ (h.demands len refer _ hd) i r hi
  refine ⟨?_, by simpa [hi'] using this⟩
  have n1 : (rows.map (fun r => r.name))[i]? = some r.name := by rw [List.getElem?_map, hi]; rfl
  have n2 : (rows'.map (fun r => r.name))[σ i]? = some r'.name := by rw [List.getElem?_map, hi']; rfl
  rw [h1.1, List.getElem?_map] at n1
  rw [h2.1, List.getElem?_map, h.same i (by rw [← hlen]; exact lt_of_getElem? hi), n1] at n2
  exact Option.some.inj n2

/-- Placement at an absolute position. -/
def absAt (n : String) (a : ℝ) : Place := ⟨n, some a, none, none, none⟩

/-- Placement relative to another component. -/
def relTo (n f : String) (a : ℝ) : Place := ⟨n, some a, some f, none, none⟩

/-- C33 is violated when a reference name occurs twice: `b` is 1 m after the last resolved `a`. -/
theorem C33_repeated_reference_violated :
    ∃ (ps ps' : List Place) (len : String → ℝ) (refer : Anchor) (σ : Nat → Nat) (rows rows' : List Row) (r r' : Row),
      Reorder ps ps' σ σ ∧ resolve ps len refer = some rows ∧ resolve ps' len refer = some rows' ∧
        rows[2]? = some r ∧ rows'[σ 2]? = some r' ∧ r.s = 11 ∧ r'.s = 1 := by
  refine ⟨[absAt "a" 0, absAt "a" 10, relTo "b" "a" 1], [absAt "a" 10, absAt "a" 0, relTo "b" "a" 1], fun _ => 0, .start,
    fun i => if i = 0 then 1 else if i = 1 then 0 else i,
    [⟨"a", 0, none⟩, ⟨"a", 10, none⟩, ⟨"b", 11, some (1, none)⟩], [⟨"a", 10, none⟩, ⟨"a", 0, none⟩, ⟨"b", 1, some (1, none)⟩],
    ⟨"b", 11, some (1, none)⟩, ⟨"b", 1, some (1, none)⟩, ?_, ?_, ?_, rfl, rfl, rfl, rfl⟩
  · constructor
    · rfl
    · intro i hi
      simp only [List.length_cons, List.length_nil] at hi
      interval_cases i <;> rfl
    · intro i hi
      simp only [List.length_cons, List.length_nil] at hi
      interval_cases i <;> rfl
    · intro i hi
      simp only [List.length_cons, List.length_nil] at hi ⊢
      interval_cases i <;> simp
    · intro i p hp ha
      match i with
      | 0 => simp [absAt] at hp; subst hp; simp at ha
      | 1 => simp [absAt] at hp; subst hp; simp at ha
      | 2 => simp [relTo] at hp; subst hp; simp at ha
      | k + 3 => simp at hp
  · simp [resolve, Place.consistent, absAt, relTo, outer, init, scanAll, visit, position, RSt.put, unresolved, List.range,
      List.range.loop, offset, List.zipIdx, Nat.lt_succ_iff, Nat.le_succ_iff]
    norm_num
  · simp [resolve, Place.consistent, absAt, relTo, outer, init, scanAll, visit, position, RSt.put, unresolved, List.range,
      List.range.loop, offset, List.zipIdx, Nat.lt_succ_iff, Nat.le_succ_iff]

/-- Placement directly after the previous component. -/
def follows (n : String) : Place := ⟨n, none, none, none, none⟩

/-- Forward reference, sequential component, all anchors: `q` 2 m long with its center 1 m after the end of `m`, `k` after `q`, `m` at 5. -/
example : resolve [⟨"q", some 1, some "m", none, some .end⟩, follows "k", ⟨"m", some 5, none, some .start, none⟩]
    (fun n => if n = "q" then 2 else if n = "m" then 3 else 0) .center =
      some [⟨"q", 8, some (2, some .end)⟩, ⟨"k", 10, some (0, some .end)⟩, ⟨"m", 5, none⟩] := by
  simp [resolve, Place.consistent, follows, outer, init, scanAll, visit, position, RSt.put, unresolved, List.range,
      List.range.loop, offset, List.zipIdx, Nat.lt_succ_iff, Nat.le_succ_iff, isAutoDrift]
  norm_num

/-- A cycle and a missing reference are reported. -/
example : resolve [relTo "a" "b" 1, relTo "b" "a" 1] (fun _ => 0) .center = none ∧
    resolve [absAt "a" 1, relTo "b" "c" 1] (fun _ => 0) .center = none := by
  constructor <;> simp [resolve, Place.consistent, absAt, relTo, outer, init, scanAll, visit, position, RSt.put, unresolved, List.range,
      List.range.loop, offset, List.zipIdx, Nat.lt_succ_iff, Nat.le_succ_iff]

/-- Hypotheses of the order theorems: a block of two components moved after the component it refers to. -/
example : Reorder [relTo "q" "m" 1, follows "k", absAt "m" 5] [absAt "m" 5, relTo "q" "m" 1, follows "k"]
      (fun i => if i = 0 then 1 else if i = 1 then 2 else 0) (fun i => if i = 0 then 2 else if i = 1 then 0 else 1) ∧
    RefUnique [relTo "q" "m" 1, follows "k", absAt "m" 5] := by
  constructor
  · constructor
    · rfl
    · intro i hi
      simp only [List.length_cons, List.length_nil] at hi
      interval_cases i <;> rfl
    · intro i hi
      simp only [List.length_cons, List.length_nil] at hi
      interval_cases i <;> rfl
    · intro i hi
      simp only [List.length_cons, List.length_nil] at hi ⊢
      interval_cases i <;> simp
    · intro i p hp ha
      match i with
      | 0 => simp [relTo] at hp; subst hp; simp at ha
      | 1 => simp
      | 2 => simp [absAt] at hp; subst hp; simp at ha
      | k + 3 => simp at hp
  · intro r hr i j p q hi hj h1 h2
    have hi' := lt_of_getElem? hi
    have hj' := lt_of_getElem? hj
    simp only [List.length_cons, List.length_nil] at hi' hj'
    simp only [List.mem_cons, List.not_mem_nil, or_false] at hr
    interval_cases i <;> interval_cases j <;> simp at hi hj <;> subst hi <;> subst hj <;> rcases hr with rfl | rfl | rfl <;>
      simp_all [relTo, absAt, follows]

end Verif.Composer
