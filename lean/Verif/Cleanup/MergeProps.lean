import Verif.Cleanup.MergeLemmas
import Verif.Frames.Props

/-!
# C41, C42: clean-up operations keep the tracked physics
-/

namespace Verif.Cleanup

open Frames Magnets

noncomputable section

/-! ## Tracking of lines -/

theorem trackLine_append (ue : Bool) (d : Elements) (k : ℕ) (a b : List String) (p : Part) :
    trackLine ue d k (a ++ b) p = (trackLine ue d k a p).bind (trackLine ue d k b) := by
  induction a generalizing p with
  | nil => rfl
  | cons n a ih =>
    simp only [List.cons_append, trackLine]
    cases h : trackEl ue d k n p with
    | none => rfl
    | some q => simp [ih]

/-- Removing elements which do nothing changes nothing. -/
theorem trackLine_filter (ue : Bool) (d : Elements) (k : ℕ) (f : String → Bool) (names : List String) (p : Part)
    (h : ∀ n ∈ names, f n = false → ∀ q, trackEl ue d k n q = some q) :
    trackLine ue d k (names.filter f) p = trackLine ue d k names p := by
  induction names generalizing p with
  | nil => rfl
  | cons n ns ih =>
    have ih' := fun q => ih q (fun m hm => h m (List.mem_cons_of_mem _ hm))
    cases c : f n with
    | true =>
      rw [List.filter_cons_of_pos c]
      simp only [trackLine]
      congr 1
      funext q
      exact ih' q
    | false =>
      rw [List.filter_cons_of_neg (by simp [c]), ih']
      simp [trackLine, h n List.mem_cons_self c]

theorem find_self {d : Elements} {n : String} {e : El} (h : d n = some e) (hr : ∀ m, e ≠ .replica m) (k : ℕ) : find d k n = some e := by
  cases k <;> cases e <;> simp_all [find]

/-! ## Removals -/

/-- Removing markers: the tracking of the line is the same for every particle; the names which disappear are exactly the markers which
are not kept, the others stay in order. -/
theorem C41_markers (ue : Bool) (d : Elements) (k : ℕ) (keep names : List String) :
    (∀ p, trackLine ue d k (removeMarkers d keep names) p = trackLine ue d k names p) ∧
    (removeMarkers d keep names).Sublist names ∧
    (∀ n ∈ names, n ∈ removeMarkers d keep names ↔ n ∈ keep ∨ d n ≠ some .marker) := by
  have hm : ∀ n, isMarkerEl d n = true ↔ d n = some .marker := by
    intro n
    unfold isMarkerEl
    split <;> simp_all
  refine ⟨?_, List.filter_sublist, ?_⟩
  · intro p
    apply trackLine_filter
    intro n _ h q
    simp only [Bool.not_eq_false', Bool.and_eq_true, hm] at h
    simp [trackEl, find_self h.1]
  · intro n hn
    simp only [removeMarkers, List.mem_filter, hn, true_and, Bool.not_eq_true', Bool.and_eq_false_iff, decide_eq_false_iff_not, not_not]
    rw [Bool.eq_false_iff, ne_eq, hm]
    tauto

/-- A drift of length zero does nothing. -/
theorem drift_zero (ue : Bool) (dm : DriftModel) (p : Part) : driftElement ue dm 0 false p = p := by
  have h1 : driftExact p 0 = p := by ext <;> simp [driftExact]
  have h2 : driftExpanded p 0 = p := by ext <;> simp [driftExpanded]
  cases ue <;> cases dm <;> simp [driftElement, h1, h2]

/-- An entry acts as a drift of length `l`: a drift, a slice of a drift, or a replica of one. -/
def ActsAsDrift (d : Elements) (k : ℕ) (n : String) (l : ℝ) : Prop :=
  ∃ dm, ∀ ue p, trackEl ue d k n p = some (driftElement ue dm l false p)

theorem acts_as_drift {d : Elements} {k : ℕ} {n : String} (h : isDriftEl d k n = true) {l : ℝ} (hl : lenOf d k n = some l) :
    ActsAsDrift d k n l := by
  unfold isDriftEl at h
  unfold lenOf at hl
  split at h
  · rename_i dm l' e
    rw [e] at hl
    simp only [El.length, Option.some.injEq] at hl
    exact ⟨dm, fun ue p => by simp [trackEl, e, hl]⟩
  · rename_i dm parent w e
    rw [e] at hl
    simp only [Option.map_eq_some_iff] at hl
    obtain ⟨a, ha, hw⟩ := hl
    exact ⟨dm, fun ue p => by simp [trackEl, e, ha, ← hw, mul_comm]⟩
  · cases h

/-- Removing drifts of length zero: the tracking is the same for every particle; only drifts (or slices or replicas of drifts) of
length zero which are not kept disappear. -/
theorem C41_zero_drifts (ue : Bool) (d : Elements) (k : ℕ) (keep names : List String) :
    (∀ p, trackLine ue d k (removeZeroDrifts d k keep names) p = trackLine ue d k names p) ∧
    (removeZeroDrifts d k keep names).Sublist names ∧
    (∀ n ∈ names, n ∉ removeZeroDrifts d k keep names → n ∉ keep ∧ ActsAsDrift d k n 0) ∧
    (∀ n ∈ names, n ∉ keep → (∃ dm, d n = some (.drift dm 0)) → n ∉ removeZeroDrifts d k keep names) := by
  refine ⟨?_, List.filter_sublist, ?_, ?_⟩
  · intro p
    apply trackLine_filter
    intro n _ h q
    simp only [Bool.not_eq_false', Bool.and_eq_true, decide_eq_true_eq] at h
    obtain ⟨dm, hdm⟩ := acts_as_drift h.1.1 h.2
    rw [hdm, drift_zero]
  · intro n hn h
    simp only [removeZeroDrifts, List.mem_filter, hn, true_and, Bool.not_eq_true', Bool.not_eq_false, Bool.and_eq_true, decide_eq_true_eq] at h
    exact ⟨h.1.2, acts_as_drift h.1.1 h.2⟩
  · rintro n hn hk ⟨dm, e⟩ h
    have hf := find_self e (fun m => by simp) k
    simp [removeZeroDrifts, isDriftEl, lenOf, hf, El.length, hk] at h

theorem field_of_totals (m : Mult) (hn : ∀ i < m.totalLen, m.totalN i = 0) (hs : ∀ i < m.totalLen, m.totalS i = 0) (x y : ℝ) :
    m.field x y = 0 := by
  unfold Mult.field
  rw [field_congr _ _ (fun _ => 0) (fun _ => 0), field_zero]
  intro n _
  rcases Nat.lt_or_ge n m.totalLen with c | c
  · exact ⟨hn n c, hs n c⟩
  · exact total_zero m n c

theorem inactive_spec {d : Elements} {keep : List String} {n : String} (h : inactive d keep n = true) :
    ∃ m, d n = some (.mult m) ∧ n ∉ keep ∧ ¬ (m.thick = true ∧ m.length ≠ 0) ∧ m.hxl = 0 ∧ m.mis.phi = 0 ∧ m.mis.theta = 0 ∧
      (∀ i < m.totalLen, m.totalN i = 0) ∧ (∀ i < m.totalLen, m.totalS i = 0) := by
  unfold inactive at h
  split at h
  · rename_i m e
    rw [decide_eq_true_eq] at h
    obtain ⟨h1, h2, h3⟩ := h
    have a1 := abs_nonneg m.hxl
    have a2 := abs_nonneg m.mis.phi
    have a3 := abs_nonneg m.mis.theta
    have a4 : 0 ≤ ∑ i ∈ Finset.range m.totalLen, |m.totalN i| := Finset.sum_nonneg (fun _ _ => abs_nonneg _)
    have a5 : 0 ≤ ∑ i ∈ Finset.range m.totalLen, |m.totalS i| := Finset.sum_nonneg (fun _ _ => abs_nonneg _)
    have b4 : ∑ i ∈ Finset.range m.totalLen, |m.totalN i| = 0 := by linarith
    have b5 : ∑ i ∈ Finset.range m.totalLen, |m.totalS i| = 0 := by linarith
    rw [Finset.sum_eq_zero_iff_of_nonneg (fun _ _ => abs_nonneg _)] at b4 b5
    exact ⟨m, e, h1, h2, abs_eq_zero.1 (by linarith), abs_eq_zero.1 (by linarith), abs_eq_zero.1 (by linarith),
      fun i hi => abs_eq_zero.1 (b4 i (Finset.mem_range.2 hi)), fun i hi => abs_eq_zero.1 (b5 i (Finset.mem_range.2 hi))⟩
  · cases h

/-- Removing inactive multipoles: the tracking is the same for every particle, also if the multipoles removed are shifted or rotated
about `s`; only multipoles which are not kept disappear, and all thin ones with nothing in them do. -/
theorem C41_inactive (ue : Bool) (d : Elements) (k : ℕ) (keep names : List String) :
    (∀ p, trackLine ue d k (removeInactive d keep names) p = trackLine ue d k names p) ∧
    (removeInactive d keep names).Sublist names ∧
    (∀ n ∈ names, n ∉ removeInactive d keep names → n ∉ keep ∧ ∃ m, d n = some (.mult m)) ∧
    (∀ n ∈ names, n ∉ keep → ∀ m, d n = some (.mult m) → m.thick = false → m.hxl = 0 → m.mis.phi = 0 → m.mis.theta = 0 →
      (∀ i, m.knl i = 0 ∧ m.ksl i = 0) → n ∉ removeInactive d keep names) := by
  refine ⟨?_, List.filter_sublist, ?_, ?_⟩
  · intro p
    apply trackLine_filter
    intro n _ h q
    obtain ⟨m, e, _, hl, hx, hp, ht, hn, hs⟩ := inactive_spec (by simpa using h)
    have hb := zero_body m hl hx (field_of_totals m hn hs)
    simp only [trackEl, find_self e (fun m => by simp), Mult.track]
    rw [placed_nothing _ rfl ht hp _ _ hb]
  · intro n hn h
    simp only [removeInactive, List.mem_filter, hn, true_and, Bool.not_eq_true', Bool.not_eq_false] at h
    obtain ⟨m, e, hk, _⟩ := inactive_spec h
    exact ⟨hk, m, e⟩
  · intro n hn hk m e ht hx hp hth hz h
    have hmain : m.main = 0 := by
      unfold Mult.main
      split <;> simp [hz]
    simp only [removeInactive, List.mem_filter, hn, true_and, inactive, e, Bool.not_eq_true', decide_eq_false_iff_not] at h
    apply h
    refine ⟨hk, by simp [ht], ?_⟩
    simp [hx, hp, hth, Mult.totalN, Mult.totalS, hz, hmain]

/-! ## Merging drifts -/

/-- The entries on which the tracking of the element `n` depends. -/
def reads (d : Elements) : ℕ → String → List String
  | 0, n => n :: (match d n with
    | some (.driftSlice _ p _) => [p]
    | _ => [])
  | k + 1, n => n :: (match d n with
    | some (.replica m) => reads d k m
    | some (.driftSlice _ p _) => [p]
    | _ => [])

/-- The entry is a `Drift`. -/
def PlainDrift (d : Elements) (n : String) : Prop := ∃ dm l, d n = some (.drift dm l)

theorem find_congr {d d' : Elements} {k : ℕ} {n : String} (h : ∀ r ∈ reads d k n, d' r = d r) : find d' k n = find d k n := by
  induction k generalizing n with
  | zero =>
    have := h n (by simp [reads])
    simp [find, this]
  | succ k ih =>
    have h0 := h n (by simp [reads])
    unfold find
    rw [h0]
    cases e : d n with
    | none => rfl
    | some x =>
      cases x with
      | replica m => exact ih (fun r hr => h r (by simp [reads, e, hr]))
      | _ => rfl

theorem parent_reads {d : Elements} {k : ℕ} {n : String} {dm : DriftModel} {p : String} {w : ℝ}
    (h : find d k n = some (.driftSlice dm p w)) : p ∈ reads d k n := by
  induction k generalizing n with
  | zero =>
    unfold find at h
    split at h
    · cases h
    · rename_i e
      simp [reads, h]
  | succ k ih =>
    unfold find at h
    split at h
    · rename_i m e
      simp [reads, e, ih h]
    · simp [reads, h]

theorem trackEl_congr (ue : Bool) {d d' : Elements} {k : ℕ} {n : String} (h : ∀ r ∈ reads d k n, d' r = d r) :
    trackEl ue d' k n = trackEl ue d k n := by
  funext p
  unfold trackEl
  rw [find_congr h]
  split <;> try rfl
  rename_i dm parent w e
  rw [show ownLen d' parent = ownLen d parent by unfold ownLen; rw [h _ (parent_reads e)]]

theorem trackLine_congr (ue : Bool) {d d' : Elements} {k : ℕ} {names : List String} (h : ∀ n ∈ names, ∀ r ∈ reads d k n, d' r = d r) (p : Part) :
    trackLine ue d' k names p = trackLine ue d k names p := by
  induction names generalizing p with
  | nil => rfl
  | cons n ns ih =>
    simp only [trackLine]
    rw [trackEl_congr ue (h n List.mem_cons_self)]
    congr 1
    funext q
    exact ih (fun m hm => h m (List.mem_cons_of_mem _ hm)) q

/-- A change of lengths of drifts: the entries are the same, up to lengths of drifts. -/
def SameShape (d d' : Elements) : Prop :=
  ∀ n, d' n = d n ∨ ∃ dm l l', d n = some (.drift dm l) ∧ d' n = some (.drift dm l')

theorem SameShape.refl (d : Elements) : SameShape d d := fun _ => .inl rfl

theorem SameShape.trans {a b c : Elements} (h : SameShape a b) (g : SameShape b c) : SameShape a c := by
  intro n
  rcases h n with h1 | ⟨dm, l, l', h1, h2⟩ <;> rcases g n with g1 | ⟨dm', m, m', g1, g2⟩
  · exact .inl (g1.trans h1)
  · exact .inr ⟨dm', m, m', by rw [← h1, g1], g2⟩
  · exact .inr ⟨dm, l, l', h1, by rw [g1, h2]⟩
  · rw [h2] at g1
    obtain ⟨rfl, rfl⟩ : dm = dm' ∧ l' = m := by simpa using g1
    exact .inr ⟨dm, l, m', h1, g2⟩

theorem SameShape.find {d d' : Elements} (h : SameShape d d') (k : ℕ) (n : String) :
    find d' k n = find d k n ∨ ∃ dm l l', find d k n = some (.drift dm l) ∧ find d' k n = some (.drift dm l') := by
  induction k generalizing n with
  | zero =>
    rcases h n with h1 | ⟨dm, l, l', h1, h2⟩
    · exact .inl (by simp [Cleanup.find, h1])
    · exact .inr ⟨dm, l, l', by simp [Cleanup.find, h1], by simp [Cleanup.find, h2]⟩
  | succ k ih =>
    rcases h n with h1 | ⟨dm, l, l', h1, h2⟩
    · cases e : d n with
      | none => exact .inl (by simp [Cleanup.find, h1, e])
      | some x =>
        cases x with
        | replica m =>
          have := ih m
          simpa [Cleanup.find, h1, e] using this
        | _ => exact .inl (by simp [Cleanup.find, h1, e])
    · exact .inr ⟨dm, l, l', by simp [Cleanup.find, h1], by simp [Cleanup.find, h2]⟩

theorem SameShape.isDriftEl {d d' : Elements} (h : SameShape d d') (k : ℕ) (n : String) : isDriftEl d' k n = isDriftEl d k n := by
  unfold Cleanup.isDriftEl
  rcases h.find k n with h1 | ⟨dm, l, l', h1, h2⟩
  · rw [h1]
  · rw [h1, h2]

theorem SameShape.reads {d d' : Elements} (h : SameShape d d') (k : ℕ) (n : String) : reads d' k n = reads d k n := by
  induction k generalizing n with
  | zero =>
    rcases h n with h1 | ⟨dm, l, l', h1, h2⟩
    · simp [Cleanup.reads, h1]
    · simp [Cleanup.reads, h1, h2]
  | succ k ih =>
    rcases h n with h1 | ⟨dm, l, l', h1, h2⟩
    · simp only [Cleanup.reads, h1]
      cases e : d n with
      | none => rfl
      | some x => cases x <;> simp [ih]
    · simp [Cleanup.reads, h1, h2]

theorem SameShape.plain {d d' : Elements} (h : SameShape d d') (n : String) : PlainDrift d' n ↔ PlainDrift d n := by
  unfold PlainDrift
  rcases h n with h1 | ⟨dm, l, l', h1, h2⟩
  · rw [h1]
  · rw [h1, h2]
    exact ⟨fun _ => ⟨dm, l, rfl⟩, fun _ => ⟨dm, l', rfl⟩⟩

/-- No element of the line is a slice or a replica of a drift of the line. -/
def Separate (d : Elements) (k : ℕ) (names : List String) : Prop :=
  ∀ n ∈ names, ∀ r ∈ reads d k n, r ∈ names → PlainDrift d r → r = n

/-- The two drift models track in the same way. -/
def SameModel (ue : Bool) (a b : DriftModel) : Prop := ∀ l p, driftElement ue a l false p = driftElement ue b l false p

/-- Neighbouring drifts have the same model. -/
def Uniform (ue : Bool) (d : Elements) (names : List String) : Prop :=
  names.IsChain (fun a b => ∀ dm l dm' l', d a = some (.drift dm l) → d b = some (.drift dm' l') → SameModel ue dm dm')

theorem plain_of {d : Elements} {k : ℕ} {n : String} {a : ℝ} (h : isDriftEl d k n = true) (hl : ownLen d n = some a) :
    ∃ dm, d n = some (.drift dm a) := by
  unfold ownLen at hl
  cases e : d n with
  | none => simp [e] at hl
  | some x =>
    have hf := fun hr => find_self e hr k
    unfold isDriftEl at h
    cases x with
    | drift dm l =>
      simp [e, El.length] at hl
      exact ⟨dm, by simp [hl]⟩
    | mult m =>
      rw [hf (by simp)] at h
      simp at h
    | simpleBend a b l =>
      rw [hf (by simp)] at h
      simp at h
    | other l f =>
      rw [hf (by simp)] at h
      simp at h
    | _ => simp [e, El.length] at hl

theorem setLen_plain {d : Elements} {n : String} {dm : DriftModel} {a : ℝ} (h : d n = some (.drift dm a)) (l : ℝ) :
    setLen d n l = put d n (.drift dm l) := by
  simp [setLen, h]

theorem put_shape {d : Elements} {n : String} {dm : DriftModel} {a : ℝ} (h : d n = some (.drift dm a)) (l : ℝ) :
    SameShape d (put d n (.drift dm l)) := by
  intro m
  by_cases c : m = n
  · subst c
    exact .inr ⟨dm, a, l, h, by simp [put]⟩
  · exact .inl (by simp [put, c])

/-- What one merge of neighbours does. -/
theorem merge_step (ue : Bool) {d : Elements} {k : ℕ} {out ns : List String} {last n : String} {dm dm' : DriftModel} {a b : ℝ}
    (hl : d last = some (.drift dm a)) (hn : d n = some (.drift dm' b)) (hnd : (out ++ last :: n :: ns).Nodup)
    (hs : Separate d k (out ++ last :: n :: ns)) (hm : SameModel ue dm dm') (p : Part) :
    trackLine ue (put d last (.drift dm (a + b))) k (out ++ last :: ns) p = trackLine ue d k (out ++ last :: n :: ns) p := by
  have hneq : ∀ m ∈ out ++ n :: ns, m ≠ last := by
    intro m hm' e
    subst e
    rw [List.nodup_append] at hnd
    obtain ⟨_, h2, h3⟩ := hnd
    rcases List.mem_append.1 hm' with h | h
    · exact h3 m h m List.mem_cons_self rfl
    · exact (List.nodup_cons.1 h2).1 h
  have hrd : ∀ m ∈ out ++ n :: ns, ∀ r ∈ reads d k m, put d last (.drift dm (a + b)) r = d r := by
    intro m hm' r hr
    have hml : m ∈ out ++ last :: n :: ns := by
      rcases List.mem_append.1 hm' with h | h
      · exact List.mem_append_left _ h
      · exact List.mem_append_right _ (List.mem_cons_of_mem _ h)
    have : r ≠ last := by
      intro e
      subst e
      exact hneq m hm' (hs m hml r hr (by simp) ⟨dm, a, hl⟩).symm
    simp [put, this]
  rw [trackLine_append, trackLine_append, trackLine_congr ue (fun m hm' => hrd m (List.mem_append_left _ hm'))]
  cases trackLine ue d k out p with
  | none => rfl
  | some q =>
    simp only [Option.bind_some, trackLine]
    have e1 : trackEl ue (put d last (.drift dm (a + b))) k last q = some (driftElement ue dm (a + b) false q) := by
      have : put d last (.drift dm (a + b)) last = some (.drift dm (a + b)) := by simp [put]
      simp [trackEl, find_self this (fun m => by simp)]
    have e2 : trackEl ue d k last q = some (driftElement ue dm a false q) := by simp [trackEl, find_self hl (fun m => by simp)]
    have e3 : ∀ q, trackEl ue d k n q = some (driftElement ue dm b false q) := by
      intro q
      simp [trackEl, find_self hn (fun m => by simp), hm b q]
    rw [e1, e2, Option.bind_some, Option.bind_some, e3, Option.bind_some, (C50_element ue dm a b q).2.1]
    exact trackLine_congr ue (fun m hm' => hrd m (List.mem_append_right _ (List.mem_cons_of_mem _ hm'))) _

theorem merge_loop (ue : Bool) (k : ℕ) (keep : List String) (ns : List String) (d : Elements) (out : List String) (last : String)
    (hnd : (out ++ last :: ns).Nodup) (hs : Separate d k (out ++ last :: ns)) (hu : Uniform ue d (last :: ns)) {d' : Elements} {names : List String}
    (h : mergeDriftLoop k keep ns d out last = (d', names, true)) (p : Part) :
    trackLine ue d' k names p = trackLine ue d k (out ++ last :: ns) p := by
  induction ns generalizing d out last with
  | nil =>
    simp only [mergeDriftLoop, Prod.mk.injEq] at h
    obtain ⟨rfl, rfl, _⟩ := h
    rfl
  | cons n ns ih =>
    have next : mergeDriftLoop k keep ns d (out ++ [last]) n = (d', names, true) →
        trackLine ue d' k names p = trackLine ue d k (out ++ last :: n :: ns) p := by
      intro h'
      have := ih d (out ++ [last]) n (by simpa using hnd) (by simpa using hs) (by
        unfold Uniform at hu ⊢
        exact hu.tail) h'
      simpa using this
    unfold mergeDriftLoop at h
    split at h
    · rename_i c1
      split at h
      · rename_i c2
        simp only [Bool.and_eq_true, decide_eq_true_eq] at c1 c2
        split at h
        · rename_i a b ha hb
          obtain ⟨dm, el⟩ := plain_of c2.1 ha
          obtain ⟨dm', en⟩ := plain_of c1.1 hb
          have hm : SameModel ue dm dm' := by
            unfold Uniform at hu
            rw [List.isChain_cons_cons] at hu
            exact hu.1 _ _ _ _ el en
          rw [setLen_plain el] at h
          have sh := put_shape el (a + b)
          have hsub : (out ++ last :: ns).Sublist (out ++ last :: n :: ns) :=
            List.Sublist.append_left (List.Sublist.cons_cons _ (List.sublist_cons_self _ _)) _
          rw [← merge_step ue el en hnd hs hm]
          apply ih _ _ _ (hnd.sublist hsub) _ _ h
          · intro m hm' r hr hrn hp
            rw [sh.reads] at hr
            exact hs m (hsub.subset hm') r hr (hsub.subset hrn) ((sh.plain r).1 hp)
          · unfold Uniform at hu ⊢
            have hput : ∀ m ∈ ns, put d last (.drift dm (a + b)) m = d m := by
              intro m hm'
              have : m ≠ last := by
                intro e
                subst e
                rw [List.nodup_append] at hnd
                exact (List.nodup_cons.1 hnd.2.1).1 (List.mem_cons_of_mem _ hm')
              simp [put, this]
            rw [List.isChain_cons_cons] at hu
            have hu2 := hu.2
            cases ns with
            | nil => exact List.isChain_singleton _
            | cons m ms =>
              rw [List.isChain_cons_cons] at hu2 ⊢
              refine ⟨?_, ?_⟩
              · intro dm1 l1 dm2 l2 h1 h2
                rw [hput m List.mem_cons_self] at h2
                have h1' : dm = dm1 := by
                  simp [put] at h1
                  exact h1.1
                subst h1'
                intro l q
                rw [hm l q]
                exact hu2.1 _ _ _ _ en h2 l q
              · apply List.IsChain.imp_of_mem_imp _ hu2.2
                intro x y hx hy hxy
                rw [hput x hx, hput y hy]
                exact hxy
        · simp at h
      · exact next h
    · exact next h

/-- An element which may be merged: a drift (or a slice or replica of one) which is not kept. -/
def Mergeable (d : Elements) (k : ℕ) (keep : List String) (n : String) : Prop := isDriftEl d k n = true ∧ n ∉ keep

theorem merge_loop_structure (k : ℕ) (keep : List String) (ns : List String) (d : Elements) (out : List String) (last : String)
    {d' : Elements} {names : List String} {ok : Bool} (h : mergeDriftLoop k keep ns d out last = (d', names, ok)) :
    SameShape d d' ∧ (∀ n, d' n ≠ d n → (n = last ∨ n ∈ ns) ∧ n ∉ keep) ∧
    (ok = true → names.Sublist (out ++ last :: ns) ∧ (∀ n ∈ out ++ [last], n ∈ names) ∧
      (∀ n ∈ ns, ¬ Mergeable d k keep n → n ∈ names) ∧
      ((out ++ [last]).IsChain (fun a b => ¬ (Mergeable d k keep a ∧ Mergeable d k keep b)) →
        names.IsChain (fun a b => ¬ (Mergeable d k keep a ∧ Mergeable d k keep b)))) := by
  induction ns generalizing d out last with
  | nil =>
    simp only [mergeDriftLoop, Prod.mk.injEq] at h
    obtain ⟨rfl, rfl, _⟩ := h
    exact ⟨SameShape.refl _, fun n hn => absurd rfl hn, fun _ => ⟨List.Sublist.refl _, fun _ h => h, by simp, fun h => h⟩⟩
  | cons n ns ih =>
    have next : ¬ (Mergeable d k keep last ∧ Mergeable d k keep n) → mergeDriftLoop k keep ns d (out ++ [last]) n = (d', names, ok) →
        SameShape d d' ∧ (∀ m, d' m ≠ d m → (m = last ∨ m ∈ n :: ns) ∧ m ∉ keep) ∧
        (ok = true → names.Sublist (out ++ last :: n :: ns) ∧ (∀ m ∈ out ++ [last], m ∈ names) ∧
          (∀ m ∈ n :: ns, ¬ Mergeable d k keep m → m ∈ names) ∧
          ((out ++ [last]).IsChain (fun a b => ¬ (Mergeable d k keep a ∧ Mergeable d k keep b)) →
            names.IsChain (fun a b => ¬ (Mergeable d k keep a ∧ Mergeable d k keep b)))) := by
      intro hnm h'
      obtain ⟨h1, h2, h3⟩ := ih d (out ++ [last]) n h'
      refine ⟨h1, ?_, ?_⟩
      · intro m hm
        obtain ⟨h4, h5⟩ := h2 m hm
        refine ⟨.inr ?_, h5⟩
        rcases h4 with h4 | h4
        · simp [h4]
        · simp [h4]
      · intro hok
        obtain ⟨h4, h5, h6, h7⟩ := h3 hok
        refine ⟨by simpa using h4, fun m hm => h5 m (List.mem_append_left _ hm), ?_, ?_⟩
        · intro m hm hnm
          rcases List.mem_cons.1 hm with e | hm
          · exact h5 m (by simp [e])
          · exact h6 m hm hnm
        · intro hc
          apply h7
          rw [List.append_assoc, List.singleton_append, List.isChain_append] at *
          simp only [List.isChain_cons_cons, List.isChain_singleton, and_true, List.head?_cons, Option.mem_def, Option.some.injEq] at *
          exact ⟨hc.1, hnm, hc.2.2⟩
    unfold mergeDriftLoop at h
    split at h
    · rename_i c1
      simp only [Bool.and_eq_true, decide_eq_true_eq] at c1
      split at h
      · rename_i c2
        simp only [Bool.and_eq_true, decide_eq_true_eq] at c2
        split at h
        · rename_i a b ha hb
          obtain ⟨dm, el⟩ := plain_of c2.1 ha
          rw [setLen_plain el] at h
          have sh := put_shape el (a + b)
          obtain ⟨h1, h2, h3⟩ := ih _ _ _ h
          refine ⟨sh.trans h1, ?_, ?_⟩
          · intro m hm
            by_cases e : m = last
            · exact ⟨.inl e, by rw [e]; exact c2.2⟩
            · obtain ⟨h4, h5⟩ := h2 m (by simpa [put, e] using hm)
              exact ⟨h4.elim .inl (fun h => .inr (List.mem_cons_of_mem _ h)), h5⟩
          · intro hok
            obtain ⟨h4, h5, h6, h7⟩ := h3 hok
            have hM : ∀ m, Mergeable (put d last (.drift dm (a + b))) k keep m ↔ Mergeable d k keep m := by
              intro m
              unfold Mergeable
              rw [sh.isDriftEl]
            simp only [hM] at h6 h7
            refine ⟨h4.trans (List.Sublist.append_left (List.Sublist.cons_cons _ (List.sublist_cons_self _ _)) _), h5, ?_, h7⟩
            intro m hm hnm
            rcases List.mem_cons.1 hm with e | hm
            · exact absurd (by rw [e]; exact c1) hnm
            · exact h6 m hm hnm
        · simp only [Prod.mk.injEq] at h
          obtain ⟨rfl, _, rfl⟩ := h
          exact ⟨SameShape.refl _, fun n hn => absurd rfl hn, fun h => by simp at h⟩
      · rename_i c2
        refine next (fun hc => c2 ?_) h
        simpa [Mergeable] using hc.1
    · rename_i c1
      refine next (fun hc => c1 ?_) h
      simpa [Mergeable] using hc.2

/-- Merging drifts, when it does not raise: the tracking of the line is the same for every particle, provided that no name is
repeated (`replace_all_repeated_elements` has seen to that), that neighbouring drifts have the same model and that no element of the
line is a slice or replica of a drift of the line.  See the violations below for what happens otherwise. -/
theorem C41_merge_drifts_partial (ue : Bool) (k : ℕ) (keep : List String) (d : Elements) (names : List String) (hnd : names.Nodup)
    (hs : Separate d k names) (hu : Uniform ue d names) {d' : Elements} {names' : List String}
    (h : mergeDrifts k keep d names = (d', names', true)) (p : Part) :
    trackLine ue d' k names' p = trackLine ue d k names p := by
  unfold mergeDrifts at h
  cases names with
  | nil =>
    simp only [Prod.mk.injEq] at h
    obtain ⟨rfl, rfl, _⟩ := h
    rfl
  | cons n ns =>
    simp only at h
    split at h
    · rename_i d1 out e
      simp only [Prod.mk.injEq] at h
      obtain ⟨rfl, rfl, _⟩ := h
      exact merge_loop ue k keep ns d [] n hnd hs hu e p
    · simp at h

/-- What merging does to the names: they are a sublist; kept elements and elements which are no drifts stay; no two drifts which are
not kept remain next to each other.  The dictionary changes in lengths of drifts of the line only, and not in those which are kept. -/
theorem C41_merge_drifts_names (k : ℕ) (keep : List String) (d : Elements) (names : List String) {d' : Elements} {names' : List String}
    {ok : Bool} (h : mergeDrifts k keep d names = (d', names', ok)) :
    SameShape d d' ∧ (∀ n, d' n ≠ d n → n ∈ names ∧ n ∉ keep) ∧
    (ok = false → names' = names) ∧
    (ok = true → names'.Sublist names ∧ (∀ n ∈ names, (n ∈ keep ∨ isDriftEl d k n = false) → n ∈ names') ∧
      names'.IsChain (fun a b => ¬ ((isDriftEl d k a = true ∧ a ∉ keep) ∧ (isDriftEl d k b = true ∧ b ∉ keep)))) := by
  unfold mergeDrifts at h
  cases names with
  | nil =>
    simp only [Prod.mk.injEq] at h
    obtain ⟨rfl, rfl, rfl⟩ := h
    exact ⟨SameShape.refl _, fun n hn => absurd rfl hn, by simp, fun _ => ⟨List.Sublist.refl _, by simp, List.isChain_nil⟩⟩
  | cons n ns =>
    simp only at h
    split at h
    · rename_i d1 out e
      simp only [Prod.mk.injEq] at h
      obtain ⟨rfl, rfl, rfl⟩ := h
      obtain ⟨h1, h2, h3⟩ := merge_loop_structure k keep ns d [] n e
      obtain ⟨h4, h5, h6, h7⟩ := h3 rfl
      refine ⟨h1, fun m hm => ⟨by simpa using (h2 m hm).1, (h2 m hm).2⟩, by simp, fun _ => ⟨by simpa using h4, ?_, h7 (List.isChain_singleton _)⟩⟩
      intro m hm hk
      rcases List.mem_cons.1 hm with e | hm
      · exact h5 m (by simp [e])
      · refine h6 m hm (fun hc => ?_)
        rcases hk with hk | hk
        · exact hc.2 hk
        · rw [hc.1] at hk
          cases hk
    · rename_i d1 out e
      simp only [Prod.mk.injEq] at h
      obtain ⟨rfl, rfl, rfl⟩ := h
      obtain ⟨h1, h2, _⟩ := merge_loop_structure k keep ns d [] n e
      exact ⟨h1, fun m hm => ⟨by simpa using (h2 m hm).1, (h2 m hm).2⟩, fun _ => rfl, fun h => by simp at h⟩

/-- If all the drifts of the line are drifts of their own (neither slices nor replicas), the merge does not raise. -/
theorem C41_merge_drifts_succeeds (k : ℕ) (keep : List String) (d : Elements) (names : List String)
    (hp : ∀ n ∈ names, isDriftEl d k n = true → PlainDrift d n) : (mergeDrifts k keep d names).2.2 = true := by
  have key : ∀ (ns : List String) (d : Elements) (out : List String) (last : String),
      (∀ n ∈ last :: ns, isDriftEl d k n = true → PlainDrift d n) → (mergeDriftLoop k keep ns d out last).2.2 = true := by
    intro ns
    induction ns with
    | nil => intros; rfl
    | cons n ns ih =>
      intro d out last hp
      have next : ∀ o, (mergeDriftLoop k keep ns d o n).2.2 = true := fun o => ih d o n (fun m hm => hp m (List.mem_cons_of_mem _ hm))
      unfold mergeDriftLoop
      split
      · rename_i c1
        split
        · rename_i c2
          simp only [Bool.and_eq_true, decide_eq_true_eq] at c1 c2
          obtain ⟨dm, a, ea⟩ := hp last List.mem_cons_self c2.1
          obtain ⟨dm', b, eb⟩ := hp n (by simp) c1.1
          have ha : ownLen d last = some a := by simp [ownLen, ea, El.length]
          have hb : ownLen d n = some b := by simp [ownLen, eb, El.length]
          simp only [ha, hb]
          rw [setLen_plain ea]
          have sh := put_shape ea (a + b)
          apply ih
          intro m hm hdm
          rw [sh.isDriftEl] at hdm
          rw [sh.plain]
          apply hp m _ hdm
          rcases List.mem_cons.1 hm with h | h
          · simp [h]
          · simp [h]
        · exact next _
      · exact next _
  unfold mergeDrifts
  cases names with
  | nil => rfl
  | cons n ns =>
    have := key ns d [] n hp
    simp only
    generalize mergeDriftLoop k keep ns d [] n = r at this
    obtain ⟨d1, o, b⟩ := r
    simp only at this
    subst this
    rfl

end

end Verif.Cleanup
