import Verif.Cleanup.SharedProps

/-!
# C197: `line.optimize_for_tracking`

Source: /repo/xtrack/line.py 4951-5026 (`optimize_for_tracking`), with the steps of `Cleanup/Merge.lean`.

Simplifications.
* The model begins after the deferred expressions are switched off and after `_replace_with_equivalent_elements` (7523-7534): the line
  has no slices left.  As for the single steps, no name is repeated (`replace_all_repeated_elements`, C45).
* `remove_redundant_apertures` is a parameter `cut`: it takes elements and names and gives names; C43 is about it.
* The building of the tracker and the compilation are left out.
-/

namespace Verif.Cleanup

open Frames Magnets

noncomputable section

/-- `optimize_for_tracking(keep_markers=keep)`; line.py:4990-5019.  `keep`: `none` for `True`, `some []` for `False`, `some l` for a
list.  The Boolean: it did not raise. -/
def optimize (reserved : String → Bool) (k : ℕ) (cut : Elements → List String → List String) (keep : Option (List String))
    (d : Elements) (names : List String) : Elements × List String × Bool :=
  let n1 := match keep with
    | none => names
    | some l => removeMarkers d l names
  let n2 := removeInactive d [] n1
  match mergeMults reserved [] d n2 with
  | (d3, n3, false) => (d3, n3, false)
  | (d3, n3, true) =>
    let n4 := removeZeroDrifts d3 k [] (cut d3 n3)
    match mergeDrifts k [] d3 n4 with
    | (d5, n5, false) => (d5, n5, false)
    | (d5, n5, true) => (useSimpleQuads (useSimpleBends d5), n5, true)

/-! ## What is assumed of the line -/

/-- An element which exists and is neither a slice nor a replica. -/
def Flat (d : Elements) (n : String) : Prop :=
  ∃ e, d n = some e ∧ (∀ m, e ≠ .replica m) ∧ ∀ dm p w, e ≠ .driftSlice dm p w

/-- The conditions under which the optimisation is shown to change nothing. -/
structure Plain (ue : Bool) (k : ℕ) (d : Elements) (names : List String) : Prop where
  /-- no name is repeated -/
  nodup : names.Nodup
  /-- slices and replicas have been replaced -/
  flat : ∀ n ∈ names, Flat d n
  /-- thin multipoles without curvature have no shifts and rotations -/
  aligned : ∀ n ∈ names, ∀ m, d n = some (.mult m) → m.thick = false → m.hxl = 0 → m.Aligned
  /-- all drifts of the line have the same model -/
  model : ∀ a ∈ names, ∀ b ∈ names, ∀ dm l dm' l', d a = some (.drift dm l) → d b = some (.drift dm' l') → SameModel ue dm dm'
  /-- the elements keep the charge-to-mass ratio of the reference particle -/
  ratio : ∀ n ∈ names, ∀ q q', trackEl ue d k n q = some q' → q.chi = 1 → q'.chi = 1
  /-- multipoles of the environment which may be replaced have no rotation about `s` -/
  rot : ∀ n m, d n = some (.mult m) → isSimpleQuad m ∨ isSimpleDipole m → m.mis.tilt = 0 ∧ m.mis.psi = 0
  /-- drift slices of other lines have parents, which are no thin multipoles -/
  slices : ∀ n dm par w, d n = some (.driftSlice dm par w) → ∃ e, d par = some e ∧ ∀ m, e = .mult m → m.thick = true

/-! ## Lemmas -/

theorem Flat.reads {d : Elements} {n : String} (h : Flat d n) (k : ℕ) : reads d k n = [n] := by
  obtain ⟨e, h1, h2, h3⟩ := h
  cases k <;> unfold Cleanup.reads <;> rw [h1] <;> cases e <;> simp_all

theorem Flat.track {d d' : Elements} {n : String} (h : Flat d n) (e : d' n = d n) (ue : Bool) (k : ℕ) :
    trackEl ue d' k n = trackEl ue d k n := by
  funext p
  have := trackEl_congr ue (d := d) (d' := d') (k := k) (n := n) (fun r hr => by
    rw [h.reads] at hr
    simp only [List.mem_singleton] at hr
    rw [hr, e])
  simp [this]

/-- A dictionary with new thin multipoles. -/
def Grown (d d' : Elements) : Prop :=
  ∀ n, d' n = d n ∨ (d n = none ∧ ∃ m, d' n = some (.mult m) ∧ m.thick = false ∧ m.hxl = 0 ∧ m.Aligned)

theorem mult_loop_names (reserved : String → Bool) (keep : List String) (d0 : Elements) (S : List String) (ns : List String) (d : Elements)
    (out : List String) (last : String) (hg : Grown d0 d) (hn : ∀ x ∈ out ++ last :: ns, d x ≠ none)
    (hd : (out ++ last :: ns).Nodup) (hS : ∀ x ∈ out ++ last :: ns, x ∈ S ∨ d0 x = none) {d' : Elements} {names : List String}
    {ok : Bool} (h : mergeMultLoop reserved keep d0 ns d out last = (d', names, ok)) :
    Grown d0 d' ∧ (ok = true → names.Nodup ∧ ∀ x ∈ names, d' x ≠ none ∧ (x ∈ S ∨ d0 x = none)) := by
  induction ns generalizing d out last with
  | nil =>
    simp only [mergeMultLoop, Prod.mk.injEq] at h
    obtain ⟨rfl, rfl, rfl⟩ := h
    exact ⟨hg, fun _ => ⟨hd, fun x hx => ⟨hn x hx, hS x hx⟩⟩⟩
  | cons n ns ih =>
    have next : mergeMultLoop reserved keep d0 ns d (out ++ [last]) n = (d', names, ok) →
        Grown d0 d' ∧ (ok = true → names.Nodup ∧ ∀ x ∈ names, d' x ≠ none ∧ (x ∈ S ∨ d0 x = none)) := by
      intro h
      have e : out ++ [last] ++ n :: ns = out ++ last :: n :: ns := by simp
      exact ih d (out ++ [last]) n hg (by rwa [e]) (by rwa [e]) (by rwa [e]) h
    unfold mergeMultLoop at h
    split at h
    · rename_i b a eb ea
      split at h
      · rename_i hm
        rw [mergeable_iff] at hm
        simp only at h
        split at h
        · simp only [Prod.mk.injEq] at h
          obtain ⟨rfl, _, rfl⟩ := h
          exact ⟨hg, fun h => by simp at h⟩
        · rename_i hc
          have hnew : d (last ++ "_" ++ n) = none := by
            simp only [Bool.or_eq_true, not_or] at hc
            simpa using hc.1
          generalize last ++ "_" ++ n = new at *
          have h0new : d0 new = none := by
            rcases hg new with h | ⟨h, _⟩
            · rw [← h, hnew]
            · exact h
          have hne : ∀ x ∈ out ++ last :: n :: ns, x ≠ new := by
            rintro x hx rfl
            exact hn x hx hnew
          have hsub : ∀ x, x ∈ out ++ ns → x ∈ out ++ last :: n :: ns := by
            intro x hx
            simp only [List.mem_append, List.mem_cons] at hx ⊢
            tauto
          refine ih (put d new (.mult (mergedMult a b))) out new ?_ ?_ ?_ ?_ h
          · intro x
            by_cases c : x = new
            · subst c
              exact .inr ⟨h0new, mergedMult a b, by simp [put], rfl, hm.1.2.2.1, merged_aligned a b⟩
            · simpa [put, c] using hg x
          · intro x hx
            by_cases c : x = new
            · simp [put, c]
            · have : x ∈ out ++ ns := by
                simp only [List.mem_append, List.mem_cons] at hx ⊢
                tauto
              simpa [put, c] using hn x (hsub x this)
          · rw [List.nodup_middle, List.nodup_cons]
            refine ⟨fun c => hne new (hsub new c) rfl, ?_⟩
            refine hd.sublist ?_
            exact List.Sublist.append (List.Sublist.refl _) ((List.sublist_cons_self _ _).trans (List.sublist_cons_self _ _))
          · intro x hx
            by_cases c : x = new
            · exact .inr (c ▸ h0new)
            · have : x ∈ out ++ ns := by
                simp only [List.mem_append, List.mem_cons] at hx ⊢
                tauto
              exact hS x (hsub x this)
      · exact next h
    · exact next h

theorem mults_names (reserved : String → Bool) (keep : List String) (d : Elements) (names : List String)
    (hn : ∀ x ∈ names, d x ≠ none) (hd : names.Nodup) {d' : Elements} {names' : List String} {ok : Bool}
    (h : mergeMults reserved keep d names = (d', names', ok)) :
    Grown d d' ∧ (ok = true → names'.Nodup ∧ ∀ x ∈ names', d' x ≠ none ∧ (x ∈ names ∨ d x = none)) := by
  unfold mergeMults at h
  cases names with
  | nil =>
    simp only [Prod.mk.injEq] at h
    obtain ⟨rfl, rfl, rfl⟩ := h
    exact ⟨fun _ => .inl rfl, by simp⟩
  | cons n ns =>
    simp only at h
    have key := fun d1 o ok e => mult_loop_names reserved keep d (n :: ns) ns d [] n (fun _ => .inl rfl) (by simpa using hn)
      (by simpa using hd) (by simp; tauto) (d' := d1) (names := o) (ok := ok) e
    split at h
    · rename_i d1 o e
      simp only [Prod.mk.injEq] at h
      obtain ⟨rfl, rfl, rfl⟩ := h
      exact key _ _ _ e
    · rename_i d1 o e
      simp only [Prod.mk.injEq] at h
      obtain ⟨rfl, rfl, rfl⟩ := h
      exact ⟨(key _ _ _ e).1, fun h => by simp at h⟩

theorem Plain.sub {ue : Bool} {k : ℕ} {d : Elements} {names names' : List String} (h : Plain ue k d names) (hs : names'.Sublist names) :
    Plain ue k d names' where
  nodup := h.nodup.sublist hs
  flat := fun n hn => h.flat n (hs.subset hn)
  aligned := fun n hn => h.aligned n (hs.subset hn)
  model := fun a ha b hb => h.model a (hs.subset ha) b (hs.subset hb)
  ratio := fun n hn => h.ratio n (hs.subset hn)
  rot := h.rot
  slices := h.slices

theorem Plain.grown {ue : Bool} {k : ℕ} {d d' : Elements} {names names' : List String} (h : Plain ue k d names) (hg : Grown d d')
    (hn : names'.Nodup) (hx : ∀ x ∈ names', d' x ≠ none ∧ (x ∈ names ∨ d x = none)) : Plain ue k d' names' := by
  have key : ∀ x ∈ names', (x ∈ names ∧ d' x = d x) ∨ ∃ m, d' x = some (.mult m) ∧ m.thick = false ∧ m.hxl = 0 ∧ m.Aligned := by
    intro x hm
    obtain ⟨h1, h2⟩ := hx x hm
    rcases hg x with e | ⟨_, e⟩
    · rcases h2 with h2 | h2
      · exact .inl ⟨h2, e⟩
      · rw [e, h2] at h1
        exact absurd rfl h1
    · exact .inr e
  refine ⟨hn, ?_, ?_, ?_, ?_, ?_, ?_⟩
  · intro x hm
    rcases key x hm with ⟨h1, e⟩ | ⟨m, e, _⟩
    · obtain ⟨y, g⟩ := h.flat x h1
      exact ⟨y, by rw [e]; exact g.1, g.2⟩
    · exact ⟨_, e, by simp, by simp⟩
  · intro x hm m em ht h0
    rcases key x hm with ⟨h1, e⟩ | ⟨m', e, _, _, g⟩
    · exact h.aligned x h1 m (by rw [← e, em]) ht h0
    · rw [e] at em
      simp only [Option.some.injEq, El.mult.injEq] at em
      exact em ▸ g
  · intro a ha b hb dm l dm' l' ea eb
    rcases key a ha with ⟨h1, e⟩ | ⟨m, e, _⟩
    · rcases key b hb with ⟨h2, e'⟩ | ⟨m, e', _⟩
      · exact h.model a h1 b h2 dm l dm' l' (by rw [← e, ea]) (by rw [← e', eb])
      · simp [e'] at eb
    · simp [e] at ea
  · intro x hm q q' ht hq
    rcases key x hm with ⟨h1, e⟩ | ⟨m, e, t, x0, al⟩
    · rw [(h.flat x h1).track e] at ht
      exact h.ratio x h1 q q' ht hq
    · unfold trackEl at ht
      rw [find_self e (by simp)] at ht
      simp only [Option.some.injEq] at ht
      rw [← ht, thin_track al t x0]
      simpa [fieldKick] using hq
  · intro n m em hm
    rcases hg n with e | ⟨_, m', e, _, _, al⟩
    · exact h.rot n m (by rw [← e, em]) hm
    · rw [e] at em
      simp only [Option.some.injEq, El.mult.injEq] at em
      subst em
      exact al.2.2.2.2.2
  · intro n dm par w en
    rcases hg n with e | ⟨_, m', e, _⟩
    · obtain ⟨y, h1, h2⟩ := h.slices n dm par w (by rw [← e, en])
      refine ⟨y, ?_, h2⟩
      rcases hg par with g | ⟨g, _⟩
      · rw [g, h1]
      · rw [h1] at g
        cases g
    · simp [e] at en

theorem drift_chi (ue : Bool) (dm : DriftModel) (l : ℝ) (p : Part) : (driftElement ue dm l false p).chi = p.chi := by
  unfold driftElement
  cases ue <;> cases dm <;> simp [driftExact, driftExpanded]

theorem Plain.shape {ue : Bool} {k : ℕ} {d d' : Elements} {names names' : List String} (h : Plain ue k d names) (hg : SameShape d d')
    (hs : names'.Sublist names) :
    (∀ n ∈ names', Flat d' n) ∧ (∀ n ∈ names', ∀ q q', trackEl ue d' k n q = some q' → q.chi = 1 → q'.chi = 1) ∧
    (∀ n m, d' n = some (.mult m) → d n = some (.mult m)) ∧
    (∀ n dm par w, d' n = some (.driftSlice dm par w) → ∃ e, d' par = some e ∧ ∀ m, e = .mult m → m.thick = true) := by
  have h3 : ∀ n m, d' n = some (.mult m) → d n = some (.mult m) := by
    intro n m en
    rcases hg n with e | ⟨dm, l, l', e, e'⟩
    · rw [← e, en]
    · simp [e'] at en
  refine ⟨?_, ?_, h3, ?_⟩
  · intro n hn
    rcases hg n with e | ⟨dm, l, l', e, e'⟩
    · obtain ⟨y, g⟩ := h.flat n (hs.subset hn)
      exact ⟨y, by rw [e]; exact g.1, g.2⟩
    · exact ⟨_, e', by simp, by simp⟩
  · intro n hn q q' ht hq
    rcases hg n with e | ⟨dm, l, l', e, e'⟩
    · rw [(h.flat n (hs.subset hn)).track e] at ht
      exact h.ratio n (hs.subset hn) q q' ht hq
    · unfold trackEl at ht
      rw [find_self e' (by simp)] at ht
      simp only [Option.some.injEq] at ht
      rw [← ht, drift_chi, hq]
  · intro n dm par w en
    rcases hg n with e | ⟨dm, l, l', e, e'⟩
    · obtain ⟨y, h1, h2⟩ := h.slices n dm par w (by rw [← e, en])
      rcases hg par with g | ⟨dm2, l, l', _, g⟩
      · exact ⟨y, by rw [g, h1], h2⟩
      · exact ⟨_, g, by simp⟩
    · simp [e'] at en

theorem bends_old {d : Elements} {n : String} {e : El} (h : useSimpleBends d n = some e) (hb : ∀ b x l, e ≠ .simpleBend b x l) :
    d n = some e := by
  unfold useSimpleBends at h
  split at h
  · rename_i m em
    split at h
    · simp only [Option.some.injEq] at h
      exact absurd h.symm (hb _ _ _)
    · rw [em, h]
  · exact h

theorem quads_old {d : Elements} {n : String} {e : El} (h : useSimpleQuads d n = some e) (hb : ∀ q, e ≠ .simpleQuad q) :
    d n = some e := by
  unfold useSimpleQuads at h
  split at h
  · rename_i m em
    split at h
    · simp only [Option.some.injEq] at h
      exact absurd h.symm (hb _)
    · rw [em, h]
  · exact h

/-! ## The property -/

/-- Optimising a line for tracking changes the result of tracking for no particle with the charge-to-mass ratio of the reference
particle, whether it raises (a name of a merged multipole is taken) or not; markers to be kept stay; when it does not raise, no
two neighbours are drifts, and a marker is left only if it is one to be kept.  Assumed: `Plain` (see there) and that removing apertures
removes names, but not of markers, without changing the tracking (C43). -/
theorem C197_tracking_partial (ue : Bool) (reserved : String → Bool) (k : ℕ) (cut : Elements → List String → List String)
    (keep : Option (List String)) (d : Elements) (names : List String) (hp : Plain ue k d names)
    (hcut : ∀ d ns, Plain ue k d ns → (cut d ns).Sublist ns ∧ (∀ p, trackLine ue d k (cut d ns) p = trackLine ue d k ns p) ∧
      ∀ n ∈ ns, d n = some .marker → n ∈ cut d ns)
    {d' : Elements} {names' : List String} {ok : Bool} (h : optimize reserved k cut keep d names = (d', names', ok)) :
    (∀ p, p.chi = 1 → trackLine ue d' k names' p = trackLine ue d k names p) ∧
    (∀ n ∈ names, d n = some .marker → (∀ l, keep = some l → n ∈ l) → n ∈ names') ∧
    (ok = true →
      names'.IsChain (fun a b => ¬ ((∃ dm l, d' a = some (.drift dm l)) ∧ ∃ dm l, d' b = some (.drift dm l))) ∧
      ∀ l, keep = some l → ∀ n ∈ names', d' n = some .marker → n ∈ l) := by
  unfold optimize at h
  simp only at h
  generalize e1 : (match keep with
    | none => names
    | some l => removeMarkers d l names) = n1 at h
  have a1 : n1.Sublist names ∧ (∀ p, trackLine ue d k n1 p = trackLine ue d k names p) ∧
      (∀ l, keep = some l → ∀ n ∈ n1, d n = some .marker → n ∈ l) ∧
      ∀ n ∈ names, d n = some .marker → (∀ l, keep = some l → n ∈ l) → n ∈ n1 := by
    subst e1
    cases keep with
    | none => exact ⟨List.Sublist.refl _, fun _ => rfl, by simp, fun n hn _ _ => hn⟩
    | some l =>
      obtain ⟨g1, g2, g3⟩ := C41_markers ue d k l names
      refine ⟨g2, g1, ?_, fun n hn _ hk => (g3 n hn).2 (.inl (hk l rfl))⟩
      rintro l' hl n hn hm
      simp only [Option.some.injEq] at hl
      subst hl
      rcases (g3 n (g2.subset hn)).1 hn with c | c
      · exact c
      · exact absurd hm c
  obtain ⟨s1, t1, k1, k1'⟩ := a1
  obtain ⟨t2, s2, r2, _⟩ := C41_inactive ue d k [] n1
  have k2 : ∀ n ∈ names, d n = some .marker → (∀ l, keep = some l → n ∈ l) → n ∈ removeInactive d [] n1 := by
    intro n hn hm hk
    by_contra c
    obtain ⟨_, m, e⟩ := r2 n (k1' n hn hm hk) c
    rw [hm] at e
    cases e
  have p2 := (hp.sub s1).sub s2
  have hne : ∀ x ∈ removeInactive d [] n1, d x ≠ none := by
    intro x hx c
    obtain ⟨e, he, _⟩ := p2.flat x hx
    rw [c] at he
    cases he
  have closed : Closed d k (removeInactive d [] n1) := by
    intro n hn r hr
    rw [(p2.flat n hn).reads] at hr
    simp only [List.mem_singleton] at hr
    exact hr ▸ hne n hn
  cases e3 : mergeMults reserved [] d (removeInactive d [] n1) with
  | mk d3 rest =>
  obtain ⟨n3, ok3⟩ := rest
  obtain ⟨x3, _, _, t3, r3, _⟩ := C41_merge_multipoles_partial ue k reserved [] d _ closed
    (fun n hn m e a b _ => p2.aligned n hn m e a b) e3
  have k3 : ∀ n ∈ names, d n = some .marker → (∀ l, keep = some l → n ∈ l) → n ∈ n3 := fun n hn hm hk =>
    r3 n (k2 n hn hm hk) (.inr (fun m e => by
      rw [hm] at e
      cases e))
  obtain ⟨g3, nn3⟩ := mults_names reserved [] d _ hne p2.nodup e3
  rw [e3] at h
  cases ok3 with
  | false =>
    simp only [Prod.mk.injEq] at h
    obtain ⟨rfl, rfl, rfl⟩ := h
    exact ⟨fun p _ => by rw [t3, t2, t1], k3, by simp⟩
  | true =>
    obtain ⟨nd3, mem3⟩ := nn3 rfl
    have p3 := p2.grown g3 nd3 mem3
    obtain ⟨s4, t4, k4⟩ := hcut d3 n3 p3
    obtain ⟨t5, s5, _, _⟩ := C41_zero_drifts ue d3 k [] (cut d3 n3)
    have p5 := (p3.sub s4).sub s5
    simp only at h
    generalize e4 : removeZeroDrifts d3 k [] (cut d3 n3) = n4 at h t5 s5 p5
    cases e6 : mergeDrifts k [] d3 n4 with
    | mk d5 rest =>
    obtain ⟨n5, ok5⟩ := rest
    have hok := C41_merge_drifts_succeeds k [] d3 n4 (by
      intro n hn hd
      obtain ⟨e, h1, h2, h3⟩ := p5.flat n hn
      unfold isDriftEl at hd
      rw [find_self h1 h2] at hd
      cases e with
      | drift dm l => exact ⟨dm, l, h1⟩
      | driftSlice dm p w => exact absurd rfl (h3 dm p w)
      | _ => simp at hd)
    rw [e6] at hok
    simp only at hok
    subst hok
    have sep : Separate d3 k n4 := by
      intro n hn r hr _ _
      rw [(p5.flat n hn).reads] at hr
      simpa using hr
    have uni : Uniform ue d3 n4 := by
      refine List.Pairwise.isChain ?_
      rw [List.pairwise_iff_forall_sublist]
      intro a b hab
      exact p5.model a (hab.subset (by simp)) b (hab.subset (by simp))
    have t6 := C41_merge_drifts_partial ue k [] d3 n4 p5.nodup sep uni e6
    obtain ⟨sh, _, _, st⟩ := C41_merge_drifts_names k [] d3 n4 e6
    obtain ⟨s6, r6, ch⟩ := st rfl
    obtain ⟨f1, f2, f3, f4⟩ := p5.shape sh s6
    rw [e6] at h
    simp only [Prod.mk.injEq] at h
    obtain ⟨rfl, rfl, rfl⟩ := h
    have hsl : ∀ n dm par w, d5 n = some (.driftSlice dm par w) → ∀ m, d5 par = some (.mult m) → m.thick = true := by
      intro n dm par w en m em
      obtain ⟨e, g1, g2⟩ := f4 n dm par w en
      rw [em] at g1
      simp only [Option.some.injEq] at g1
      exact g2 m g1.symm
    have tr : ∀ p, p.chi = 1 → trackLine ue (useSimpleQuads (useSimpleBends d5)) k n5 p = trackLine ue d5 k n5 p := by
      intro p hchi
      rw [C64_quadrupoles_partial ue (useSimpleBends d5) k n5 p, C64_bends_partial ue d5 k n5 p hchi f2]
      · exact fun n m en hm => p5.rot n m (f3 n m en) (.inr hm)
      · exact hsl
      · exact fun n m en hm => p5.rot n m (f3 n m (bends_old en (by simp))) (.inl hm)
      · exact fun n dm par w en m em => hsl n dm par w (bends_old en (by simp)) m (bends_old em (by simp))
    refine ⟨fun p hc => by rw [tr p hc, t6, t5, t4, t3, t2, t1], ?_, fun _ => ⟨?_, ?_⟩⟩
    · intro n hn hm hk
      have em : d3 n = some .marker := by rw [x3 n (by simp [hm]), hm]
      have hnd : isDriftEl d3 k n = false := by
        unfold isDriftEl
        rw [find_self em (by simp)]
      refine r6 n ?_ (.inr hnd)
      rw [← e4]
      simp [removeZeroDrifts, hnd, k4 n (k3 n hn hm hk) em]
    · have dr : ∀ a, (∃ dm l, useSimpleQuads (useSimpleBends d5) a = some (.drift dm l)) → isDriftEl d3 k a = true := by
        rintro a ⟨dm, l, e⟩
        have e' := bends_old (quads_old e (by simp)) (by simp)
        rw [← sh.isDriftEl k a]
        unfold isDriftEl
        rw [find_self e' (by simp)]
      exact ch.imp (fun a b hab hc => hab ⟨⟨dr a hc.1, by simp⟩, dr b hc.2, by simp⟩)
    · intro l hl n hn hm
      have e' := bends_old (quads_old hm (by simp)) (by simp)
      have e3' : d3 n = some .marker := by
        rcases sh n with c | ⟨_, _, _, _, c⟩
        · rw [← c, e']
        · simp [c] at e'
      have ed : d n = some .marker := by
        rcases g3 n with c | ⟨_, m, c, _⟩
        · rw [← c, e3']
        · simp [c] at e3'
      rcases (mem3 n (s4.subset (s5.subset (s6.subset hn)))).2 with c | c
      · exact k1 l hl n (s2.subset c) ed
      · rw [ed] at c
        cases c

/-- The whole optimisation of a line with one thin dipole, for a particle with `chi` two: the result of tracking changes (the simple
bend changes `zeta` twice as much). -/
theorem C197_ions_violated (ue : Bool) (k : ℕ) :
    let d : Elements := fun n => if n = "b" then some (.mult dipole) else none
    let r := optimize (fun _ => false) k (fun _ ns => ns) (some []) d ["b"]
    r.2.2 = true ∧ trackLine ue r.1 k r.2.1 { probe 1 0 with chi := 2 } ≠ trackLine ue d k ["b"] { probe 1 0 with chi := 2 } := by
  intro d
  have h1 : d "b" = some (.mult dipole) := by simp [d]
  have m1 : removeMarkers d [] ["b"] = ["b"] := by simp [removeMarkers, isMarkerEl, h1]
  have hx : inactive d [] "b" = false := by
    rw [← Bool.not_eq_true]
    intro c
    obtain ⟨m, e, g⟩ := (C41_inactive ue d k [] ["b"]).2.2.1 "b" (by simp) (by simp [removeInactive, c]) |>.2
    unfold inactive at c
    rw [h1] at c
    simp only [decide_eq_true_eq] at c
    have c3 := c.2.2
    have p1 : 0 ≤ ∑ i ∈ Finset.range dipole.totalLen, |dipole.totalN i| := Finset.sum_nonneg (fun _ _ => abs_nonneg _)
    have p2 : 0 ≤ ∑ i ∈ Finset.range dipole.totalLen, |dipole.totalS i| := Finset.sum_nonneg (fun _ _ => abs_nonneg _)
    have p3 : |dipole.hxl| = 1 := by simp [dipole]
    have p4 := abs_nonneg dipole.mis.phi
    have p5 := abs_nonneg dipole.mis.theta
    rw [p3] at c3
    linarith
  have m2 : removeInactive d [] ["b"] = ["b"] := by simp [removeInactive, hx]
  have m3 : mergeMults (fun _ => false) [] d ["b"] = (d, ["b"], true) := by simp [mergeMults, mergeMultLoop]
  have hd : isDriftEl d k "b" = false := by simp [isDriftEl, find_self h1 (by simp) k]
  have m4 : removeZeroDrifts d k [] ["b"] = ["b"] := by simp [removeZeroDrifts, hd]
  have m5 : mergeDrifts k [] d ["b"] = (d, ["b"], true) := by simp [mergeDrifts, mergeDriftLoop]
  have e : optimize (fun _ => false) k (fun _ ns => ns) (some []) d ["b"] = (useSimpleQuads (useSimpleBends d), ["b"], true) := by
    simp only [optimize, m1, m2, m3, m4, m5]
  have q : useSimpleQuads (useSimpleBends d) = useSimpleBends d := by
    funext n
    unfold useSimpleQuads
    by_cases c : n = "b"
    · subst c
      simp [useSimpleBends, h1, dipole_simple]
    · simp [useSimpleBends, d, c]
  intro r
  rw [show r = _ from e, q]
  exact ⟨rfl, C64_chi_violated ue k⟩

/-- A thin sextupole. -/
def sext : Mult :=
  { order := 2, knl := fun n => if n = 2 then 1 else 0, ksl := fun _ => 0, orderRel := 0, knlRel := fun _ => 0, kslRel := fun _ => 0
    mainOrder := 0, mainSkew := false, thick := false, length := 0, hxl := 0, numKicks := 0, model := 0, integrator := 0, mis := noMis 0 }

/-- Multipoles are merged before drifts of length zero are removed: two sextupoles with such a drift in between are left next to each
other, although they could be merged. -/
theorem C197_multipoles_violated (k : ℕ) :
    let d : Elements := fun n => if n = "s" ∨ n = "t" then some (.mult sext) else if n = "z" then some (.drift .adaptive 0) else none
    let r := optimize (fun _ => false) k (fun _ ns => ns) (some []) d ["s", "z", "t"]
    r.2 = (["s", "t"], true) ∧ Mergeable1 r.1 [] "s" ∧ Mergeable1 r.1 [] "t" := by
  intro d
  have hs : d "s" = some (.mult sext) := by simp [d]
  have ht : d "t" = some (.mult sext) := by simp [d]
  have hz : d "z" = some (.drift .adaptive 0) := by simp [d]
  have tot : sext.totalN 2 = 1 := by simp [Mult.totalN, sext]
  have len : 2 < sext.totalLen := by simp [Mult.totalLen, sext]
  have hx : ∀ n, d n = some (.mult sext) → inactive d [] n = false := by
    intro n e
    rw [← Bool.not_eq_true]
    intro c
    unfold inactive at c
    rw [e] at c
    simp only [decide_eq_true_eq] at c
    have c3 := c.2.2
    have p1 : |sext.totalN 2| ≤ ∑ i ∈ Finset.range sext.totalLen, |sext.totalN i| :=
      Finset.single_le_sum (f := fun i => |sext.totalN i|) (fun _ _ => abs_nonneg _) (Finset.mem_range.2 len)
    have p2 : 0 ≤ ∑ i ∈ Finset.range sext.totalLen, |sext.totalS i| := Finset.sum_nonneg (fun _ _ => abs_nonneg _)
    have p3 := abs_nonneg sext.hxl
    have p4 := abs_nonneg sext.mis.phi
    have p5 := abs_nonneg sext.mis.theta
    rw [tot, abs_one] at p1
    linarith
  have hxz : inactive d [] "z" = false := by simp [inactive, hz]
  have m1 : removeMarkers d [] ["s", "z", "t"] = ["s", "z", "t"] := by simp [removeMarkers, isMarkerEl, hs, hz, ht]
  have m2 : removeInactive d [] ["s", "z", "t"] = ["s", "z", "t"] := by simp [removeInactive, hx "s" hs, hx "t" ht, hxz]
  have az : multAt d "z" = none := by simp [multAt, hz]
  have m3 : mergeMults (fun _ => false) [] d ["s", "z", "t"] = (d, ["s", "z", "t"], true) := by
    simp [mergeMults, mergeMultLoop, az]
  have ds : isDriftEl d k "s" = false := by simp [isDriftEl, find_self hs (by simp) k]
  have dt : isDriftEl d k "t" = false := by simp [isDriftEl, find_self ht (by simp) k]
  have dz : isDriftEl d k "z" = true := by simp [isDriftEl, find_self hz (by simp) k]
  have lz : lenOf d k "z" = some 0 := by simp [lenOf, find_self hz (by simp) k, El.length]
  have m4 : removeZeroDrifts d k [] ["s", "z", "t"] = ["s", "t"] := by simp [removeZeroDrifts, ds, dt, dz, lz]
  have m5 : mergeDrifts k [] d ["s", "t"] = (d, ["s", "t"], true) := by simp [mergeDrifts, mergeDriftLoop, dt]
  have e : optimize (fun _ => false) k (fun _ ns => ns) (some []) d ["s", "z", "t"] =
      (useSimpleQuads (useSimpleBends d), ["s", "t"], true) := by
    simp only [optimize, m1, m2, m3, m4, m5]
  have nb : ¬ isSimpleDipole sext := fun c => by
    have := c.2.1 2 (by norm_num) len
    rw [tot] at this
    exact one_ne_zero this
  have nq : ¬ isSimpleQuad sext := fun c => by
    have := c.2.1 2 (by norm_num) len
    rw [tot] at this
    exact one_ne_zero this
  intro r
  rw [show r = _ from e]
  refine ⟨rfl, ⟨by simp, sext, ?_, rfl, rfl, rfl, rfl⟩, by simp, sext, ?_, rfl, rfl, rfl, rfl⟩
  · simp [useSimpleQuads, useSimpleBends, hs, nb, nq]
  · simp [useSimpleQuads, useSimpleBends, ht, nb, nq]

/-- The assumptions are met by a line with drifts, a marker and two quadrupoles. -/
theorem sample_plain (ue : Bool) (k : ℕ) : Plain ue k sample ["a", "b", "m", "q", "q2"] := by
  have al : (quad 1 (noMis 0)).Aligned := by simp [Mult.Aligned, quad, noMis]
  have hd : ∀ n dm l, sample n = some (.drift dm l) → dm = .adaptive := by
    intro n dm l h
    unfold sample at h
    split_ifs at h <;> simp at h
    exact h.1.symm
  have hm : ∀ n m, sample n = some (.mult m) → m = quad 1 (noMis 0) := by
    intro n m h
    unfold sample at h
    split_ifs at h <;> simp at h
    exact h.symm
  have hf : ∀ n ∈ ["a", "b", "m", "q", "q2"], Flat sample n := by
    intro n hn
    simp at hn
    rcases hn with rfl | rfl | rfl | rfl | rfl <;> exact ⟨_, by simp [sample]; rfl, by simp, by simp⟩
  refine ⟨by decide, hf, ?_, ?_, ?_, ?_, ?_⟩
  · intro n _ m h _ _
    rw [hm n m h]
    exact al
  · intro a _ b _ dm l dm' l' ea eb
    rw [hd a dm l ea, hd b dm' l' eb]
    exact fun _ _ => rfl
  · intro n hn q q' ht hq
    obtain ⟨e, e1, e2, e3⟩ := hf n hn
    unfold trackEl at ht
    rw [find_self e1 e2] at ht
    unfold sample at e1
    split_ifs at e1 <;> simp at e1 <;> subst e1 <;> simp only [Option.some.injEq] at ht
    · rw [← ht, drift_chi, hq]
    · rw [← ht, thin_track al rfl rfl]
      simpa [fieldKick] using hq
    · rw [← ht, hq]
  · intro n m h _
    rw [hm n m h]
    exact ⟨rfl, rfl⟩
  · intro n dm par w h
    unfold sample at h
    split_ifs at h <;> simp at h

example (ue : Bool) (k : ℕ) (p : Part) (hp : p.chi = 1) :
    let r := optimize (fun _ => false) k (fun _ ns => ns) (some []) sample ["a", "b", "m", "q", "q2"]
    trackLine ue r.1 k r.2.1 p = trackLine ue sample k ["a", "b", "m", "q", "q2"] p :=
  (C197_tracking_partial ue (fun _ => false) k (fun _ ns => ns) (some []) sample _ (sample_plain ue k)
    (fun _ ns _ => ⟨List.Sublist.refl ns, fun _ => rfl, fun _ h _ => h⟩) rfl).1 p hp

end

end Verif.Cleanup
