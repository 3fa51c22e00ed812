import Verif.Cleanup.MergeProps

/-!
# C41, C64: merging multipoles, simple bends and quadrupoles
-/

namespace Verif.Cleanup

open Frames Magnets

noncomputable section

/-! ## Multipoles which are not misaligned -/

/-- A multipole without shifts and rotations. -/
def Mult.Aligned (m : Mult) : Prop :=
  m.mis.dx = 0 ∧ m.mis.dy = 0 ∧ m.mis.ds = 0 ∧ m.mis.phi = 0 ∧ m.mis.theta = 0 ∧ m.mis.tilt = 0 ∧ m.mis.psi = 0

theorem aligned_track {m : Mult} (h : m.Aligned) (p : Part) : m.track p = m.body false p := by
  obtain ⟨h1, h2, h3, h4, h5, h6, h7⟩ := h
  unfold Mult.track trackPlaced
  rw [if_neg]
  simp [active, h1, h2, h3, h4, h5, h6, h7]

/-- A thin multipole with `hxl = 0` which is not misaligned gives the kick of its field. -/
theorem thin_track {m : Mult} (h : m.Aligned) (ht : m.thick = false) (hx : m.hxl = 0) (p : Part) :
    m.track p = fieldKick (m.field p.x p.y) p := by
  rw [aligned_track h, thin_body m ht hx]

theorem lastNonzero_spec (len : ℕ) (f : ℕ → ℝ) (start : ℕ) :
    start ≤ lastNonzero len f start ∧ ∀ i < len, f i ≠ 0 → i ≤ lastNonzero len f start := by
  unfold lastNonzero
  induction len with
  | zero => simp
  | succ len ih =>
    obtain ⟨h1, h2⟩ := ih
    rw [List.range_succ, List.foldl_append, List.foldl_cons, List.foldl_nil]
    split
    · refine ⟨le_trans h1 (le_max_left _ _), ?_⟩
      intro i hi hf
      rcases Nat.lt_succ_iff_lt_or_eq.1 hi with h | h
      · exact le_trans (h2 i h hf) (le_max_left _ _)
      · rw [h]
        exact le_max_right _ _
    · rename_i c
      refine ⟨h1, ?_⟩
      intro i hi hf
      rcases Nat.lt_succ_iff_lt_or_eq.1 hi with h | h
      · exact h2 i h hf
      · rw [h] at hf
        exact absurd hf c

theorem merged_total (a b : Mult) (n : ℕ) :
    (mergedMult a b).totalN n = a.totalN n + b.totalN n ∧ (mergedMult a b).totalS n = a.totalS n + b.totalS n := by
  have key : (mergedMult a b).order < n → a.totalN n + b.totalN n = 0 ∧ a.totalS n + b.totalS n = 0 := by
    intro h
    obtain ⟨s1, s2⟩ := lastNonzero_spec (max a.totalLen b.totalLen) (fun i => a.totalN i + b.totalN i) 0
    obtain ⟨t1, t2⟩ := lastNonzero_spec (max a.totalLen b.totalLen) (fun i => a.totalS i + b.totalS i)
      (lastNonzero (max a.totalLen b.totalLen) (fun i => a.totalN i + b.totalN i) 0)
    have ho : (mergedMult a b).order = lastNonzero (max a.totalLen b.totalLen) (fun i => a.totalS i + b.totalS i)
      (lastNonzero (max a.totalLen b.totalLen) (fun i => a.totalN i + b.totalN i) 0) := rfl
    rw [ho] at h
    rcases Nat.lt_or_ge n (max a.totalLen b.totalLen) with c | c
    · constructor
      · by_contra hc
        have := s2 n c hc
        omega
      · by_contra hc
        have := t2 n c hc
        omega
    · have ha := total_zero a n (le_trans (le_max_left _ _) c)
      have hb := total_zero b n (le_trans (le_max_right _ _) c)
      simp [ha.1, ha.2, hb.1, hb.2]
  have e1 : (mergedMult a b).knl n = a.totalN n + b.totalN n := rfl
  have e2 : (mergedMult a b).ksl n = a.totalS n + b.totalS n := rfl
  have e3 : (mergedMult a b).knlRel n = 0 := rfl
  have e4 : (mergedMult a b).kslRel n = 0 := rfl
  rw [Mult.totalN, Mult.totalS, e1, e2, e3, e4]
  by_cases c : n ≤ (mergedMult a b).order
  · simp [c]
  · obtain ⟨k1, k2⟩ := key (by omega)
    simp [k1, k2]

theorem merged_field (a b : Mult) (x y : ℝ) : (mergedMult a b).field x y = a.field x y + b.field x y := by
  set N := max (mergedMult a b).totalLen (max a.totalLen b.totalLen)
  rw [← field_total _ N (by omega), ← field_total a N (by omega), ← field_total b N (by omega), field_add]
  apply field_congr
  intro n _
  exact merged_total a b n

theorem merged_aligned (a b : Mult) : (mergedMult a b).Aligned := by simp [Mult.Aligned, mergedMult, noMis]

/-- The merged multipole does what the two do one after the other. -/
theorem merged_track {a b : Mult} (ha : a.Aligned) (hb : b.Aligned) (ta : a.thick = false) (tb : b.thick = false) (xa : a.hxl = 0)
    (xb : b.hxl = 0) (p : Part) : (mergedMult a b).track p = b.track (a.track p) := by
  rw [thin_track (merged_aligned a b) rfl xa, thin_track hb tb xb, thin_track ha ta xa, merged_field]
  ext <;> simp [fieldKick] <;> ring

/-! ## Merging multipoles -/

/-- Everything that the elements of the line depend on exists. -/
def Closed (d : Elements) (k : ℕ) (names : List String) : Prop := ∀ n ∈ names, ∀ r ∈ reads d k n, d r ≠ none

/-- The old entries stay. -/
def Extends (d d' : Elements) : Prop := ∀ n, d n ≠ none → d' n = d n

theorem Extends.trans {a b c : Elements} (h : Extends a b) (g : Extends b c) : Extends a c := fun n hn => by
  rw [g n (by rw [h n hn]; exact hn), h n hn]

/-- Adding entries changes no line. -/
theorem Extends.track {d d' : Elements} (h : Extends d d') {k : ℕ} {names : List String} (hc : Closed d k names) (ue : Bool) (p : Part) :
    trackLine ue d' k names p = trackLine ue d k names p :=
  trackLine_congr ue (fun n hn r hr => h r (hc n hn r hr)) p

theorem reads_congr {d d' : Elements} {k : ℕ} {n : String} (h : ∀ r ∈ reads d k n, d' r = d r) : reads d' k n = reads d k n := by
  induction k generalizing n with
  | zero =>
    have h0 := h n (by simp [reads])
    simp [reads, h0]
  | succ k ih =>
    have h0 := h n (by simp [reads])
    unfold reads
    rw [h0]
    cases e : d n with
    | none => rfl
    | some x =>
      cases x with
      | replica m =>
        simp only
        rw [ih (fun r hr => h r (by simp [reads, e, hr]))]
      | _ => rfl

theorem Extends.closed {d d' : Elements} (h : Extends d d') {k : ℕ} {names : List String} (hc : Closed d k names) : Closed d' k names := by
  intro n hn r hr
  have e := reads_congr (d := d) (d' := d') (k := k) (n := n) (fun r hr => h r (hc n hn r hr))
  rw [e] at hr
  rw [h r (hc n hn r hr)]
  exact hc n hn r hr

theorem put_extends {d : Elements} {n : String} (h : d n = none) (e : El) : Extends d (put d n e) := by
  intro m hm
  have : m ≠ n := by
    intro c
    rw [c, h] at hm
    exact hm rfl
  simp [put, this]

/-- A multipole which may be merged: thin, without curvature and transverse rotation, not kept. -/
def Mergeable1 (d : Elements) (keep : List String) (n : String) : Prop :=
  n ∉ keep ∧ ∃ m, d n = some (.mult m) ∧ m.thick = false ∧ m.hxl = 0 ∧ m.mis.phi = 0 ∧ m.mis.theta = 0

theorem mergeable_iff (keep : List String) (last n : String) (a b : Mult) :
    mergeable keep last n a b = true ↔ (last ∉ keep ∧ a.thick = false ∧ a.hxl = 0 ∧ a.mis.phi = 0 ∧ a.mis.theta = 0) ∧
      (n ∉ keep ∧ b.thick = false ∧ b.hxl = 0 ∧ b.mis.phi = 0 ∧ b.mis.theta = 0) := by
  unfold mergeable
  simp only [decide_eq_true_eq]
  unfold Mult.rotated
  constructor
  · rintro ⟨h1, h2, h3, h4, h5, h6, h7, h8⟩
    push Not at h6 h7
    exact ⟨⟨h8, h3, by rw [h4, h5], h7.1, h7.2⟩, h1, h2, h5, h6.1, h6.2⟩
  · rintro ⟨⟨h1, h2, h3, h4, h5⟩, h6, h7, h8, h9, h10⟩
    exact ⟨h6, h7, h2, by rw [h3, h8], h8, by simp [h9, h10], by simp [h4, h5], h1⟩

theorem multAt_eq {d : Elements} {n : String} {m : Mult} : multAt d n = some m ↔ d n = some (.mult m) := by
  unfold multAt
  split
  · rename_i m' e
    simp [e]
  · rename_i h
    simp only [reduceCtorEq, false_iff]
    exact h m

theorem mult_loop (ue : Bool) (k : ℕ) (reserved : String → Bool) (keep : List String) (d0 : Elements) (ns : List String) (d : Elements)
    (out : List String) (last : String) (hext : Extends d0 d) (h0 : Closed d0 k ns) (hc : Closed d k (out ++ last :: ns))
    (hal : ∀ n ∈ last :: ns, ∀ m, Mergeable1 d keep n → d n = some (.mult m) → m.Aligned) {d' : Elements} {names : List String} {ok : Bool}
    (h : mergeMultLoop reserved keep d0 ns d out last = (d', names, ok)) :
    Extends d d' ∧ (∀ n, d n = none → d' n ≠ none → reserved n = false) ∧
    (ok = true → (∀ p, trackLine ue d' k names p = trackLine ue d k (out ++ last :: ns) p) ∧
      (∀ n ∈ out, n ∈ names) ∧ (∀ n ∈ last :: ns, ¬ Mergeable1 d keep n → n ∈ names) ∧
      ((out ++ [last]).IsChain (fun a b => ¬ (Mergeable1 d keep a ∧ Mergeable1 d keep b)) →
        names.IsChain (fun a b => ¬ (Mergeable1 d' keep a ∧ Mergeable1 d' keep b)))) := by
  induction ns generalizing d out last with
  | nil =>
    simp only [mergeMultLoop, Prod.mk.injEq] at h
    obtain ⟨rfl, rfl, _⟩ := h
    refine ⟨fun _ _ => rfl, fun n h1 h2 => absurd h1 h2, fun _ => ⟨fun _ => rfl, ?_, ?_, fun h => h⟩⟩
    · intro n hn
      simp [hn]
    · intro n hn _
      simp at hn
      simp [hn]
  | cons n ns ih =>
    have hn0 : d0 n ≠ none := h0 n List.mem_cons_self n (by cases k <;> simp [reads])
    have hdn : d n = d0 n := hext n hn0
    have h0' : Closed d0 k ns := fun m hm => h0 m (List.mem_cons_of_mem _ hm)
    have next : ¬ (Mergeable1 d keep last ∧ Mergeable1 d keep n) →
        mergeMultLoop reserved keep d0 ns d (out ++ [last]) n = (d', names, ok) →
        Extends d d' ∧ (∀ n, d n = none → d' n ≠ none → reserved n = false) ∧
        (ok = true → (∀ p, trackLine ue d' k names p = trackLine ue d k (out ++ last :: n :: ns) p) ∧
          (∀ n ∈ out, n ∈ names) ∧ (∀ m ∈ last :: n :: ns, ¬ Mergeable1 d keep m → m ∈ names) ∧
          ((out ++ [last]).IsChain (fun a b => ¬ (Mergeable1 d keep a ∧ Mergeable1 d keep b)) →
            names.IsChain (fun a b => ¬ (Mergeable1 d' keep a ∧ Mergeable1 d' keep b)))) := by
      intro hnm h'
      obtain ⟨h1, h1', h2⟩ := ih d (out ++ [last]) n hext h0' (by simpa using hc)
        (fun m hm => hal m (List.mem_cons_of_mem _ hm)) h'
      refine ⟨h1, h1', fun hok => ?_⟩
      obtain ⟨h3, h4, h5, h6⟩ := h2 hok
      refine ⟨by simpa using h3, fun m hm => h4 m (List.mem_append_left _ hm), ?_, ?_⟩
      · intro m hm hnm
        rcases List.mem_cons.1 hm with e | hm
        · exact h4 m (by simp [e])
        · exact h5 m hm hnm
      · intro hch
        apply h6
        rw [List.append_assoc, List.singleton_append, List.isChain_append] at *
        simp only [List.isChain_cons_cons, List.isChain_singleton, and_true, List.head?_cons, Option.mem_def, Option.some.injEq] at *
        exact ⟨hch.1, hnm, hch.2.2⟩
    unfold mergeMultLoop at h
    split at h
    · rename_i b a eb ea
      rw [multAt_eq] at eb ea
      rw [← hdn] at eb
      split at h
      · rename_i hm
        rw [mergeable_iff] at hm
        obtain ⟨⟨a1, a2, a3, a4, a5⟩, b1, b2, b3, b4, b5⟩ := hm
        have ma : Mergeable1 d keep last := ⟨a1, a, ea, a2, a3, a4, a5⟩
        have mb : Mergeable1 d keep n := ⟨b1, b, eb, b2, b3, b4, b5⟩
        simp only at h
        split at h
        · simp only [Prod.mk.injEq] at h
          obtain ⟨rfl, _, rfl⟩ := h
          exact ⟨fun _ _ => rfl, fun n h1 h2 => absurd h1 h2, fun h => by simp at h⟩
        · rename_i hfree
          simp only [Bool.or_eq_true, not_or, Bool.not_eq_true, Option.isSome_eq_false_iff, Option.isNone_iff_eq_none] at hfree
          obtain ⟨hfree, hres⟩ := hfree
          have hlastd : d last ≠ none := by simp [ea]
          generalize last ++ "_" ++ n = new at *
          set d1 := put d new (.mult (mergedMult a b)) with hd1
          have ex : Extends d d1 := put_extends hfree _
          have hnew : d1 new = some (.mult (mergedMult a b)) := by simp [d1, put]
          have hold : ∀ m, m ≠ new → d1 m = d m := fun m hm => by simp [d1, put, hm]
          have hneq : ∀ m ∈ out ++ last :: n :: ns, m ≠ new := by
            intro m hm e
            have := hc m hm m (by cases k <;> simp [reads])
            rw [e, hfree] at this
            exact this rfl
          have hc1 : Closed d1 k (out ++ last :: n :: ns) := ex.closed hc
          have hMold : ∀ m ∈ out ++ last :: n :: ns, (Mergeable1 d1 keep m ↔ Mergeable1 d keep m) := by
            intro m hm
            unfold Mergeable1
            rw [hold m (hneq m hm)]
          obtain ⟨h1, h1', h2⟩ := ih d1 out new (hext.trans ex) h0' (by
            intro m hm r hr
            rcases List.mem_append.1 hm with h | h
            · exact hc1 m (List.mem_append_left _ h) r hr
            · rcases List.mem_cons.1 h with h | h
              · subst h
                have : r = m := by
                  cases k <;> simpa [reads, hnew] using hr
                rw [this, hnew]
                simp
              · exact hc1 m (by simp [h]) r hr) (by
            intro m hm mm hM hmm
            rcases List.mem_cons.1 hm with h | h
            · rw [h, hnew] at hmm
              simp only [Option.some.injEq, El.mult.injEq] at hmm
              rw [← hmm]
              exact merged_aligned a b
            · rw [hold m (hneq m (by simp [h]))] at hmm
              exact hal m (by simp [h]) mm ((hMold m (by simp [h])).1 hM) hmm) h
          refine ⟨ex.trans h1, ?_, fun hok => ?_⟩
          · intro m hm hm'
            by_cases e : m = new
            · rw [e]
              exact hres
            · exact h1' m (by rw [hold m e]; exact hm) hm'
          · obtain ⟨h3, h4, h5, h6⟩ := h2 hok
            refine ⟨?_, h4, ?_, ?_⟩
            · intro p
              rw [h3, trackLine_append, trackLine_append]
              rw [show trackLine ue d1 k out p = trackLine ue d k out p from
                ex.track (fun m hm => hc m (List.mem_append_left _ hm)) ue p]
              cases trackLine ue d k out p with
              | none => rfl
              | some q =>
                simp only [Option.bind_some, trackLine]
                have e1 : trackEl ue d1 k new q = some ((mergedMult a b).track q) := by
                  simp [trackEl, find_self hnew (fun m => by simp)]
                have e2 : trackEl ue d k last q = some (a.track q) := by simp [trackEl, find_self ea (fun m => by simp)]
                have e3 : ∀ q, trackEl ue d k n q = some (b.track q) := by
                  intro q
                  simp [trackEl, find_self eb (fun m => by simp)]
                have al := hal last List.mem_cons_self a ma ea
                have bl := hal n (by simp) b mb eb
                rw [e1, e2, Option.bind_some, Option.bind_some, e3, Option.bind_some, merged_track al bl a2 b2 a3 b3]
                exact ex.track (fun m hm => hc m (by simp [hm])) ue _
            · intro m hm hnm
              rcases List.mem_cons.1 hm with e | hm
              · rw [e] at hnm
                exact absurd ma hnm
              · rcases List.mem_cons.1 hm with e | hm
                · rw [e] at hnm
                  exact absurd mb hnm
                · exact h5 m (by simp [hm]) (fun hc' => hnm ((hMold m (by simp [hm])).1 hc'))
            · intro hch
              apply h6
              rw [List.isChain_append] at hch ⊢
              obtain ⟨c1, _, c3⟩ := hch
              refine ⟨?_, List.isChain_singleton _, ?_⟩
              · apply List.IsChain.imp_of_mem_imp _ c1
                intro x y hx hy hxy
                rw [hMold x (by simp [hx]), hMold y (by simp [hy])]
                exact hxy
              · intro x hx y _ hxy
                have hxm : x ∈ out := List.mem_of_mem_getLast? hx
                exact c3 x hx last (by simp) ⟨(hMold x (by simp [hxm])).1 hxy.1, ma⟩
      · rename_i hm
        refine next (fun hc' => hm ?_) h
        rw [mergeable_iff]
        obtain ⟨⟨k1, x, ex, x1, x2, x3, x4⟩, k2, y, ey, y1, y2, y3, y4⟩ := hc'
        rw [ea] at ex
        rw [eb] at ey
        simp only [Option.some.injEq, El.mult.injEq] at ex ey
        subst ex ey
        exact ⟨⟨k1, x1, x2, x3, x4⟩, k2, y1, y2, y3, y4⟩
    · rename_i hm
      refine next (fun hc' => ?_) h
      obtain ⟨⟨k1, x, ex, _⟩, k2, y, ey, _⟩ := hc'
      rw [hdn] at ey
      exact hm y x (multAt_eq.2 ey) (multAt_eq.2 ex)

/-- Merging multipoles, when it does not raise: the tracking is the same for every particle, provided that the multipoles which may be
merged have no shifts and no rotations; kept elements and elements which cannot be merged stay; no two which can be merged remain next
to each other.  Whether or not it raises, no old entry changes (so that no other line changes) and no reserved name is used. -/
theorem C41_merge_multipoles_partial (ue : Bool) (k : ℕ) (reserved : String → Bool) (keep : List String) (d : Elements)
    (names : List String) (hc : Closed d k names)
    (hal : ∀ n ∈ names, ∀ m, d n = some (.mult m) → m.thick = false → m.hxl = 0 → n ∉ keep → m.Aligned) {d' : Elements}
    {names' : List String} {ok : Bool} (h : mergeMults reserved keep d names = (d', names', ok)) :
    Extends d d' ∧ (∀ n, d n = none → d' n ≠ none → reserved n = false) ∧ (ok = false → names' = names) ∧
    (∀ p, trackLine ue d' k names' p = trackLine ue d k names p) ∧
    (∀ n ∈ names, (n ∈ keep ∨ ∀ m, d n = some (.mult m) → m.thick = true ∨ m.hxl ≠ 0) → n ∈ names') ∧
    (ok = true → names'.IsChain (fun a b => ¬ (Mergeable1 d' keep a ∧ Mergeable1 d' keep b))) := by
  unfold mergeMults at h
  cases names with
  | nil =>
    simp only [Prod.mk.injEq] at h
    obtain ⟨rfl, rfl, rfl⟩ := h
    exact ⟨fun _ _ => rfl, fun n h1 h2 => absurd h1 h2, by simp, fun _ => rfl, by simp, fun _ => List.isChain_nil⟩
  | cons n ns =>
    have hal' : ∀ x ∈ n :: ns, ∀ m, Mergeable1 d keep x → d x = some (.mult m) → m.Aligned := by
      rintro x hx m ⟨h1, m', e, h2, h3, _⟩ e'
      rw [e] at e'
      simp only [Option.some.injEq, El.mult.injEq] at e'
      subst e'
      exact hal x hx m' e h2 h3 h1
    have hstay : ∀ x ∈ n :: ns, (x ∈ keep ∨ ∀ m, d x = some (.mult m) → m.thick = true ∨ m.hxl ≠ 0) → ¬ Mergeable1 d keep x := by
      rintro x _ hx ⟨h1, m, e, h2, h3, _⟩
      rcases hx with hx | hx
      · exact h1 hx
      · rcases hx m e with h | h
        · rw [h2] at h
          cases h
        · exact h h3
    simp only at h
    split at h
    · rename_i d1 o e
      simp only [Prod.mk.injEq] at h
      obtain ⟨rfl, rfl, rfl⟩ := h
      obtain ⟨h1, h2, h3⟩ := mult_loop ue k reserved keep d ns d [] n (fun _ _ => rfl) (fun m hm => hc m (List.mem_cons_of_mem _ hm))
        hc hal' e
      obtain ⟨h4, _, h5, h6⟩ := h3 rfl
      exact ⟨h1, h2, by simp, h4, fun x hx hx' => h5 x hx (hstay x hx hx'), fun _ => h6 (List.isChain_singleton _)⟩
    · rename_i d1 o e
      simp only [Prod.mk.injEq] at h
      obtain ⟨rfl, rfl, rfl⟩ := h
      obtain ⟨h1, h2, _⟩ := mult_loop ue k reserved keep d ns d [] n (fun _ _ => rfl) (fun m hm => hc m (List.mem_cons_of_mem _ hm))
        hc hal' e
      exact ⟨h1, h2, fun _ => rfl, fun p => h1.track hc ue p, fun x hx _ => hx, by simp⟩

/-! ## Simple quadrupoles and bends -/

theorem thin_kick (m : Mult) (ht : m.thick = false) (p : Part) :
    m.body false p = magnetKick (kickArgs m.magnet ⟨0, 0, 0, 0, 0, 0, 0, 0, 0, true, -1⟩ (1 * m.length * 1) (1 * 1) (1 * m.hxl)) 1 p := by
  rw [body_eq]
  obtain ⟨g1, g2, g3⟩ := geometry_mult m
  have hm : modelOf m.magnet = -1 := by simp [modelOf, Mult.magnet, ht]
  have hc : configure (-1) m.magnet.k0 m.magnet.k1 0 m.magnet.ks = ⟨0, 0, 0, 0, 0, 0, 0, 0, 0, true, -1⟩ := by
    simp [configure, driftModelOf, Mult.magnet]
  have hn : ∀ l, kickNumber m.magnet 1 0 l = 1 := by
    intro l
    simp [kickNumber, Mult.magnet, ht]
  have hi : integratorOf m.magnet = 3 := by simp [integratorOf, hm]
  unfold trackBody
  simp only [g1, g2, g3, hm, hc, hn, hi]
  have hmx : m.magnet.hxl = m.hxl := rfl
  rw [hmx]
  simp [body, steps, uniform, runSteps, Step.run, magnetDrift, driftArgs, -mul_one, -one_mul]

/-- A multipole which `use_simple_quadrupoles` replaces: if it is not rotated about `s` the simple quadrupole does the same. -/
theorem simple_quad {m : Mult} (h : isSimpleQuad m) (ht : m.mis.tilt = 0) (hp : m.mis.psi = 0) (p : Part) :
    simpleQuad (m.totalN 1) p = m.track p := by
  obtain ⟨h1, h2, h3, h4, h5, h6, h7, h8, h9, _⟩ := h
  unfold Mult.rotated at h6
  push Not at h6
  rw [thin_track ⟨h7, h8, h9, h6.1, h6.2, ht, hp⟩ h1 h5]
  have hf : m.field p.x p.y = ((m.totalN 1 : ℝ) : ℂ) * ⟨p.x, p.y⟩ := by
    have : m.field p.x p.y = Magnets.field (fun n => if n = 1 then m.totalN 1 else 0) (fun _ => 0) m.totalLen p.x p.y := by
      unfold Mult.field
      apply field_congr
      intro n _
      rcases Nat.lt_or_ge n m.totalLen with c | c
      · refine ⟨?_, h4 n c⟩
        by_cases e : n = 1
        · simp [e]
        · rw [if_neg e]
          rcases Nat.eq_zero_or_pos n with e0 | e0
          · rw [e0, h3]
          · exact h2 n (by omega) c
      · obtain ⟨t1, t2⟩ := total_zero m n c
        refine ⟨?_, t2⟩
        have : n ≠ 1 := by
          unfold Mult.totalLen at c
          omega
        simp [this, t1]
    rw [this, ← field_extend _ _ 1 m.totalLen (by unfold Mult.totalLen; omega) p.x p.y (fun n hn _ => by
      have : n ≠ 1 := by omega
      simp [this])]
    have e0 : (⟨m.totalN 1, 0⟩ : ℂ) = ((m.totalN 1 : ℝ) : ℂ) := rfl
    have e1 : (⟨0, 0⟩ : ℂ) = 0 := rfl
    simp [Magnets.field, Finset.sum_range_succ, e0, e1]
  rw [hf]
  ext <;> simp [simpleQuad, fieldKick] <;> ring

/-- A multipole which `use_simple_bends` replaces: if it is not rotated about `s`, the simple bend does the same to a particle with the
charge-to-mass ratio of the reference particle, and to any particle if there is no curvature. -/
theorem simple_bend {m : Mult} (h : isSimpleDipole m) (ht : m.mis.tilt = 0) (hp : m.mis.psi = 0) (p : Part) (hc : m.hxl = 0 ∨ p.chi = 1) :
    simpleBend (m.totalN 0) m.hxl m.length p = m.track p := by
  obtain ⟨h1, h2, h3, h6, h7, h8, h9, _⟩ := h
  unfold Mult.rotated at h6
  push Not at h6
  have e0 : ∀ z : ℝ, (⟨z, 0⟩ : ℂ) = (z : ℂ) := fun _ => rfl
  have hf : m.field p.x p.y = ((m.totalN 0 : ℝ) : ℂ) := by
    have : m.field p.x p.y = Magnets.field (fun n => if n = 0 then m.totalN 0 else 0) (fun _ => 0) m.totalLen p.x p.y := by
      unfold Mult.field
      apply field_congr
      intro n _
      rcases Nat.lt_or_ge n m.totalLen with c | c
      · refine ⟨?_, h3 n c⟩
        by_cases e : n = 0
        · simp [e]
        · rw [if_neg e]
          exact h2 n (by omega) c
      · obtain ⟨t1, t2⟩ := total_zero m n c
        refine ⟨?_, t2⟩
        have : n ≠ 0 := by
          unfold Mult.totalLen at c
          omega
        simp [this, t1]
    rw [this, ← field_extend _ _ 0 m.totalLen (Nat.zero_le _) p.x p.y (fun n hn _ => by
      have : n ≠ 0 := by omega
      simp [this])]
    simp [Magnets.field, e0]
  rw [aligned_track ⟨h7, h8, h9, h6.1, h6.2, ht, hp⟩, thin_kick m h1, C58_kick]
  have hb : bodyField (kickArgs m.magnet ⟨0, 0, 0, 0, 0, 0, 0, 0, 0, true, -1⟩ (1 * m.length * 1) (1 * 1) (1 * m.hxl)) p.x p.y =
      ((m.totalN 0 : ℝ) : ℂ) := by
    rw [← hf, ← field_parts]
    have h0 : (⟨0, 0⟩ : ℂ) = 0 := rfl
    simp [bodyField, kickArgs, Mult.magnet, h0]
  have hk0 : k0lMult (kickArgs m.magnet ⟨0, 0, 0, 0, 0, 0, 0, 0, 0, true, -1⟩ (1 * m.length * 1) (1 * 1) (1 * m.hxl)) = m.totalN 0 := by
    simp [k0lMult, kickArgs, Mult.magnet, Mult.totalN]
    ring
  have hk1 : k1lMult (kickArgs m.magnet ⟨0, 0, 0, 0, 0, 0, 0, 0, 0, true, -1⟩ (1 * m.length * 1) (1 * 1) (1 * m.hxl)) = 0 := by
    refine Eq.trans ?_ (h2 1 le_rfl (by unfold Mult.totalLen; omega))
    show (if 1 ≤ m.order then m.knl 1 * (1 * 1) else 0) + (if 1 ≤ m.orderRel then m.knlRel 1 * (1 * 1) * m.main else 0) =
      (if 1 ≤ m.order then m.knl 1 else 0) + (if 1 ≤ m.orderRel then m.main * m.knlRel 1 else 0)
    by_cases c : 1 ≤ m.order <;> by_cases c' : 1 ≤ m.orderRel <;> simp only [c, c', if_true, if_false] <;> ring
  have hT : hTot (kickArgs m.magnet ⟨0, 0, 0, 0, 0, 0, 0, 0, 0, true, -1⟩ (1 * m.length * 1) (1 * 1) (1 * m.hxl)) =
      if m.length ≠ 0 then m.hxl / m.length else 0 := by
    simp [hTot, kickArgs]
  unfold simpleBend
  simp only [forceX, forceY, forceZ, hb, hk0, hk1, hT, Complex.ofReal_re, Complex.ofReal_im]
  simp only [kickArgs, if_true]
  by_cases hx : m.hxl = 0
  · ext <;> simp [hx]
  · have hchi : p.chi = 1 := hc.resolve_left hx
    by_cases hl : m.length = 0
    · ext <;> simp [hx, hchi, hl]
      · ring
      · ring
    · ext <;> simp [hx, hchi, hl]
      · ring
      · ring

/-- A dictionary in which some multipoles are replaced by simple elements. -/
def Simplified (d d' : Elements) (ok : Mult → El → Prop) : Prop :=
  ∀ n, d' n = d n ∨ ∃ m e, d n = some (.mult m) ∧ d' n = some e ∧ ok m e ∧ m.thick = false ∧
    ((∃ q, e = .simpleQuad q) ∨ ∃ b x l, e = .simpleBend b x l)

theorem Simplified.find {d d' : Elements} {ok : Mult → El → Prop} (h : Simplified d d' ok) (k : ℕ) (n : String) :
    find d' k n = find d k n ∨ ∃ m e, find d k n = some (.mult m) ∧ find d' k n = some e ∧ ok m e ∧
      ((∃ q, e = .simpleQuad q) ∨ ∃ b x l, e = .simpleBend b x l) := by
  have repl : (∃ m e, d n = some (.mult m) ∧ d' n = some e ∧ ok m e ∧ m.thick = false ∧
      ((∃ q, e = .simpleQuad q) ∨ ∃ b x l, e = .simpleBend b x l)) → ∃ m e, Cleanup.find d k n = some (.mult m) ∧
      Cleanup.find d' k n = some e ∧ ok m e ∧ ((∃ q, e = .simpleQuad q) ∨ ∃ b x l, e = .simpleBend b x l) := by
    rintro ⟨m, e, h1, h2, h3, _, h4⟩
    refine ⟨m, e, find_self h1 (by simp) k, find_self h2 ?_ k, h3, h4⟩
    intro x hx
    rw [hx] at h4
    simp at h4
  induction k generalizing n with
  | zero =>
    rcases h n with h1 | h1
    · exact .inl (by simp [Cleanup.find, h1])
    · exact .inr (repl h1)
  | succ k ih =>
    rcases h n with h1 | h1
    · cases e : d n with
      | none => exact .inl (by simp [Cleanup.find, h1, e])
      | some x =>
        cases x with
        | replica m =>
          have := ih m (by
            rintro ⟨m', e', h1, h2, h3, _, h4⟩
            refine ⟨m', e', find_self h1 (by simp) k, find_self h2 ?_ k, h3, h4⟩
            intro x hx
            rw [hx] at h4
            simp at h4)
          simpa [Cleanup.find, h1, e] using this
        | _ => exact .inl (by simp [Cleanup.find, h1, e])
    · exact .inr (repl h1)

/-- What `ok` has to guarantee. -/
theorem Simplified.track {d d' : Elements} {ok : Mult → El → Prop} (h : Simplified d d' ok) (ue : Bool) (k : ℕ) (n : String) (p : Part)
    (hq : ∀ m q, ok m (.simpleQuad q) → simpleQuad q p = m.track p)
    (hb : ∀ m b x l, ok m (.simpleBend b x l) → simpleBend b x l p = m.track p)
    (hs : ∀ n dm par w, d n = some (.driftSlice dm par w) → ∀ m, d par = some (.mult m) → m.thick = true) :
    trackEl ue d' k n p = trackEl ue d k n p := by
  unfold trackEl
  rcases h.find k n with h1 | ⟨m, e, h1, h2, h3, h4⟩
  · rw [h1]
    split <;> try rfl
    rename_i dm par w e
    have hp : d' par = d par := by
      rcases h par with hp | ⟨m, x, hp, _, _, ht, _⟩
      · exact hp
      · exfalso
        have hsl : ∃ n', d n' = some (.driftSlice dm par w) := by
          clear h1
          induction k generalizing n with
          | zero =>
            unfold Cleanup.find at e
            split at e
            · cases e
            · exact ⟨n, e⟩
          | succ k ih =>
            unfold Cleanup.find at e
            split at e
            · exact ih _ e
            · exact ⟨n, e⟩
        obtain ⟨n', hn'⟩ := hsl
        have := hs n' dm par w hn' m hp
        rw [ht] at this
        cases this
    rw [show ownLen d' par = ownLen d par by unfold ownLen; rw [hp]]
  · rw [h1, h2]
    rcases h4 with ⟨q, rfl⟩ | ⟨b, x, l, rfl⟩
    · simp only [hq m q h3]
    · simp only [hb m b x l h3]

/-- `use_simple_quadrupoles` changes the tracking of no line of the environment, provided that the multipoles replaced have no
rotation about `s` at all (the method accepts rotations below `1e-12` and does not look at `rot_s_rad_no_frame`). -/
theorem C64_quadrupoles_partial (ue : Bool) (d : Elements) (k : ℕ) (names : List String) (p : Part)
    (hrot : ∀ n m, d n = some (.mult m) → isSimpleQuad m → m.mis.tilt = 0 ∧ m.mis.psi = 0)
    (hs : ∀ n dm par w, d n = some (.driftSlice dm par w) → ∀ m, d par = some (.mult m) → m.thick = true) :
    trackLine ue (useSimpleQuads d) k names p = trackLine ue d k names p := by
  have hS : Simplified d (useSimpleQuads d) (fun m e => e = .simpleQuad (m.totalN 1) ∧ isSimpleQuad m ∧ m.mis.tilt = 0 ∧ m.mis.psi = 0) := by
    intro n
    unfold useSimpleQuads
    cases e : d n with
    | none => exact .inl rfl
    | some x =>
      cases x with
      | mult m =>
        by_cases c : isSimpleQuad m
        · refine .inr ⟨m, _, rfl, by simp [c], ⟨rfl, c, hrot n m e c⟩, c.1, .inl ⟨_, rfl⟩⟩
        · exact .inl (by simp [c])
      | _ => exact .inl rfl
  induction names generalizing p with
  | nil => rfl
  | cons n ns ih =>
    simp only [trackLine]
    rw [hS.track ue k n p (by
      rintro m q ⟨h1, h2, h3, h4⟩
      simp only [El.simpleQuad.injEq] at h1
      rw [h1]
      exact simple_quad h2 h3 h4 p) (by
      rintro m b x l ⟨h1, _⟩
      simp at h1) hs]
    congr 1
    funext q
    exact ih q

/-- `use_simple_bends` changes the tracking of no line for particles with the charge-to-mass ratio of the reference particle (`chi`
equal to one), which the elements keep, provided that the multipoles replaced have no rotation about `s` at all. -/
theorem C64_bends_partial (ue : Bool) (d : Elements) (k : ℕ) (names : List String) (p : Part) (hchi : p.chi = 1)
    (hkeep : ∀ n ∈ names, ∀ q q', trackEl ue d k n q = some q' → q.chi = 1 → q'.chi = 1)
    (hrot : ∀ n m, d n = some (.mult m) → isSimpleDipole m → m.mis.tilt = 0 ∧ m.mis.psi = 0)
    (hs : ∀ n dm par w, d n = some (.driftSlice dm par w) → ∀ m, d par = some (.mult m) → m.thick = true) :
    trackLine ue (useSimpleBends d) k names p = trackLine ue d k names p := by
  have hS : Simplified d (useSimpleBends d)
      (fun m e => e = .simpleBend (m.totalN 0) m.hxl m.length ∧ isSimpleDipole m ∧ m.mis.tilt = 0 ∧ m.mis.psi = 0) := by
    intro n
    unfold useSimpleBends
    cases e : d n with
    | none => exact .inl rfl
    | some x =>
      cases x with
      | mult m =>
        by_cases c : isSimpleDipole m
        · refine .inr ⟨m, _, rfl, by simp [c], ⟨rfl, c, hrot n m e c⟩, c.1, .inr ⟨_, _, _, rfl⟩⟩
        · exact .inl (by simp [c])
      | _ => exact .inl rfl
  induction names generalizing p with
  | nil => rfl
  | cons n ns ih =>
    simp only [trackLine]
    rw [hS.track ue k n p (by
      rintro m q ⟨h1, _⟩
      simp at h1) (by
      rintro m b x l ⟨h1, h2, h3, h4⟩
      simp only [El.simpleBend.injEq] at h1
      obtain ⟨rfl, rfl, rfl⟩ := h1
      exact simple_bend h2 h3 h4 p (.inr hchi)) hs]
    cases e : trackEl ue d k n p with
    | none => rfl
    | some q =>
      exact ih q (hkeep n List.mem_cons_self p q e hchi) (fun m hm => hkeep m (List.mem_cons_of_mem _ hm))

end

end Verif.Cleanup
