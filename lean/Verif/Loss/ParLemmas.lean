import Verif.Loss.OmpLemmas
/-! Interleavings: steps of different threads commute (no property statements here). -/
namespace Verif.Loss
open Spec
variable {α : Type}

/-- `l` and `l'` hold the same records in `[lo, hi)`. -/
def AgreeOn (lo hi : Nat) (l l' : List (Slot α)) : Prop :=
  ∀ k, lo ≤ k → k < hi → l[k]? = l'[k]?

theorem exchange_agree {lo hi i j : Nat} {l l' : List (Slot α)} (h : AgreeOn lo hi l l')
    (hi1 : lo ≤ i) (hi2 : i < hi) (hj1 : lo ≤ j) (hj2 : j < hi) (hl : hi ≤ l.length)
    (hl' : hi ≤ l'.length) : AgreeOn lo hi (exchange l i j) (exchange l' i j) := by
  intro k h1 h2
  rw [exchange_getElem? l i j k (by omega) (by omega), exchange_getElem? l' i j k (by omega) (by omega),
    h i hi1 hi2, h j hj1 hj2, h k h1 h2]

theorem ompLoop_agree {lo hi left right : Nat} {l l' : List (Slot α)} {sw ha : Bool}
    (h : AgreeOn lo hi l l') (h1 : lo ≤ left) (h2 : right < hi) (hl : hi ≤ l.length)
    (hl' : hi ≤ l'.length) :
    AgreeOn lo hi (ompLoop l left right sw ha).1 (ompLoop l' left right sw ha).1 ∧
    (ompLoop l left right sw ha).2 = (ompLoop l' left right sw ha).2 := by
  induction hd : right + 1 - left using Nat.strong_induction_on
    generalizing l l' left right sw ha with
  | _ d ih =>
    by_cases hlt : left < right
    · unfold ompLoop
      rw [dif_pos hlt, dif_pos hlt, ← h left h1 (by omega), ← h right (by omega) h2,
        List.getElem?_eq_getElem (show left < l.length by omega),
        List.getElem?_eq_getElem (show right < l.length by omega)]
      simp only
      split
      · exact ih _ (by omega) h (by omega) h2 hl hl' rfl
      · split
        · exact ih _ (by omega) h h1 (by omega) hl hl' rfl
        · exact ih _ (by omega) (exchange_agree h h1 (by omega) (by omega) h2 hl hl') (by omega)
            (by omega) (by rw [exchange_length]; exact hl) (by rw [exchange_length]; exact hl') rfl
    · unfold ompLoop
      rw [dif_neg hlt, dif_neg hlt]
      exact ⟨h, rfl⟩

theorem ompCheck_agree {lo hi : Nat} {l l' : List (Slot α)} (h : AgreeOn lo hi l l')
    (hl : hi ≤ l.length) (hl' : hi ≤ l'.length) :
    AgreeOn lo hi (ompCheckIsActive l lo hi).1 (ompCheckIsActive l' lo hi).1 ∧
    (ompCheckIsActive l lo hi).2 = (ompCheckIsActive l' lo hi).2 := by
  unfold ompCheckIsActive
  split
  · exact ⟨h, rfl⟩
  · split
    · refine ⟨h, ?_⟩
      simp only
      rw [h lo (le_refl _) (by omega)]
    · have := ompLoop_agree (sw := false) (ha := false) (right := hi - 1) h (le_refl lo) (by omega) hl hl'
      refine ⟨this.1, ?_⟩
      simp only
      rw [this.2]

theorem ompPer_agree {lo hi : Nat} {l l' : List (Slot α)} (f : Slot α → Slot α)
    (h : AgreeOn lo hi l l') : AgreeOn lo hi (ompPerParticle f lo hi l) (ompPerParticle f lo hi l') := by
  intro k h1 h2
  simp only [ompPerParticle, List.getElem?_mapIdx]
  rw [h k h1 h2]

theorem ompPer_frame {lo hi k : Nat} {l : List (Slot α)} (f : Slot α → Slot α)
    (h : k < lo ∨ hi ≤ k) : (ompPerParticle f lo hi l)[k]? = l[k]? := by
  simp only [ompPerParticle, List.getElem?_mapIdx]
  cases l[k]? with
  | none => rfl
  | some s =>
    simp only [Option.map_some]
    rw [if_neg (by rintro ⟨a, b, c⟩; omega)]

theorem ompPer_length {lo hi : Nat} {l : List (Slot α)} (f : Slot α → Slot α) :
    (ompPerParticle f lo hi l).length = l.length := by simp [ompPerParticle]

theorem ompCheck_frame' {lo hi : Nat} {l : List (Slot α)} (hl : hi ≤ l.length) :
    (∀ k, k < lo ∨ hi ≤ k → (ompCheckIsActive l lo hi).1[k]? = l[k]?) ∧
    (ompCheckIsActive l lo hi).1.length = l.length := by
  by_cases h : lo ≤ hi
  · have := ompCheck_spec l lo hi h hl
    exact ⟨this.frame, this.len⟩
  · unfold ompCheckIsActive
    rw [if_pos (by omega)]
    exact ⟨fun _ _ => rfl, rfl⟩

/-- A step touches only the thread's own slots and depends only on them. -/
theorem pcStep_frame (els : List (Elem α)) (endTurn : Bool) (n lo hi : Nat) (pc : Pc α)
    (l : List (Slot α)) (hl : hi ≤ l.length) :
    (∀ k, k < lo ∨ hi ≤ k → (pcStep els endTurn n lo hi pc l).2[k]? = l[k]?) ∧
    (pcStep els endTurn n lo hi pc l).2.length = l.length := by
  match pc with
  | .start => exact ompCheck_frame' hl
  | .turn 0 _ => exact ⟨fun _ _ => rfl, rfl⟩
  | .turn (_ + 1) false => exact ⟨fun _ _ => rfl, rfl⟩
  | .turn (_ + 1) true => exact ⟨fun _ _ => rfl, rfl⟩
  | .done => exact ⟨fun _ _ => rfl, rfl⟩
  | .elem _ [] =>
    simp only [pcStep]
    cases endTurn
    · exact ⟨fun _ _ => rfl, rfl⟩
    · exact ⟨fun k hk => ompPer_frame _ hk, ompPer_length _⟩
  | .elem _ (e :: es) =>
    have h1 := @ompCheck_frame' _ lo hi (ompPerParticle (applyElem e) lo hi l)
      (by rw [ompPer_length]; exact hl)
    have h2 : ∀ k, k < lo ∨ hi ≤ k →
        (ompCheckIsActive (ompPerParticle (applyElem e) lo hi l) lo hi).1[k]? = l[k]? :=
      fun k hk => (h1.1 k hk).trans (ompPer_frame _ hk)
    have h3 := h1.2.trans (ompPer_length (l := l) (applyElem e))
    simp only [pcStep]
    split
    · exact ⟨fun k hk => (ompPer_frame _ hk).trans (h2 k hk), (ompPer_length _).trans h3⟩
    · exact ⟨h2, h3⟩

theorem pcStep_agree (els : List (Elem α)) (endTurn : Bool) (n lo hi : Nat) (pc : Pc α)
    (l l' : List (Slot α)) (h : AgreeOn lo hi l l') (hl : hi ≤ l.length) (hl' : hi ≤ l'.length) :
    AgreeOn lo hi (pcStep els endTurn n lo hi pc l).2 (pcStep els endTurn n lo hi pc l').2 ∧
    (pcStep els endTurn n lo hi pc l).1 = (pcStep els endTurn n lo hi pc l').1 := by
  match pc with
  | .start =>
    have := ompCheck_agree h hl hl'
    exact ⟨this.1, by simp only [pcStep]; rw [this.2]⟩
  | .turn 0 _ => exact ⟨h, rfl⟩
  | .turn (_ + 1) false => exact ⟨h, rfl⟩
  | .turn (_ + 1) true => exact ⟨h, rfl⟩
  | .done => exact ⟨h, rfl⟩
  | .elem _ [] =>
    simp only [pcStep]
    cases endTurn
    · exact ⟨h, trivial⟩
    · exact ⟨ompPer_agree _ h, trivial⟩
  | .elem _ (e :: es) =>
    have h1 := ompCheck_agree (ompPer_agree (applyElem e) h)
      (by rw [ompPer_length]; exact hl) (by rw [ompPer_length]; exact hl')
    simp only [pcStep]
    rw [h1.2]
    split
    · exact ⟨ompPer_agree _ h1.1, rfl⟩
    · exact ⟨h1.1, rfl⟩

/-! Chunk bounds are disjoint and inside the tracked range. -/

theorem chunk_hi_le (n t c : Nat) : (chunkBounds n t c).2 ≤ n := by simp [chunkBounds]

theorem chunk_disjoint (n t c d : Nat) (h : c < d) : (chunkBounds n t c).2 ≤ (chunkBounds n t d).1 := by
  simp only [chunkBounds]
  refine le_trans (Nat.min_le_left _ _) ?_
  exact Nat.mul_le_mul_right _ h

theorem chunk_disjoint' (n t c d : Nat) (h : c ≠ d) (k : Nat) (h1 : (chunkBounds n t c).1 ≤ k)
    (h2 : k < (chunkBounds n t c).2) : k < (chunkBounds n t d).1 ∨ (chunkBounds n t d).2 ≤ k := by
  rcases Nat.lt_or_gt_of_ne h with h | h
  · have := chunk_disjoint n t c d h; omega
  · have := chunk_disjoint n t d c h; omega

theorem Par.ext' {s t : Par α} (h1 : ∀ d, s.pcs d = t.pcs d) (h2 : s.mem = t.mem) : s = t := by
  cases s; cases t
  simp only at h1 h2
  subst h2
  congr 1
  funext d; exact h1 d

theorem parStep_length (els : List (Elem α)) (endTurn : Bool) (n N T : Nat) (s : Par α) (c : Nat)
    (h : N ≤ s.mem.length) : (parStep els endTurn n N T s c).mem.length = s.mem.length :=
  (pcStep_frame els endTurn n _ _ (s.pcs c) s.mem (le_trans (chunk_hi_le N T c) h)).2

/-- Steps of two threads commute. -/
theorem parStep_comm (els : List (Elem α)) (endTurn : Bool) (n N T : Nat) (s : Par α) (c d : Nat)
    (h : N ≤ s.mem.length) :
    parStep els endTurn n N T (parStep els endTurn n N T s c) d =
    parStep els endTurn n N T (parStep els endTurn n N T s d) c := by
  by_cases hcd : c = d
  · rw [hcd]
  have fr : ∀ (pc : Pc α) (e : Nat) (m : List (Slot α)), N ≤ m.length →
      (∀ k, k < (chunkBounds N T e).1 ∨ (chunkBounds N T e).2 ≤ k →
        (pcStep els endTurn n (chunkBounds N T e).1 (chunkBounds N T e).2 pc m).2[k]? = m[k]?) ∧
      (pcStep els endTurn n (chunkBounds N T e).1 (chunkBounds N T e).2 pc m).2.length = m.length :=
    fun pc e m hm => pcStep_frame els endTurn n _ _ pc m (le_trans (chunk_hi_le N T e) hm)
  have ag : ∀ (pc : Pc α) (e f : Nat) (hef : f ≠ e) (m : List (Slot α)) (pc' : Pc α), N ≤ m.length →
      AgreeOn (chunkBounds N T f).1 (chunkBounds N T f).2
        (pcStep els endTurn n (chunkBounds N T e).1 (chunkBounds N T e).2 pc m).2 m := by
    intro pc e f hef m pc' hm k h1 h2
    exact (fr pc e m hm).1 k (chunk_disjoint' N T f e hef k h1 h2)
  have key : ∀ (pc : Pc α) (e : Nat) (m m' : List (Slot α)), N ≤ m.length → N ≤ m'.length →
      AgreeOn (chunkBounds N T e).1 (chunkBounds N T e).2 m m' →
      AgreeOn (chunkBounds N T e).1 (chunkBounds N T e).2
        (pcStep els endTurn n (chunkBounds N T e).1 (chunkBounds N T e).2 pc m).2
        (pcStep els endTurn n (chunkBounds N T e).1 (chunkBounds N T e).2 pc m').2 ∧
      (pcStep els endTurn n (chunkBounds N T e).1 (chunkBounds N T e).2 pc m).1 =
        (pcStep els endTurn n (chunkBounds N T e).1 (chunkBounds N T e).2 pc m').1 :=
    fun pc e m m' hm hm' hag => pcStep_agree els endTurn n _ _ pc m m' hag
      (le_trans (chunk_hi_le N T e) hm) (le_trans (chunk_hi_le N T e) hm')
  have hdc : d ≠ c := fun h => hcd h.symm
  have fc := fr (s.pcs c) c s.mem h
  have fd := fr (s.pcs d) d s.mem h
  have kd := key (s.pcs d) d _ s.mem (by rw [fc.2]; exact h) h (ag (s.pcs c) c d hdc s.mem (s.pcs c) h)
  have kc := key (s.pcs c) c _ s.mem (by rw [fd.2]; exact h) h (ag (s.pcs d) d c hcd s.mem (s.pcs c) h)
  apply Par.ext'
  · intro e
    simp only [parStep, if_neg hcd, if_neg hdc]
    by_cases h1 : e = c
    · subst h1; simp only [if_neg hcd, if_true]; exact kc.2.symm
    · by_cases h2 : e = d
      · subst h2; simp only [if_neg h1, if_true]; exact kd.2
      · simp only [if_neg h1, if_neg h2]
  · simp only [parStep, if_neg hcd, if_neg hdc]
    apply List.ext_getElem?
    intro k
    by_cases hkc : (chunkBounds N T c).1 ≤ k ∧ k < (chunkBounds N T c).2
    · have hkd := chunk_disjoint' N T c d hcd k hkc.1 hkc.2
      rw [(fr (s.pcs d) d _ (by rw [fc.2]; exact h)).1 k hkd]
      exact (kc.1 k hkc.1 hkc.2).symm
    · have hkc' : k < (chunkBounds N T c).1 ∨ (chunkBounds N T c).2 ≤ k := by omega
      rw [(fr (s.pcs c) c _ (by rw [fd.2]; exact h)).1 k hkc']
      by_cases hkd : (chunkBounds N T d).1 ≤ k ∧ k < (chunkBounds N T d).2
      · exact kd.1 k hkd.1 hkd.2
      · have hkd' : k < (chunkBounds N T d).1 ∨ (chunkBounds N T d).2 ≤ k := by omega
        rw [(fr (s.pcs d) d _ (by rw [fc.2]; exact h)).1 k hkd', fc.1 k hkc', fd.1 k hkd']

theorem parFold_length (els : List (Elem α)) (endTurn : Bool) (n N T : Nat) (sched : List Nat) (s : Par α)
    (h : N ≤ s.mem.length) :
    (sched.foldl (parStep els endTurn n N T) s).mem.length = s.mem.length := by
  induction sched generalizing s with
  | nil => rfl
  | cons c cs ih =>
    rw [List.foldl_cons, ih _ (by rw [parStep_length _ _ _ _ _ _ _ h]; exact h),
      parStep_length _ _ _ _ _ _ _ h]

theorem parFold_perm (els : List (Elem α)) (endTurn : Bool) (n N T : Nat) {s1 s2 : List Nat}
    (hp : s1.Perm s2) (s : Par α) (h : N ≤ s.mem.length) :
    s1.foldl (parStep els endTurn n N T) s = s2.foldl (parStep els endTurn n N T) s := by
  induction hp generalizing s with
  | nil => rfl
  | cons c _ ih =>
    simp only [List.foldl_cons]
    exact ih _ (by rw [parStep_length _ _ _ _ _ _ _ h]; exact h)
  | swap c d cs =>
    simp only [List.foldl_cons]
    rw [parStep_comm _ _ _ _ _ _ _ _ h]
  | trans _ _ ih1 ih2 => rw [ih1 s h, ih2 s h]

/-- `k` steps of one thread on its own. -/
def pcRun (els : List (Elem α)) (endTurn : Bool) (n lo hi : Nat) : Nat → Pc α → List (Slot α) →
    Pc α × List (Slot α)
  | 0, pc, l => (pc, l)
  | k + 1, pc, l =>
    let r := pcStep els endTurn n lo hi pc l
    pcRun els endTurn n lo hi k r.1 r.2

theorem pcRun_done (els : List (Elem α)) (endTurn : Bool) (n lo hi k : Nat) (l : List (Slot α)) :
    pcRun els endTurn n lo hi k .done l = (.done, l) := by
  induction k with
  | zero => rfl
  | succ k ih => simpa [pcRun, pcStep] using ih

theorem pcRun_add (els : List (Elem α)) (endTurn : Bool) (n lo hi j k : Nat) (pc : Pc α)
    (l : List (Slot α)) :
    pcRun els endTurn n lo hi (j + k) pc l =
      pcRun els endTurn n lo hi k (pcRun els endTurn n lo hi j pc l).1
        (pcRun els endTurn n lo hi j pc l).2 := by
  induction j generalizing pc l with
  | zero => simp [pcRun]
  | succ j ih =>
    rw [show j + 1 + k = (j + k) + 1 by omega]
    simp only [pcRun]
    exact ih _ _

theorem pcRun_elems (els : List (Elem α)) (endTurn : Bool) (n lo hi m : Nat) (es : List (Elem α))
    (l : List (Slot α)) :
    ∃ k, pcRun els endTurn n lo hi k (.elem m es) l =
      (.turn m (ompElemLoop lo hi es l).2,
       if (ompElemLoop lo hi es l).2 = true ∧ endTurn = true then
         ompPerParticle incAtTurn lo hi (ompElemLoop lo hi es l).1
       else (ompElemLoop lo hi es l).1) := by
  induction es generalizing l with
  | nil =>
    refine ⟨1, ?_⟩
    simp only [pcRun, pcStep, ompElemLoop, true_and]
  | cons e es ih =>
    simp only [ompElemLoop]
    by_cases hb : (ompCheckIsActive (ompPerParticle (applyElem e) lo hi l) lo hi).2 = true
    · obtain ⟨k, hk⟩ := ih (ompPerParticle incAtElement lo hi
        (ompCheckIsActive (ompPerParticle (applyElem e) lo hi l) lo hi).1)
      refine ⟨k + 1, ?_⟩
      simp only [pcRun, pcStep, hb, if_true]
      exact hk
    · refine ⟨1, ?_⟩
      simp [pcRun, pcStep, hb]

theorem pcRun_turns (els : List (Elem α)) (endTurn : Bool) (n lo hi m : Nat) (act : Bool)
    (l : List (Slot α)) :
    ∃ k, pcRun els endTurn n lo hi k (.turn m act) l =
      (.done, ompTurnLoop lo hi els endTurn m l act) := by
  induction m generalizing l act with
  | zero => exact ⟨1, by simp [pcRun, pcStep, ompTurnLoop]⟩
  | succ m ih =>
    cases act with
    | false => exact ⟨1, by simp [pcRun, pcStep, ompTurnLoop]⟩
    | true =>
      obtain ⟨k1, h1⟩ := pcRun_elems els endTurn n lo hi m els l
      simp only [ompTurnLoop, if_true]
      generalize ompElemLoop lo hi els l = r at h1
      obtain ⟨q, b⟩ := r
      cases b with
      | true =>
        simp only [true_and] at h1
        obtain ⟨k2, h2⟩ := ih true (if endTurn = true then ompPerParticle incAtTurn lo hi q else q)
        refine ⟨1 + (k1 + k2), ?_⟩
        rw [pcRun_add, show (pcRun els endTurn n lo hi 1 (.turn (m + 1) true) l) = (.elem m els, l) from rfl,
          pcRun_add, h1]
        exact h2
      | false =>
        simp only [Bool.false_eq_true, false_and, if_false] at h1
        obtain ⟨k2, h2⟩ := ih false q
        refine ⟨1 + (k1 + k2), ?_⟩
        rw [pcRun_add, show (pcRun els endTurn n lo hi 1 (.turn (m + 1) true) l) = (.elem m els, l) from rfl,
          pcRun_add, h1]
        exact h2

theorem pcRun_chunk (els : List (Elem α)) (endTurn : Bool) (n lo hi : Nat) (l : List (Slot α)) :
    ∃ k, pcRun els endTurn n lo hi k .start l = (.done, ompChunk els endTurn n lo hi l) := by
  obtain ⟨k, hk⟩ := pcRun_turns els endTurn n lo hi n (ompCheckIsActive l lo hi).2
    (ompCheckIsActive l lo hi).1
  exact ⟨1 + k, by rw [pcRun_add]; exact hk⟩

/-- However many steps a thread made, if it is done its result is that of the sequential chunk. -/
theorem pcRun_done_eq (els : List (Elem α)) (endTurn : Bool) (n lo hi j : Nat) (l l' : List (Slot α))
    (h : pcRun els endTurn n lo hi j .start l = (.done, l')) : l' = ompChunk els endTurn n lo hi l := by
  obtain ⟨k, hk⟩ := pcRun_chunk els endTurn n lo hi l
  have h1 : pcRun els endTurn n lo hi (j + k) .start l = (.done, l') := by
    rw [pcRun_add, h]; exact pcRun_done _ _ _ _ _ _ _
  have h2 : pcRun els endTurn n lo hi (k + j) .start l = (.done, ompChunk els endTurn n lo hi l) := by
    rw [pcRun_add, hk]; exact pcRun_done _ _ _ _ _ _ _
  rw [Nat.add_comm, h2] at h1
  exact (Prod.mk.inj h1).2.symm

theorem parFold_replicate (els : List (Elem α)) (endTurn : Bool) (n N T c k : Nat) (s : Par α) :
    (List.replicate k c).foldl (parStep els endTurn n N T) s =
      ⟨fun d => if d = c then (pcRun els endTurn n (chunkBounds N T c).1 (chunkBounds N T c).2 k
          (s.pcs c) s.mem).1 else s.pcs d,
       (pcRun els endTurn n (chunkBounds N T c).1 (chunkBounds N T c).2 k (s.pcs c) s.mem).2⟩ := by
  induction k generalizing s with
  | zero =>
    apply Par.ext'
    · intro d; by_cases h : d = c <;> simp [pcRun, h]
    · rfl
  | succ k ih =>
    rw [List.replicate_succ, List.foldl_cons, ih]
    apply Par.ext'
    · intro d; by_cases h : d = c <;> simp [pcRun, parStep, h]
    · simp [pcRun, parStep]

/-- Running whole chunks one after the other. -/
def seqChunks (els : List (Elem α)) (endTurn : Bool) (n N T : Nat) (cs : List Nat)
    (l : List (Slot α)) : List (Slot α) :=
  cs.foldl (fun l c => ompChunk els endTurn n (chunkBounds N T c).1 (chunkBounds N T c).2 l) l

theorem parFold_blocks (els : List (Elem α)) (endTurn : Bool) (n N T : Nat) (cnt : Nat → Nat)
    (cs : List Nat) (hnd : cs.Nodup) (s : Par α) (hs : ∀ c ∈ cs, s.pcs c = .start)
    (hdone : ∀ c ∈ cs, ((cs.flatMap fun c => List.replicate (cnt c) c).foldl
      (parStep els endTurn n N T) s).pcs c = .done) :
    ((cs.flatMap fun c => List.replicate (cnt c) c).foldl (parStep els endTurn n N T) s).mem =
      seqChunks els endTurn n N T cs s.mem := by
  induction cs generalizing s with
  | nil => rfl
  | cons c cs ih =>
    rw [List.nodup_cons] at hnd
    have keep : ∀ (ds : List Nat) (t : Par α), c ∉ ds →
        ((ds.flatMap fun c => List.replicate (cnt c) c).foldl (parStep els endTurn n N T) t).pcs c
          = t.pcs c := by
      intro ds
      induction ds with
      | nil => intro t _; rfl
      | cons d ds ihd =>
        intro t ht
        rw [List.mem_cons, not_or] at ht
        rw [List.flatMap_cons, List.foldl_append, ihd _ ht.2, parFold_replicate]
        simp [ht.1]
    simp only [List.flatMap_cons, List.foldl_append] at hdone ⊢
    have hc := hdone c List.mem_cons_self
    rw [keep cs _ hnd.1, parFold_replicate, hs c List.mem_cons_self] at hc
    simp only [if_true] at hc
    have hrun := pcRun_done_eq els endTurn n (chunkBounds N T c).1 (chunkBounds N T c).2 (cnt c) s.mem
      (pcRun els endTurn n (chunkBounds N T c).1 (chunkBounds N T c).2 (cnt c) .start s.mem).2
      (by rw [← hc])
    rw [ih hnd.2 _ ?_ (fun d hd => hdone d (List.mem_cons_of_mem _ hd))]
    · rw [parFold_replicate, hs c List.mem_cons_self]
      simp only [seqChunks, List.foldl_cons]
      rw [hrun]
    · intro d hd
      rw [parFold_replicate]
      have : d ≠ c := fun h => hnd.1 (h ▸ hd)
      simp only [if_neg this]
      exact hs d (List.mem_cons_of_mem _ hd)

theorem sched_perm_blocks (T : Nat) (sched : List Nat) (h : ∀ c ∈ sched, c < T) :
    sched.Perm ((List.range T).flatMap fun c => List.replicate (sched.count c) c) := by
  rw [List.perm_iff_count]
  intro a
  rw [List.count_flatMap]
  have : ∀ m, ((List.range m).map
      (List.count a ∘ fun c => List.replicate (sched.count c) c)).sum
      = if a < m then sched.count a else 0 := by
    intro m
    induction m with
    | zero => simp
    | succ m ih =>
      rw [List.range_succ, List.map_append, List.sum_append, ih]
      simp only [List.map_cons, List.map_nil, List.sum_cons, List.sum_nil, Function.comp,
        List.count_replicate]
      by_cases h1 : a < m
      · have : (m == a) = false := by simp; omega
        simp [h1, this]; omega
      · by_cases h2 : a = m
        · subst h2; simp
        · have : (m == a) = false := by simp; omega
          have h3 : ¬ a < m + 1 := by omega
          simp [h1, h3, this]
  rw [this]
  split
  · rfl
  · rename_i hge
    rw [List.count_eq_zero]
    intro hm
    exact hge (h a hm)

/-- Any complete schedule gives the memory of running the chunks one after the other. -/
theorem parRun_eq_seq (els : List (Elem α)) (endTurn : Bool) (n N T : Nat) (mem : List (Slot α))
    (sched : List Nat) (hN : N ≤ mem.length) (hs : ∀ c ∈ sched, c < T)
    (hdone : ∀ c < T, (parRun els endTurn n N T mem sched).pcs c = .done) :
    (parRun els endTurn n N T mem sched).mem = seqChunks els endTurn n N T (List.range T) mem := by
  unfold parRun at hdone ⊢
  have hp := sched_perm_blocks T sched hs
  rw [parFold_perm els endTurn n N T hp _ hN] at hdone ⊢
  refine parFold_blocks els endTurn n N T _ _ List.nodup_range _ (fun _ _ => rfl) ?_
  intro c hc
  exact hdone c (List.mem_range.mp hc)

/-- There is a complete schedule. -/
theorem exists_schedule (els : List (Elem α)) (endTurn : Bool) (n N T : Nat) (mem : List (Slot α)) :
    ∃ sched : List Nat, (∀ c ∈ sched, c < T) ∧
      ∀ c < T, (parRun els endTurn n N T mem sched).pcs c = .done := by
  have key : ∀ m ≤ T, ∃ sched : List Nat, (∀ c ∈ sched, c < T) ∧
      ∀ c < T, (parRun els endTurn n N T mem sched).pcs c = if c < m then .done else .start := by
    intro m
    induction m with
    | zero => intro _; exact ⟨[], by simp, fun c _ => by simp [parRun]⟩
    | succ m ih =>
      intro hm
      obtain ⟨sc, h1, h2⟩ := ih (by omega)
      obtain ⟨k, hk⟩ := pcRun_chunk els endTurn n (chunkBounds N T m).1 (chunkBounds N T m).2
        (parRun els endTurn n N T mem sc).mem
      refine ⟨sc ++ List.replicate k m, ?_, ?_⟩
      · intro c hc
        rcases List.mem_append.mp hc with hc | hc
        · exact h1 c hc
        · rw [List.mem_replicate] at hc; omega
      · intro c hc
        unfold parRun at h2 hk ⊢
        rw [List.foldl_append, parFold_replicate]
        simp only
        rw [h2 m (by omega), if_neg (show ¬ m < m by omega)]
        by_cases hcm : c = m
        · subst hcm; simp [hk]
        · rw [if_neg hcm, h2 c hc]
          by_cases h3 : c < m
          · rw [if_pos h3, if_pos (by omega)]
          · rw [if_neg h3, if_neg (by omega)]
  obtain ⟨sc, h1, h2⟩ := key T (le_refl _)
  exact ⟨sc, h1, fun c hc => by rw [h2 c hc, if_pos hc]⟩

end Verif.Loss

namespace Verif.Loss
open Spec
variable {α : Type}

theorem seqChunks_spec (els : List (Elem α)) (endTurn : Bool) (n N T : Nat) (l : List (Slot α))
    (hN : N ≤ l.length) (hsane : Sane els) (m : Nat) :
    let sz := (N + T - 1) / T
    let l' := seqChunks els endTurn n N T (List.range m) l
    let B := min (m * sz) N
    (l'.take B).Perm ((l.take B).map (alongTurns els endTurn n)) ∧
    l'.drop B = l.drop B ∧ l'.length = l.length ∧
    (AllocPrefix l → ∀ k, allocAt l' k ↔ allocAt l k) := by
  intro sz
  induction m with
  | zero =>
    simp [seqChunks]
  | succ m ih =>
    obtain ⟨i1, i2, i3, i4⟩ := ih
    simp only at i1 i2 i3 i4 ⊢
    have hstep : seqChunks els endTurn n N T (List.range (m + 1)) l =
        ompChunk els endTurn n (m * sz) (min ((m + 1) * sz) N)
          (seqChunks els endTurn n N T (List.range m) l) := by
      rw [List.range_succ]
      simp [seqChunks, List.foldl_append, chunkBounds, sz]
    rw [hstep]
    generalize seqChunks els endTurn n N T (List.range m) l = lm at i1 i2 i3 i4 ⊢
    have hmul : m * sz ≤ (m + 1) * sz := Nat.mul_le_mul_right _ (by omega)
    by_cases hlo : m * sz ≤ N
    · have hB : min (m * sz) N = m * sz := Nat.min_eq_left hlo
      rw [hB] at i1 i2
      have hc := ompChunk_spec els endTurn n (m * sz) (min ((m + 1) * sz) N) lm (by omega) (by omega) hsane
      generalize hhi : min ((m + 1) * sz) N = hi at hc ⊢
      generalize m * sz = lo at *
      generalize ompChunk els endTurn n lo hi lm = l' at hc ⊢
      have hlh : lo ≤ hi := by omega
      have tk : ∀ (x : List (Slot α)), x.take hi = x.take lo ++ seg lo hi x := by
        intro x
        have h := List.take_append_drop lo (x.take hi)
        rw [List.take_take, Nat.min_eq_left hlh] at h
        exact h.symm
      have hseg : seg lo hi lm = seg lo hi l := by
        apply seg_congr
        intro k h1 h2
        have := congrArg (fun x => x[k - lo]?) i2
        simp only [List.getElem?_drop] at this
        rwa [show lo + (k - lo) = k by omega] at this
      refine ⟨?_, ?_, hc.len.trans i3, ?_⟩
      · rw [tk l', tk l, List.map_append, take_congr lo lm l' (fun k hk => hc.frame k (Or.inl hk))]
        refine List.Perm.append i1 ?_
        rw [← hseg]
        exact hc.mid
      · rw [drop_congr hi lm l' (fun k hk => hc.frame k (Or.inr hk))]
        have := congrArg (List.drop (hi - lo)) i2
        simp only [List.drop_drop] at this
        rwa [show lo + (hi - lo) = hi by omega] at this
      · intro hp k
        rw [hc.alloc (allocPrefix_of_iff (i4 hp) hp) k, i4 hp k]
    · have h1 : min (m * sz) N = N := by omega
      have h2 : min ((m + 1) * sz) N = N := by omega
      rw [h2, ompChunk_empty _ _ _ _ _ _ (by omega)]
      rw [h1] at i1 i2
      exact ⟨i1, i2, i3, i4⟩

theorem ceil_cover (N T : Nat) (hT : 0 < T) : N ≤ T * ((N + T - 1) / T) := by
  have h := Nat.div_add_mod (N + T - 1) T
  have := Nat.mod_lt (N + T - 1) hT
  omega

/-- Partition of the whole array and the counters. -/
theorem ompReorganize_spec (l : List (Slot α)) :
    (ompReorganize l).slots.Perm l ∧
    (∃ m, m ≤ l.length ∧ (∀ k < m, ∀ s, (ompReorganize l).slots[k]? = some s → 0 < s.state) ∧
      (∀ k, m ≤ k → ∀ s, (ompReorganize l).slots[k]? = some s → s.state ≤ 0)) ∧
    (AllocPrefix l → (∀ k, allocAt (ompReorganize l).slots k ↔ allocAt l k) ∧
      (ompReorganize l).nActive = l.countP (fun s => decide (0 < s.state)) ∧
      (ompReorganize l).nLost = l.countP (fun s => decide (-999999999 < s.state ∧ s.state ≤ 0))) := by
  have h := ompCheck_spec l 0 l.length (by omega) (le_refl _)
  refine ⟨h.perm, ?_, ?_⟩
  · obtain ⟨m, _, h2, h3, h4⟩ := h.part
    refine ⟨m, h2, fun k hk => h3 k (by omega) hk, ?_⟩
    intro k hk s hs
    refine h4 k hk ?_ s hs
    have := (List.getElem?_eq_some_iff.mp hs).1
    simp only [ompReorganize] at this
    rw [h.len] at this
    exact this
  · intro hp
    have hc := countLoop_spec (ompCheckIsActive l 0 l.length).1 0 0 (allocPrefix_of_iff (h.alloc hp) hp)
    refine ⟨h.alloc hp, ?_, ?_⟩
    · simp only [ompReorganize, hc, Nat.zero_add]
      exact h.perm.countP_eq _
    · simp only [ompReorganize, hc, Nat.zero_add]
      exact h.perm.countP_eq _

theorem part_unique {l : List (Slot α)} {m : Nat} (hm : m ≤ l.length)
    (h1 : ∀ k < m, ∀ s, l[k]? = some s → 0 < s.state)
    (h2 : ∀ k, m ≤ k → ∀ s, l[k]? = some s → s.state ≤ 0) :
    l.countP (fun s => decide (0 < s.state)) = m := by
  have hsplit := List.take_append_drop m l
  rw [← hsplit, List.countP_append]
  have a1 : (l.take m).countP (fun s => decide (0 < s.state)) = m := by
    rw [List.countP_eq_length.mpr]
    · rw [List.length_take]; omega
    · intro s hs
      rw [List.mem_take_iff_getElem] at hs
      obtain ⟨k, hk, rfl⟩ := hs
      have := h1 k (by omega) _ (List.getElem?_eq_getElem (by omega))
      simpa using this
  have a2 : (l.drop m).countP (fun s => decide (0 < s.state)) = 0 := by
    rw [List.countP_eq_zero]
    intro s hs
    rw [List.mem_drop_iff_getElem] at hs
    obtain ⟨k, hk, rfl⟩ := hs
    have := h2 (k + m) (by omega) _ (List.getElem?_eq_getElem (by omega))
    simpa [Nat.add_comm] using this
  omega

theorem part_of_count {l : List (Slot α)} {m : Nat} (hm : m ≤ l.length)
    (h1 : ∀ k < m, ∀ s, l[k]? = some s → 0 < s.state)
    (h2 : ∀ k, m ≤ k → ∀ s, l[k]? = some s → s.state ≤ 0) :
    (∀ s ∈ l.take m, 0 < s.state) ∧ (∀ s ∈ l.drop m, ¬ 0 < s.state) := by
  constructor
  · intro s hs
    rw [List.mem_take_iff_getElem] at hs
    obtain ⟨k, hk, rfl⟩ := hs
    exact h1 k (by omega) _ (List.getElem?_eq_getElem (by omega))
  · intro s hs
    rw [List.mem_drop_iff_getElem] at hs
    obtain ⟨k, hk, rfl⟩ := hs
    have := h2 (k + m) (by omega) _ (List.getElem?_eq_getElem (by omega))
    simp only [Nat.add_comm] at this ⊢; omega

end Verif.Loss
