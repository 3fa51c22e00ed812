import Verif.Loss.ParLemmas
import Verif.Loss.Spec
/-! # Property theorems: particle losses (C01, C02, C51) -/
namespace Verif.Loss
open Spec
variable {α : Type}

theorem elemLoop_spec (es : List (Elem α)) (p : Parts α) (h : Layout p) :
    Layout (elemLoop es p).1 ∧
    (elemLoop es p).1.slots.Perm (p.slots.map (onAlive (alongElements es))) ∧
    (elemLoop es p).1.nActive + (elemLoop es p).1.nLost = p.nActive + p.nLost ∧
    ((elemLoop es p).2 = true ↔ (elemLoop es p).1.nActive ≠ 0) := by
  induction es generalizing p with
  | nil =>
    refine ⟨h, ?_, rfl, by simp [elemLoop, isActive]⟩
    have : p.slots.map (onAlive (alongElements [])) = p.slots := by
      rw [List.map_congr_left (g := id)]
      · simp
      · intro s _; simp [onAlive, alongElements]
    rw [this]
    exact List.Perm.refl _
  | cons e es ih =>
    obtain ⟨hL, hP, hS, -⟩ := step_spec (applyElem e) p h
    simp only [elemLoop]
    split
    · rename_i hact
      have hinc : ∀ s : Slot α, 0 < s.state → 0 < (incAtElement s).state := fun s hs => hs
      obtain ⟨i1, i2, i3, i4⟩ := ih _ (perParticle_layout incAtElement _ hL hinc)
      refine ⟨i1, ?_, ?_, i4⟩
      · refine i2.trans ?_
        rw [perParticle_eq _ _ hL, List.map_map]
        refine (hP.map _).trans ?_
        rw [List.map_map]
        apply List.Perm.of_eq
        apply List.map_congr_left
        intro s _
        simp only [Function.comp, onAlive, alongElements, applyElem, incAtElement, through, Alive]
        by_cases h1 : 0 < s.state <;> by_cases h2 : 0 < (e s).1 <;> simp [h1, h2]
      · rw [i3]
        exact hS
    · rename_i hact
      have h0 : (checkIsActive (perParticle (applyElem e) p)).nActive = 0 := by
        simpa [isActive] using hact
      refine ⟨hL, ?_, hS, by simp [h0]⟩
      refine hP.trans ?_
      have hdead := hL.all_dead h0
      apply List.Perm.of_eq
      apply List.map_congr_left
      intro s hs
      have hm : onAlive (applyElem e) s ∈ (checkIsActive (perParticle (applyElem e) p)).slots :=
        hP.symm.mem_iff.mp (List.mem_map_of_mem hs)
      have := hdead _ hm
      by_cases h1 : 0 < s.state
      · simp only [onAlive, h1, if_true, applyElem] at this
        have h2 : ¬ 0 < (e s).1 := by omega
        simp [onAlive, h1, h2, alongElements, applyElem, through, Alive]
      · simp [onAlive, h1]

theorem turnLoop_spec (els : List (Elem α)) (endTurn : Bool) (n : Nat) (p : Parts α) (act : Bool)
    (h : Layout p) (hact : act = true ↔ p.nActive ≠ 0) :
    Layout (turnLoop els endTurn n p act) ∧
    (turnLoop els endTurn n p act).slots.Perm (p.slots.map (alongTurns els endTurn n)) ∧
    (turnLoop els endTurn n p act).nActive + (turnLoop els endTurn n p act).nLost
      = p.nActive + p.nLost := by
  induction n generalizing p act with
  | zero =>
    refine ⟨h, ?_, rfl⟩
    have : p.slots.map (alongTurns els endTurn 0) = p.slots := by
      rw [List.map_congr_left (g := id)]
      · simp
      · intro s _; simp [alongTurns]
    rw [this]
    exact List.Perm.refl _
  | succ n ih =>
    cases act with
    | false =>
      simp only [turnLoop, Bool.false_eq_true, if_false]
      refine ⟨h, ?_, by trivial⟩
      have h0 : p.nActive = 0 := by
        by_contra hc
        exact absurd (hact.mpr hc) (by simp)
      have hdead := h.all_dead h0
      apply List.Perm.of_eq
      rw [List.map_congr_left (g := id)]
      · simp
      · intro s hs
        have := hdead s hs
        have hn : ¬ 0 < s.state := by omega
        simp [alongTurns, Alive, hn]
    | true =>
      obtain ⟨e1, e2, e3, e4⟩ := elemLoop_spec els p h
      simp only [turnLoop, if_true]
      generalize hr : elemLoop els p = r at *
      obtain ⟨q, b⟩ := r
      simp only at e1 e2 e3 e4
      cases b with
      | true =>
        simp only
        cases endTurn with
        | true =>
          simp only [if_true]
          have hinc : ∀ s : Slot α, 0 < s.state → 0 < (incAtTurn s).state := fun s hs => hs
          obtain ⟨i1, i2, i3⟩ := ih (perParticle incAtTurn q) true
            (perParticle_layout _ _ e1 hinc) (by simpa [perParticle] using e4)
          refine ⟨i1, ?_, by rw [i3]; exact e3⟩
          refine i2.trans ?_
          rw [perParticle_eq _ _ e1, List.map_map]
          refine (e2.map _).trans ?_
          rw [List.map_map]
          apply List.Perm.of_eq
          apply List.map_congr_left
          intro s _
          have hdd : ∀ t : Slot α, ¬ 0 < t.state → alongTurns els true n t = t := by
            intro t ht; cases n <;> simp [alongTurns, Alive, ht]
          simp only [Function.comp, onAlive]
          by_cases h1 : 0 < s.state
          · by_cases h2 : 0 < (alongElements els s).state
            · simp [h1, h2, alongTurns, Alive, incAtTurn]
            · simp [h1, h2, alongTurns, Alive, hdd _ h2]
          · simp [h1, alongTurns, Alive, hdd _ h1]
        | false =>
          simp only [Bool.false_eq_true, if_false]
          obtain ⟨i1, i2, i3⟩ := ih q true e1 (by simpa using e4)
          refine ⟨i1, ?_, by rw [i3]; exact e3⟩
          refine i2.trans ((e2.map _).trans ?_)
          rw [List.map_map]
          apply List.Perm.of_eq
          apply List.map_congr_left
          intro s _
          have hdd : ∀ t : Slot α, ¬ 0 < t.state → alongTurns els false n t = t := by
            intro t ht; cases n <;> simp [alongTurns, Alive, ht]
          simp only [Function.comp, onAlive]
          by_cases h1 : 0 < s.state
          · by_cases h2 : 0 < (alongElements els s).state
            · simp [h1, h2, alongTurns, Alive]
            · simp [h1, h2, alongTurns, Alive, hdd _ h2]
          · simp [h1, alongTurns, Alive, hdd _ h1]
      | false =>
        simp only
        have h0 : q.nActive = 0 := by
          by_contra hc; exact absurd (e4.mpr hc) (by simp)
        obtain ⟨i1, i2, i3⟩ := ih q false e1 (by simp [h0])
        refine ⟨i1, ?_, by rw [i3]; exact e3⟩
        refine i2.trans ((e2.map _).trans ?_)
        rw [List.map_map]
        apply List.Perm.of_eq
        apply List.map_congr_left
        intro s hs
        have hdd : ∀ t : Slot α, ¬ 0 < t.state → alongTurns els endTurn n t = t := by
          intro t ht; cases n <;> simp [alongTurns, Alive, ht]
        have hm := e1.all_dead h0 _ (e2.symm.mem_iff.mp (List.mem_map_of_mem hs))
        simp only [Function.comp, onAlive] at hm ⊢
        by_cases h1 : 0 < s.state
        · simp only [h1, if_true] at hm ⊢
          have h2 : ¬ 0 < (alongElements els s).state := by omega
          simp [h1, h2, alongTurns, Alive, hdd _ h2]
        · simp [h1, alongTurns, Alive, hdd _ h1]

/-- **C01.** Serial tracking with arbitrary losses.  Precondition: the active particles are among the
first `nActive` slots (this is what the `Particles` object guarantees).  After tracking:
the records are a permutation of what each particle would have become when tracked on its own
(so nothing is lost, duplicated, mixed up, and lost particles are never touched again);
the alive ones are exactly the first `nActive` slots; `nActive` is their true number;
active plus lost is conserved. -/
theorem C01_serial_tracking_refines_single_particle
    (els : List (Elem α)) (endTurn : Bool) (nTurns : Nat) (p : Parts α)
    (hle : p.nActive ≤ p.slots.length)
    (hdead : ∀ s ∈ p.slots.drop p.nActive, ¬ Alive s) :
    let q := trackLine els endTurn nTurns p
    q.slots.Perm (p.slots.map (alongTurns els endTurn nTurns)) ∧
    (∀ s ∈ q.slots.take q.nActive, Alive s) ∧
    (∀ s ∈ q.slots.drop q.nActive, ¬ Alive s) ∧
    q.nActive = (p.slots.map (alongTurns els endTurn nTurns)).countP (fun s => decide (Alive s)) ∧
    q.nActive + q.nLost = p.nActive + p.nLost := by
  have hd' : ∀ k, p.nActive ≤ k → ∀ s, p.slots[k]? = some s → s.state ≤ 0 := by
    intro k hk s hs
    have hm : s ∈ p.slots.drop p.nActive := by
      rw [List.getElem?_eq_some_iff] at hs
      obtain ⟨hkl, rfl⟩ := hs
      rw [List.mem_drop_iff_getElem]
      exact ⟨k - p.nActive, by omega, by congr 1; omega⟩
    have := hdead s hm
    simp only [Alive] at this; omega
  have hL := checkIsActive_layout p hle hd'
  have hS := checkIsActive_spec p hle
  obtain ⟨t1, t2, t3⟩ := turnLoop_spec els endTurn nTurns (checkIsActive p) (isActive (checkIsActive p))
    hL (by simp [isActive])
  intro q
  have t1 : Layout q := t1
  have hperm : q.slots.Perm (p.slots.map (alongTurns els endTurn nTurns)) :=
    t2.trans (hS.perm.map _)
  refine ⟨hperm, ?_, ?_, ?_, ?_⟩
  · intro s hs
    rw [List.mem_take_iff_getElem] at hs
    obtain ⟨k, hk, rfl⟩ := hs
    exact t1.alive k (by omega) _ (List.getElem?_eq_getElem _)
  · intro s hs
    rw [List.mem_drop_iff_getElem] at hs
    obtain ⟨k, hk, rfl⟩ := hs
    have := t1.dead (k + q.nActive) (by omega) _ (List.getElem?_eq_getElem (by omega))
    simp only [Alive]; simp only [Nat.add_comm] at this ⊢; omega
  · rw [← hperm.countP_eq]
    exact t1.count.symm
  · exact t3.trans hS.sum

/-- Non-trivial instance: three alive particles and one lost; the element kills particles 0 and 2. -/
example : ∃ q : Parts Int,
    q = trackLine [fun s => (if s.id = 1 then 1 else 0, s.data + 10)] true 1
      ⟨[⟨0,1,0,0,5⟩, ⟨1,1,0,0,6⟩, ⟨2,1,0,0,7⟩, ⟨3,0,4,0,8⟩], 3, 1⟩ ∧
    q = ⟨[⟨1,1,0,1,16⟩, ⟨2,0,0,0,17⟩, ⟨0,0,0,0,15⟩, ⟨3,0,4,0,8⟩], 1, 3⟩ := by
  refine ⟨_, rfl, ?_⟩
  simp [trackLine, checkIsActive, checkLoop, turnLoop, elemLoop, perParticle, applyElem, isActive,
    exchange, incAtElement, incAtTurn]

/-- **C02.** OpenMP tracking: any number of threads, any interleaving of the threads' steps.
`sched` is the schedule; `hdone` is the barrier at the end of the parallel region.
Preconditions guaranteed by `Particles`: no more alive particles than `nActive`, allocated slots
first.  Elements never produce the state reserved for unallocated slots. -/
theorem C02_openmp_any_schedule_refines_single_particle
    (els : List (Elem α)) (endTurn : Bool) (nTurns nThreads : Nat) (sched : List Nat) (p : Parts α)
    (hT : 0 < nThreads)
    (hle : p.nActive ≤ p.slots.length)
    (hcount : p.slots.countP (fun s => decide (Alive s)) ≤ p.nActive)
    (halloc : ∀ (i j : Nat) (s t : Slot α), i ≤ j → p.slots[i]? = some s → p.slots[j]? = some t →
      -999999999 < t.state → -999999999 < s.state)
    (hels : ∀ e ∈ els, ∀ s, -999999999 < (e s).1)
    (hsched : ∀ c ∈ sched, c < nThreads)
    (hdone : ∀ c < nThreads,
      (parRun els endTurn nTurns p.nActive nThreads (ompBefore p) sched).pcs c = .done) :
    let q := ompReorganize (parRun els endTurn nTurns p.nActive nThreads (ompBefore p) sched).mem
    let expected := p.slots.map (alongTurns els endTurn nTurns)
    q.slots.Perm expected ∧
    (∀ s ∈ q.slots.take q.nActive, Alive s) ∧
    (∀ s ∈ q.slots.drop q.nActive, ¬ Alive s) ∧
    q.nActive = expected.countP (fun s => decide (Alive s)) ∧
    q.nLost = expected.countP (fun s => decide (-999999999 < s.state ∧ s.state ≤ 0)) := by
  intro q expected
  have hap : AllocPrefix p.slots := by
    rintro i j hij ⟨t, ht, hpos⟩
    have hj := (List.getElem?_eq_some_iff.mp ht).1
    have hi : i < p.slots.length := by omega
    exact ⟨_, List.getElem?_eq_getElem hi,
      halloc i j _ t hij (List.getElem?_eq_getElem hi) ht hpos⟩
  obtain ⟨r1, ⟨m, m1, m2, m3⟩, r3⟩ := ompReorganize_spec p.slots
  obtain ⟨r3a, -, -⟩ := r3 hap
  have hblen : (ompBefore p).length = p.slots.length := r1.length_eq
  have hm : m ≤ p.nActive := by
    have := part_unique (l := ompBefore p) (m := m) (by rw [hblen]; exact m1) m2 m3
    rw [← this, show (ompBefore p).countP _ = p.slots.countP _ from r1.countP_eq _]
    exact hcount
  have hb1 : p.nActive ≤ (ompBefore p).length := by rw [hblen]; exact hle
  have hrun := parRun_eq_seq els endTurn nTurns p.nActive nThreads (ompBefore p) sched hb1 hsched hdone
  obtain ⟨s1, s2, s3, s4⟩ := seqChunks_spec els endTurn nTurns p.nActive nThreads (ompBefore p) hb1
    hels nThreads
  rw [← hrun] at s1 s2 s3 s4
  rw [Nat.min_eq_right (ceil_cover p.nActive nThreads hT)] at s1 s2
  have hmem : (parRun els endTurn nTurns p.nActive nThreads (ompBefore p) sched).mem.Perm expected := by
    have e1 : expected.Perm ((ompBefore p).map (alongTurns els endTurn nTurns)) := (r1.map _).symm
    refine List.Perm.trans ?_ e1.symm
    rw [← List.take_append_drop p.nActive
      (parRun els endTurn nTurns p.nActive nThreads (ompBefore p) sched).mem, s2]
    conv => rhs; rw [← List.take_append_drop p.nActive (ompBefore p), List.map_append]
    refine List.Perm.append s1 (List.Perm.of_eq ?_)
    rw [List.map_congr_left (g := id), List.map_id]
    intro s hs
    rw [List.mem_drop_iff_getElem] at hs
    obtain ⟨k, hk, rfl⟩ := hs
    have := m3 (k + p.nActive) (by omega) _ (List.getElem?_eq_getElem hk)
    refine alongTurns_dead _ _ _ _ (not_lt.mpr ?_)
    simp only [Nat.add_comm] at this ⊢
    exact this
  have hap' : AllocPrefix (parRun els endTurn nTurns p.nActive nThreads (ompBefore p) sched).mem := by
    have hb : AllocPrefix (ompBefore p) := allocPrefix_of_iff r3a hap
    exact allocPrefix_of_iff (s4 hb) hb
  obtain ⟨t1, ⟨m', n1, n2, n3⟩, t3⟩ :=
    ompReorganize_spec (parRun els endTurn nTurns p.nActive nThreads (ompBefore p) sched).mem
  obtain ⟨-, t3b, t3c⟩ := t3 hap'
  have hqa : q.nActive = m' := by
    have h1 : q.slots.countP (fun s => decide (0 < s.state)) = m' :=
      part_unique (by rw [t1.length_eq]; exact n1) n2 n3
    rw [← h1]
    exact t3b.trans (t1.countP_eq _).symm
  obtain ⟨u1, u2⟩ := part_of_count (l := q.slots) (m := m') (by rw [t1.length_eq]; exact n1) n2 n3
  refine ⟨t1.trans hmem, ?_, ?_, ?_, ?_⟩
  · rw [hqa]; exact u1
  · rw [hqa]; exact u2
  · exact t3b.trans (hmem.countP_eq _)
  · exact t3c.trans (hmem.countP_eq _)

/-- Complete schedules exist for every input, so the hypotheses of C02 can always be met. -/
theorem C02_schedules_exist (els : List (Elem α)) (endTurn : Bool) (nTurns nThreads : Nat) (p : Parts α) :
    ∃ sched : List Nat, (∀ c ∈ sched, c < nThreads) ∧ ∀ c < nThreads,
      (parRun els endTurn nTurns p.nActive nThreads (ompBefore p) sched).pcs c = .done :=
  exists_schedule els endTurn nTurns p.nActive nThreads (ompBefore p)

/-- **C02/C51.** Serial and OpenMP tracking of the same particles give the same records (up to the
order of the slots), and every thread count and schedule gives the same counters. -/
theorem C02_openmp_agrees_with_serial
    (els : List (Elem α)) (endTurn : Bool) (nTurns nThreads : Nat) (sched : List Nat) (p : Parts α)
    (hT : 0 < nThreads)
    (hle : p.nActive ≤ p.slots.length)
    (hdead : ∀ s ∈ p.slots.drop p.nActive, ¬ Alive s)
    (halloc : ∀ (i j : Nat) (s t : Slot α), i ≤ j → p.slots[i]? = some s → p.slots[j]? = some t →
      -999999999 < t.state → -999999999 < s.state)
    (hels : ∀ e ∈ els, ∀ s, -999999999 < (e s).1)
    (hsched : ∀ c ∈ sched, c < nThreads)
    (hdone : ∀ c < nThreads,
      (parRun els endTurn nTurns p.nActive nThreads (ompBefore p) sched).pcs c = .done) :
    let q := ompReorganize (parRun els endTurn nTurns p.nActive nThreads (ompBefore p) sched).mem
    let r := trackLine els endTurn nTurns p
    q.slots.Perm r.slots ∧ q.nActive = r.nActive := by
  intro q r
  have hcount : p.slots.countP (fun s => decide (Alive s)) ≤ p.nActive := by
    rw [← List.take_append_drop p.nActive p.slots, List.countP_append]
    have h0 : (p.slots.drop p.nActive).countP (fun s => decide (Alive s)) = 0 := by
      rw [List.countP_eq_zero]
      intro s hs
      simpa using hdead s hs
    have h1 := List.countP_le_length (p := fun s => decide (Alive s)) (l := p.slots.take p.nActive)
    rw [List.length_take] at h1
    omega
  have a := C02_openmp_any_schedule_refines_single_particle els endTurn nTurns nThreads sched p hT hle
    hcount halloc hels hsched hdone
  have b := C01_serial_tracking_refines_single_particle els endTurn nTurns p hle hdead
  exact ⟨a.1.trans b.1.symm, a.2.2.2.1.trans b.2.2.2.1.symm⟩

/-- Non-trivial instance for C02: two threads, three alive particles, one lost, one unallocated slot;
steps interleaved; the element kills particles 0 and 2. -/
example : ∃ (p : Parts Int) (els : List (Elem Int)) (sched : List Nat),
    p.nActive = 3 ∧ p.slots.length = 5 ∧
    p.slots.countP (fun s => decide (Alive s)) ≤ p.nActive ∧
    (∀ (i j : Nat) (s t : Slot Int), i ≤ j → p.slots[i]? = some s → p.slots[j]? = some t →
      -999999999 < t.state → -999999999 < s.state) ∧
    (∀ e ∈ els, ∀ s, -999999999 < (e s).1) ∧
    (∀ c ∈ sched, c < 2) ∧
    (∀ c < 2, (parRun els true 1 p.nActive 2 (ompBefore p) sched).pcs c = .done) := by
  refine ⟨⟨[⟨0,1,0,0,5⟩, ⟨1,1,0,0,6⟩, ⟨2,1,0,0,7⟩, ⟨3,0,4,0,8⟩, ⟨-1,-999999999,0,0,0⟩], 3, 1⟩,
    [fun s => (if s.id = 1 then 1 else 0, s.data + 10)], [0, 1, 1, 0, 0, 1, 1, 0, 0, 1], rfl, rfl,
    by decide, ?_, ?_, by decide, ?_⟩
  · intro i j s t hij hi hj ht
    match i, j with
    | 0, _ | 1, _ | 2, _ | 3, _ => simp at hi; subst hi; decide
    | 4, 4 => simp at hj; subst hj; simp at ht
    | 4, 0 | 4, 1 | 4, 2 | 4, 3 => omega
    | 4, j + 5 => simp at hj
    | i + 5, _ => simp at hi
  · intro e he s
    simp only [List.mem_singleton] at he
    subst he
    simp only
    split <;> decide
  · intro c hc
    match c, hc with
    | 0, _ => simp [parRun, parStep, pcStep, ompBefore, ompReorganize, ompCheckIsActive, ompLoop,
        chunkBounds, ompPerParticle, applyElem, incAtElement, incAtTurn, exchange]
    | 1, _ => simp [parRun, parStep, pcStep, ompBefore, ompReorganize, ompCheckIsActive, ompLoop,
        chunkBounds, ompPerParticle, applyElem, incAtElement, incAtTurn, exchange]

/-- The precondition "allocated slots first" is needed: with an unallocated slot in front the counting
loop stops early and a lost particle is not counted (local_particle_custom_api.h:173-174). -/
theorem C02_count_violated_without_prefix :
    let p : List (Slot Int) := [⟨-1, -999999999, 0, 0, 0⟩, ⟨5, 0, 3, 2, 9⟩]
    (ompReorganize p).nLost = 0 ∧
    p.countP (fun s => decide (-999999999 < s.state ∧ s.state ≤ 0)) = 1 := by
  constructor
  · simp [ompReorganize, ompCheckIsActive, ompLoop, countLoop]
  · decide

/-! ## C51: where and when a particle was lost, independence of the other particles -/

theorem alongElements_id (es : List (Elem α)) (u : Slot α) : (alongElements es u).id = u.id := by
  induction es generalizing u with
  | nil => rfl
  | cons e es ih =>
    simp only [alongElements]
    split
    · rw [ih]; rfl
    · rfl

theorem alongTurns_id (els : List (Elem α)) (endTurn : Bool) (n : Nat) (u : Slot α) :
    (alongTurns els endTurn n u).id = u.id := by
  induction n generalizing u with
  | zero => rfl
  | succ n ih =>
    simp only [alongTurns]
    split
    · split
      · rw [ih]; split
        · exact alongElements_id els u
        · exact alongElements_id els u
      · exact alongElements_id els u
    · rfl

/-- **C51.** In the single-particle semantics, which C01 and C02 show to be what both kernels compute,
a particle lost at the `k`-th element of a pass records the start location plus `k`, and keeps the
turn number it had. -/
theorem C51_lost_location (els : List (Elem α)) (s : Slot α) (hs : Alive s)
    (hlost : ¬ Alive (alongElements els s)) :
    ∃ k < els.length, (alongElements els s).atElement = s.atElement + k ∧
      (alongElements els s).atTurn = s.atTurn ∧ (alongElements els s).id = s.id ∧
      Alive (alongElements (els.take k) s) ∧ ¬ Alive (alongElements (els.take (k + 1)) s) := by
  induction els generalizing s with
  | nil => exact absurd hs hlost
  | cons e es ih =>
    simp only [alongElements] at hlost ⊢
    by_cases h : Alive (through e s)
    · simp only [h, if_true] at hlost ⊢
      obtain ⟨k, hk, h1, h2, h3, h4, h5⟩ := ih _ (by exact h) hlost
      refine ⟨k + 1, by simpa using hk, ?_, ?_, ?_, ?_, ?_⟩
      · rw [h1]; simp only [through]; push_cast; omega
      · rw [h2]; rfl
      · rw [h3]; rfl
      · simpa [List.take_succ_cons, alongElements, h] using h4
      · simpa [List.take_succ_cons, alongElements, h] using h5
    · simp only [h, if_false]
      exact ⟨0, by simp, by simp [through], rfl, rfl, by simpa [alongElements] using hs,
        by simp [alongElements, h]⟩

/-- **C51.** Surviving a pass through `n` elements advances the location by `n`. -/
theorem C51_survivor_location (els : List (Elem α)) (s : Slot α)
    (hsurv : Alive (alongElements els s)) :
    (alongElements els s).atElement = s.atElement + els.length ∧
    (alongElements els s).atTurn = s.atTurn ∧ (alongElements els s).id = s.id := by
  induction els generalizing s with
  | nil => simp [alongElements]
  | cons e es ih =>
    simp only [alongElements] at hsurv ⊢
    by_cases h : Alive (through e s)
    · simp only [h, if_true] at hsurv ⊢
      obtain ⟨h1, h2, h3⟩ := ih _ hsurv
      refine ⟨?_, by rw [h2]; rfl, by rw [h3]; rfl⟩
      rw [h1]; simp only [through, List.length_cons]; omega
    · simp only [h, if_false] at hsurv

/-- **C51.** The particle found after serial tracking under an identifier is the result of tracking
that particle on its own: it does not depend on which other particles are tracked with it. -/
theorem C51_independent_of_other_particles
    (els : List (Elem α)) (endTurn : Bool) (nTurns : Nat) (p p' : Parts α)
    (hle : p.nActive ≤ p.slots.length) (hdead : ∀ s ∈ p.slots.drop p.nActive, ¬ Alive s)
    (hle' : p'.nActive ≤ p'.slots.length) (hdead' : ∀ s ∈ p'.slots.drop p'.nActive, ¬ Alive s)
    (s : Slot α)
    (huniq : ∀ t ∈ p.slots, t.id = s.id → t = s) (huniq' : ∀ t ∈ p'.slots, t.id = s.id → t = s)
    (t t' : Slot α) (ht : t ∈ (trackLine els endTurn nTurns p).slots)
    (ht' : t' ∈ (trackLine els endTurn nTurns p').slots) (hid : t.id = s.id) (hid' : t'.id = s.id) :
    t = t' := by
  have hids := alongTurns_id els endTurn nTurns
  have key : ∀ (q : Parts α) (_ : q.nActive ≤ q.slots.length)
      (_ : ∀ s ∈ q.slots.drop q.nActive, ¬ Alive s) (_ : ∀ t ∈ q.slots, t.id = s.id → t = s)
      (x : Slot α) (_ : x ∈ (trackLine els endTurn nTurns q).slots) (_ : x.id = s.id),
      x = alongTurns els endTurn nTurns s := by
    intro q h1 h2 h3 x hx hxid
    have h := C01_serial_tracking_refines_single_particle els endTurn nTurns q h1 h2
    have := h.1.mem_iff.mp hx
    obtain ⟨u, hu, rfl⟩ := List.mem_map.mp this
    rw [hids] at hxid
    rw [h3 u hu hxid]
  rw [key p hle hdead huniq t ht hid, key p' hle' hdead' huniq' t' ht' hid']

/-- Non-trivial instance for C51: a particle lost at the second of three elements on its way. -/
example :
    let els : List (Elem Int) := [fun s => (1, s.data + 1), fun s => (if s.data > 5 then 0 else 1, s.data),
      fun s => (1, s.data)]
    alongElements els ⟨7, 1, 0, 3, 5⟩ = ⟨7, 0, 1, 3, 6⟩ := by
  decide

end Verif.Loss
