import Verif.Record.Model
import Mathlib.Data.List.Count

/-!
# C17: slots of an internal record are exclusive under any interleaving
-/

namespace Verif.Record

/-! ## Specification -/

/-- The slots handed out so far. -/
def slots (s : St) : List Nat := s.log.filterMap Prod.snd

/-- The number of calls completed by thread `t`. -/
def completed (s : St) (t : Nat) : Nat := (s.log.filter (fun e => e.1 == t)).length

/-- All threads have returned from all their calls. -/
def Done (s : St) : Prop := ∀ th ∈ s.threads, th.pc = .idle ∧ th.todo = 0

/-! ## Invariant -/

/-- Number of threads about to reset the counter. -/
def pending (l : List Thread) : Nat := l.countP (fun th => th.pc == .overflow)

structure Inv (cap num0 total : Nat) (n : Nat) (s : St) : Prop where
  len : s.threads.length = n
  lo : num0 ≤ s.num
  handed : slots s = List.range' num0 (min s.num cap - num0)
  hi : s.num ≤ cap + pending s.threads
  dropped : (∃ e ∈ s.log, e.2 = none) → cap ≤ s.num
  pend : (∃ th ∈ s.threads, th.pc = .overflow) → cap ≤ s.num
  active : ∀ th ∈ s.threads, th.pc ≠ .idle → 0 < th.todo
  sum : s.log.length + (s.threads.map (·.todo)).sum = total

theorem sum_set (l : List Thread) (t : Nat) (th x : Thread) (h : l[t]? = some th) :
    ((l.set t x).map (·.todo)).sum + th.todo = (l.map (·.todo)).sum + x.todo := by
  induction l generalizing t with
  | nil => simp at h
  | cons a l ih =>
    cases t with
    | zero =>
      simp only [List.getElem?_cons_zero, Option.some.injEq] at h
      subst h
      simp only [List.set_cons_zero, List.map_cons, List.sum_cons]
      omega
    | succ t =>
      simp only [List.getElem?_cons_succ] at h
      have := ih t h
      simp only [List.set_cons_succ, List.map_cons, List.sum_cons]
      omega

theorem pending_set (l : List Thread) (t : Nat) (th x : Thread) (h : l[t]? = some th) :
    pending (l.set t x) + (if th.pc = .overflow then 1 else 0) =
      pending l + (if x.pc = .overflow then 1 else 0) := by
  induction l generalizing t with
  | nil => simp at h
  | cons a l ih =>
    cases t with
    | zero =>
      simp only [List.getElem?_cons_zero, Option.some.injEq] at h
      subst h
      simp only [List.set_cons_zero, pending, List.countP_cons, beq_iff_eq]
      omega
    | succ t =>
      simp only [List.getElem?_cons_succ] at h
      have := ih t h
      simp only [List.set_cons_succ, pending, List.countP_cons, beq_iff_eq] at this ⊢
      omega

theorem pending_le (l : List Thread) : pending l ≤ l.length := List.countP_le_length

theorem pending_pos {l : List Thread} {th : Thread} (h : th ∈ l) (ho : th.pc = .overflow) :
    0 < pending l := List.countP_pos_iff.mpr ⟨th, h, by simp [ho]⟩

theorem mem_set_cases {l : List Thread} {t : Nat} {x y : Thread} (h : y ∈ l.set t x) : y ∈ l ∨ y = x :=
  List.mem_or_eq_of_mem_set h

theorem slots_append (num : Nat) (ths : List Thread) (log : List (Nat × Option Nat)) (t : Nat)
    (r : Option Nat) :
    slots ⟨num, ths, log ++ [(t, r)]⟩ = slots ⟨num, ths, log⟩ ++ r.toList := by
  cases r <;> simp [slots]

theorem slots_log (num num' : Nat) (ths ths' : List Thread) (log : List (Nat × Option Nat)) :
    slots ⟨num, ths, log⟩ = slots ⟨num', ths', log⟩ := rfl

theorem inv_step {cap num0 total n : Nat} (hcap : cap + n < wrap) (h0 : num0 ≤ cap) {s : St}
    (h : Inv cap num0 total n s) (t : Nat) : Inv cap num0 total n (step cap s t) := by
  obtain ⟨num, ths, log⟩ := s
  obtain ⟨hlen, hlo, hhand, hhi, hdrop, hpend, hact, hsum⟩ := h
  simp only at hlen hlo hhi hdrop hpend hact hsum
  have hple := pending_le ths
  unfold step
  simp only
  cases hth : ths[t]? with
  | none => exact ⟨hlen, hlo, hhand, hhi, hdrop, hpend, hact, hsum⟩
  | some th =>
    have hmem : th ∈ ths := List.mem_of_getElem? hth
    obtain ⟨pc, todo⟩ := th
    simp only
    cases pc with
    | idle =>
      simp only
      by_cases htodo : todo = 0
      · rw [if_pos htodo]
        exact ⟨hlen, hlo, hhand, hhi, hdrop, hpend, hact, hsum⟩
      · rw [if_neg htodo]
        by_cases hc : cap ≤ num
        · rw [if_pos hc]
          have hs := sum_set ths t _ ⟨.idle, todo - 1⟩ hth
          have hp := pending_set ths t _ ⟨.idle, todo - 1⟩ hth
          simp only [reduceCtorEq, if_false] at hs hp
          refine ⟨by simpa using hlen, hlo, ?_, ?_, fun _ => hc, fun _ => hc, ?_, ?_⟩
          · rw [slots_append]
            simpa [slots] using hhand
          · show num ≤ cap + pending (ths.set t _)
            omega
          · intro y hy hne
            rcases mem_set_cases hy with hy | rfl
            · exact hact y hy hne
            · exact absurd rfl hne
          · simp only [List.length_append, List.length_singleton]
            omega
        · rw [if_neg hc]
          have hs := sum_set ths t _ ⟨.checked, todo⟩ hth
          have hp := pending_set ths t _ ⟨.checked, todo⟩ hth
          simp only [reduceCtorEq, if_false] at hs hp
          refine ⟨by simpa using hlen, hlo, hhand, ?_, hdrop, ?_, ?_, ?_⟩
          · show num ≤ cap + pending (ths.set t _)
            omega
          · rintro ⟨y, hy, ho⟩
            rcases mem_set_cases hy with hy | rfl
            · exact hpend ⟨y, hy, ho⟩
            · exact absurd ho (by simp)
          · intro y hy hne
            rcases mem_set_cases hy with hy | rfl
            · exact hact y hy hne
            · show 0 < todo
              omega
          · show log.length + ((ths.set t ⟨.checked, todo⟩).map (·.todo)).sum = total
            omega
    | checked =>
      have htodo : 0 < todo := hact _ hmem (by simp)
      simp only
      have hw : (num + 1) % wrap = num + 1 := by
        have hp := pending_set ths t _ ⟨.overflow, todo⟩ hth
        have hl := pending_le (ths.set t ⟨.overflow, todo⟩)
        simp only [reduceCtorEq, if_false, if_true, List.length_set] at hp hl
        exact Nat.mod_eq_of_lt (by omega)
      rw [hw]
      by_cases hc : cap ≤ num
      · rw [if_pos hc]
        have hs := sum_set ths t _ ⟨.overflow, todo⟩ hth
        have hp := pending_set ths t _ ⟨.overflow, todo⟩ hth
        simp only [reduceCtorEq, if_false, if_true] at hs hp
        refine ⟨by simpa using hlen, Nat.le_succ_of_le hlo, ?_, ?_, fun _ => Nat.le_succ_of_le hc,
          fun _ => Nat.le_succ_of_le hc, ?_, ?_⟩
        · show slots ⟨num + 1, _, log⟩ = List.range' num0 (min (num + 1) cap - num0)
          rw [slots_log (num + 1) num _ ths log, hhand]
          congr 1
          show min num cap - num0 = _
          omega
        · show num + 1 ≤ cap + pending (ths.set t _)
          omega
        · intro y hy hne
          rcases mem_set_cases hy with hy | rfl
          · exact hact y hy hne
          · exact htodo
        · show log.length + ((ths.set t ⟨.overflow, todo⟩).map (·.todo)).sum = total
          omega
      · rw [if_neg hc]
        have hs := sum_set ths t _ ⟨.idle, todo - 1⟩ hth
        have hp := pending_set ths t _ ⟨.idle, todo - 1⟩ hth
        simp only [reduceCtorEq, if_false] at hs hp
        have nopend : ¬ ∃ th ∈ ths, th.pc = PC.overflow := fun h => hc (hpend h)
        refine ⟨by simpa using hlen, Nat.le_succ_of_le hlo, ?_, ?_, ?_, ?_, ?_, ?_⟩
        · rw [slots_append, slots_log (num + 1) num _ ths log, hhand]
          show List.range' num0 (min num cap - num0) ++ [num] = List.range' num0 (min (num + 1) cap - num0)
          have e1 : min num cap - num0 = num - num0 := by omega
          have e2 : min (num + 1) cap - num0 = (num - num0) + 1 := by omega
          rw [e1, e2, List.range'_concat]
          congr 2
          omega
        · show num + 1 ≤ cap + pending (ths.set t _)
          omega
        · rintro ⟨e, he, hn⟩
          rcases List.mem_append.mp he with he | he
          · exact Nat.le_succ_of_le (hdrop ⟨e, he, hn⟩)
          · rw [List.mem_singleton] at he
            subst he
            exact absurd hn (by simp)
        · rintro ⟨y, hy, ho⟩
          rcases mem_set_cases hy with hy | rfl
          · exact absurd ⟨y, hy, ho⟩ nopend
          · exact absurd ho (by simp)
        · intro y hy hne
          rcases mem_set_cases hy with hy | rfl
          · exact hact y hy hne
          · exact absurd rfl hne
        · simp only [List.length_append, List.length_singleton]
          omega
    | overflow =>
      have htodo : 0 < todo := hact _ hmem (by simp)
      have hc : cap ≤ num := hpend ⟨_, hmem, rfl⟩
      simp only
      have hw : cap % wrap = cap := Nat.mod_eq_of_lt (by omega)
      rw [hw]
      have hs := sum_set ths t _ ⟨.idle, todo - 1⟩ hth
      refine ⟨by simpa using hlen, h0, ?_, by simp, fun _ => Nat.le_refl _,
        fun _ => Nat.le_refl _, ?_, ?_⟩
      · rw [slots_append, slots_log cap num _ ths log, hhand]
        simp only [Option.toList_none, List.append_nil]
        congr 1
        show min num cap - num0 = _
        omega
      · intro y hy hne
        rcases mem_set_cases hy with hy | rfl
        · exact hact y hy hne
        · exact absurd rfl hne
      · simp only [List.length_append, List.length_singleton] at hs ⊢
        omega

theorem inv_start (cap num0 : Nat) (h0 : num0 ≤ cap) (calls : List Nat) :
    Inv cap num0 calls.sum calls.length (start num0 calls) := by
  refine ⟨by simp [start], Nat.le_refl _, ?_, ?_, ?_, ?_, ?_, ?_⟩
  · simp [start, slots, h0]
  · simp only [start]; omega
  · rintro ⟨e, he, _⟩; simp [start] at he
  · rintro ⟨th, hth, ho⟩
    simp only [start, List.mem_map] at hth
    obtain ⟨k, _, rfl⟩ := hth
    simp at ho
  · intro th hth hne
    simp only [start, List.mem_map] at hth
    obtain ⟨k, _, rfl⟩ := hth
    simp at hne
  · simp only [start, List.length_nil, Nat.zero_add, List.map_map]
    congr 1
    exact List.map_id' calls

theorem inv_run {cap num0 total n : Nat} (hcap : cap + n < wrap) (h0 : num0 ≤ cap) (sched : List Nat) {s : St}
    (h : Inv cap num0 total n s) : Inv cap num0 total n (run cap s sched) := by
  induction sched generalizing s with
  | nil => exact h
  | cons t sched ih => exact ih (inv_step hcap h0 h t)

/-! ## Theorems -/

/-- **C17, at every moment of every interleaving.**  The slots handed out so far are `num0, num0 + 1,
...` in the order in which the calls were served: no slot is given twice, every slot lies inside the
table and behind the records already present; and an event is dropped only when the whole table is
full.  (`cap + calls.length < 2^32`: the counter has 32 bits.) -/
theorem C17_slots_exclusive (cap num0 : Nat) (calls : List Nat) (h0 : num0 ≤ cap)
    (hcap : cap + calls.length < 4294967296) (sched : List Nat) :
    let s := run cap (start num0 calls) sched
    (slots s).Nodup ∧ (∀ i ∈ slots s, num0 ≤ i ∧ i < cap) ∧
    slots s = List.range' num0 (slots s).length ∧
    ((∃ e ∈ s.log, e.2 = none) → (slots s).length = cap - num0) := by
  intro s
  have h := inv_run hcap h0 sched (inv_start cap num0 h0 calls)
  have hh : slots s = List.range' num0 (min s.num cap - num0) := h.handed
  refine ⟨?_, ?_, ?_, ?_⟩
  · rw [hh]; exact List.nodup_range'
  · intro i hi
    rw [hh, List.mem_range'_1] at hi
    omega
  · conv_lhs => rw [hh]
    rw [hh, List.length_range']
  · intro hd
    have := h.dropped hd
    have h2 : cap ≤ s.num := this
    rw [hh, List.length_range']
    omega

/-- **C17, at the end.**  When all threads have returned, `num_recorded` is
`min (records before + events) capacity`, every slot below it was handed out exactly once, and every
call has been answered. -/
theorem C17_final_count (cap num0 : Nat) (calls : List Nat) (h0 : num0 ≤ cap)
    (hcap : cap + calls.length < 4294967296) (sched : List Nat)
    (hdone : Done (run cap (start num0 calls) sched)) :
    let s := run cap (start num0 calls) sched
    s.num = min (num0 + calls.sum) cap ∧ slots s = List.range' num0 (s.num - num0) ∧
    s.log.length = calls.sum := by
  intro s
  have h := inv_run hcap h0 sched (inv_start cap num0 h0 calls)
  have hh : slots s = List.range' num0 (min s.num cap - num0) := h.handed
  have hp : pending s.threads = 0 := by
    rcases Nat.eq_zero_or_pos (pending s.threads) with h | h
    · exact h
    · obtain ⟨th, hth, ho⟩ := List.countP_pos_iff.mp h
      have := (hdone th hth).1
      rw [this] at ho
      simp at ho
  have hnum : s.num ≤ cap := by have := h.hi; have h2 : s.num ≤ cap + pending s.threads := this; omega
  have hzero : (s.threads.map (·.todo)).sum = 0 := by
    have aux : ∀ l : List Thread, (∀ th ∈ l, th.todo = 0) → (l.map (·.todo)).sum = 0 := by
      intro l hl
      induction l with
      | nil => rfl
      | cons a l ih =>
        rw [List.map_cons, List.sum_cons, hl a List.mem_cons_self,
          ih (fun th hth => hl th (List.mem_cons_of_mem _ hth))]
    exact aux _ (fun th hth => (hdone th hth).2)
  have hlog : s.log.length = calls.sum := by
    have h2 : s.log.length + (s.threads.map (·.todo)).sum = calls.sum := h.sum
    omega
  have hmin : min s.num cap = s.num := by omega
  rw [hmin] at hh
  have hlo : num0 ≤ s.num := h.lo
  refine ⟨?_, hh, hlog⟩
  have hlen : (slots s).length = s.num - num0 := by rw [hh, List.length_range']
  by_cases hd : ∃ e ∈ s.log, e.2 = none
  · have h1 : cap ≤ s.num := h.dropped hd
    have h2 : (slots s).length ≤ s.log.length := List.length_filterMap_le _ _
    omega
  · have h2 : (slots s).length = s.log.length := by
      have : ∀ l : List (Nat × Option Nat), (¬ ∃ e ∈ l, e.2 = none) →
          (l.filterMap Prod.snd).length = l.length := by
        intro l
        induction l with
        | nil => intro _; rfl
        | cons e l ih =>
          intro hne
          obtain ⟨a, r⟩ := e
          cases r with
          | none => exact absurd ⟨(a, none), List.mem_cons_self, rfl⟩ hne
          | some v =>
            have := ih (fun ⟨e, he, hn⟩ => hne ⟨e, List.mem_cons_of_mem _ he, hn⟩)
            simp [this]
      exact this _ hd
    omega

/-! ### Every call returns: no thread ever waits for another one -/

/-- Steps thread `t` still needs at most. -/
def need : Thread → Nat
  | ⟨.idle, k⟩ => 3 * k
  | ⟨.checked, k⟩ => 3 * k - 1
  | ⟨.overflow, k⟩ => 3 * k - 2

theorem step_need (cap : Nat) (s : St) (t u : Nat) (th : Thread) (h : s.threads[u]? = some th)
    (hact : th.pc ≠ .idle → 0 < th.todo) :
    ∃ th', (step cap s t).threads[u]? = some th' ∧ (th'.pc ≠ .idle → 0 < th'.todo) ∧
      (if t = u then need th' ≤ need th - 1 else th' = th) := by
  by_cases htu : t = u
  · subst htu
    simp only [if_true]
    have hlt : t < s.threads.length := (List.getElem?_eq_some_iff.mp h).1
    obtain ⟨pc, todo⟩ := th
    unfold step
    rw [h]
    cases pc with
    | idle =>
      simp only
      split
      · rename_i h0; subst h0
        exact ⟨⟨.idle, 0⟩, h, by simp, by simp [need]⟩
      · split
        · exact ⟨⟨.idle, todo - 1⟩, by simp [hlt], by simp, by simp only [need]; omega⟩
        · exact ⟨⟨.checked, todo⟩, by simp [hlt], by intro _; show 0 < todo; omega,
            by simp only [need]; omega⟩
    | checked =>
      have h0 : 0 < todo := hact (by simp)
      simp only
      split
      · exact ⟨⟨.overflow, todo⟩, by simp [hlt], by intro _; exact h0, by simp only [need]; omega⟩
      · exact ⟨⟨.idle, todo - 1⟩, by simp [hlt], by simp, by simp only [need]; omega⟩
    | overflow =>
      have h0 : 0 < todo := hact (by simp)
      exact ⟨⟨.idle, todo - 1⟩, by simp [hlt], by simp, by simp only [need]; omega⟩
  · simp only [if_neg htu]
    refine ⟨th, ?_, hact, rfl⟩
    have hset : ∀ x, (s.threads.set t x)[u]? = some th := by
      intro x
      rw [List.getElem?_set_ne htu]; exact h
    unfold step
    cases s.threads[t]? with
    | none => exact h
    | some y =>
      simp only
      cases y.pc with
      | idle =>
        simp only
        split
        · exact h
        · split <;> exact hset _
      | checked =>
        simp only
        split <;> exact hset _
      | overflow => exact hset _

theorem run_need (cap : Nat) (sched : List Nat) (s : St) (u : Nat) (th : Thread)
    (h : s.threads[u]? = some th) (hact : th.pc ≠ .idle → 0 < th.todo) :
    ∃ th', (run cap s sched).threads[u]? = some th' ∧ (th'.pc ≠ .idle → 0 < th'.todo) ∧
      need th' ≤ need th - sched.count u := by
  induction sched generalizing s th with
  | nil => exact ⟨th, h, hact, by simp⟩
  | cons t sched ih =>
    obtain ⟨th1, h1, ha1, hn1⟩ := step_need cap s t u th h hact
    obtain ⟨th2, h2, ha2, hn2⟩ := ih (step cap s t) th1 h1 ha1
    refine ⟨th2, h2, ha2, ?_⟩
    rw [List.count_cons]
    by_cases htu : t = u
    · subst htu
      simp only [if_true] at hn1
      simp only [beq_self_eq_true, if_true]
      omega
    · simp only [if_neg htu] at hn1
      subst hn1
      have : (t == u) = false := by simp [htu]
      simp only [this]
      simp only [Bool.false_eq_true, if_false]
      omega

theorem run_length (cap : Nat) (sched : List Nat) (s : St) :
    (run cap s sched).threads.length = s.threads.length := by
  induction sched generalizing s with
  | nil => rfl
  | cons t sched ih =>
    show (run cap (step cap s t) sched).threads.length = _
    rw [ih]
    unfold step
    cases s.threads[t]? with
    | none => rfl
    | some y =>
      simp only
      cases y.pc with
      | idle =>
        simp only
        split
        · rfl
        · split <;> simp
      | checked => simp only; split <;> simp
      | overflow => simp

/-- **C17, progress.**  Any schedule that gives every thread three steps per event finishes all
calls, whatever the other threads do in between. -/
theorem C17_calls_return (cap num0 : Nat) (calls : List Nat) (sched : List Nat)
    (hfair : ∀ t k, calls[t]? = some k → 3 * k ≤ sched.count t) :
    Done (run cap (start num0 calls) sched) := by
  intro th hth
  obtain ⟨u, hu, hget⟩ := List.getElem_of_mem hth
  have hl := run_length cap sched (start num0 calls)
  have hu' : u < calls.length := by rw [hl] at hu; simpa [start] using hu
  have hs : (start num0 calls).threads[u]? = some ⟨.idle, calls[u]⟩ := by
    simp [start, hu']
  obtain ⟨th', h1, h2, h3⟩ := run_need cap sched _ u _ hs (by simp)
  rw [List.getElem?_eq_getElem hu, hget, Option.some.injEq] at h1
  subst h1
  have hf := hfair u calls[u] (List.getElem?_eq_getElem hu')
  have h0 : need th = 0 := by simp only [need] at h3 ⊢; omega
  obtain ⟨pc, todo⟩ := th
  cases pc with
  | idle => exact ⟨rfl, by simp only [need] at h0; show todo = 0; omega⟩
  | checked =>
    have : 0 < todo := h2 (by simp)
    simp only [need] at h0; omega
  | overflow =>
    have : 0 < todo := h2 (by simp)
    simp only [need] at h0; omega

/-- The bound on the capacity is needed: with a larger table the 32-bit counter starts again at zero
and a slot already used is handed out. -/
theorem C17_counter_wraps : ∃ cap sched, ∃ s : St,
    s = run cap (start 0xFFFFFFFF [2]) sched ∧ slots s = [0xFFFFFFFF, 0] :=
  ⟨0x100000005, [0, 0, 0, 0], _, rfl, by decide +kernel⟩

/-- Two threads, three events, two places: both pass the test before either increments, one of them
overflows and resets the counter. -/
example : run 2 (start 1 [1, 2]) [0, 1, 0, 1, 1, 1] =
    ⟨2, [⟨.idle, 0⟩, ⟨.idle, 0⟩], [(0, some 1), (1, none), (1, none)]⟩ := by decide

example : Done (run 2 (start 1 [1, 2]) [0, 1, 0, 1, 1, 1]) := by
  intro th hth
  have : run 2 (start 1 [1, 2]) [0, 1, 0, 1, 1, 1] =
    ⟨2, [⟨.idle, 0⟩, ⟨.idle, 0⟩], [(0, some 1), (1, none), (1, none)]⟩ := by decide
  rw [this] at hth
  simp at hth
  subst hth
  exact ⟨rfl, rfl⟩

end Verif.Record
