/-!
# Internal record: handing out slots to concurrent threads

Source: `/repo/xtrack/internal_record.py:39-62` (`RecordIndex_get_slot`).

Every access to the shared counter `num_recorded` is one atomic step of the model; a schedule is any
list of thread numbers.  `num_recorded` is a `uint32_t` (a natural number reduced modulo 2^32 on each
write), `capacity` is not negative.  The case of a missing record (`return -2`, nothing
shared is touched) is not modelled.  `atomicAdd` is taken to be atomic (xobjects).
-/

namespace Verif.Record

/-- Range of `uint32_t`. -/
abbrev wrap : Nat := 4294967296

/-- Where a thread is inside `RecordIndex_get_slot`. -/
inductive PC where
  /-- Before the first test (internal_record.py:48). -/
  | idle
  /-- The test `*num_recorded >= capacity` was false; about to execute `atomicAdd` (line 54). -/
  | checked
  /-- `slot >= capacity` was true; about to execute `*num_recorded = capacity` (line 57). -/
  | overflow
  deriving DecidableEq, Repr

/-- One thread: program counter and number of calls it still has to complete. -/
structure Thread where
  pc : PC
  todo : Nat
  deriving DecidableEq, Repr

/-- Shared counter, threads, and the calls completed so far, in order: thread and returned slot
(`none` for the return value -1). -/
structure St where
  num : Nat
  threads : List Thread
  log : List (Nat × Option Nat)
  deriving DecidableEq, Repr

/-- One atomic step of thread `t`; internal_record.py:48-60. -/
def step (cap : Nat) (s : St) (t : Nat) : St :=
  match s.threads[t]? with
  | none => s
  | some th =>
    match th.pc with
    | .idle =>
      if th.todo = 0 then s
      else if cap ≤ s.num then
        { s with threads := s.threads.set t ⟨.idle, th.todo - 1⟩, log := s.log ++ [(t, none)] }
      else { s with threads := s.threads.set t ⟨.checked, th.todo⟩ }
    | .checked =>
      if cap ≤ s.num then
        { s with num := (s.num + 1) % wrap, threads := s.threads.set t ⟨.overflow, th.todo⟩ }
      else
        { num := (s.num + 1) % wrap, threads := s.threads.set t ⟨.idle, th.todo - 1⟩,
          log := s.log ++ [(t, some s.num)] }
    | .overflow =>
      { num := cap % wrap, threads := s.threads.set t ⟨.idle, th.todo - 1⟩, log := s.log ++ [(t, none)] }

/-- Execution under a schedule. -/
def run (cap : Nat) (s : St) (sched : List Nat) : St := sched.foldl (step cap) s

/-- Beginning of a kernel: `num0` records are already in the table, thread `t` will record `calls[t]`
events. -/
def start (num0 : Nat) (calls : List Nat) : St := ⟨num0, calls.map (fun k => ⟨.idle, k⟩), []⟩

end Verif.Record
