import Verif.Monitors.Model
import Mathlib.Tactic.Ring
import Mathlib.Tactic.Linarith
import Mathlib.Data.List.Induction
import Mathlib.Data.List.Chain

/-!
# C24, C25, C26: ParticlesMonitor, LastTurnsMonitor, MultiElementMonitor
-/

namespace Verif.Monitors

/-- The last particle of the history that satisfies the condition. -/
def lastSeen {R : Type} (P : Pt R → Bool) (h : List (Pt R)) : Option (Pt R) := h.reverse.find? P

theorem lastSeen_nil {R : Type} (P : Pt R → Bool) : lastSeen P [] = none := rfl

theorem lastSeen_append {R : Type} (P : Pt R → Bool) (a b : List (Pt R)) :
    lastSeen P (a ++ b) = (lastSeen P b).or (lastSeen P a) := by
  unfold lastSeen
  rw [List.reverse_append, List.find?_append]

theorem lastSeen_cons {R : Type} (P : Pt R → Bool) (p : Pt R) (b : List (Pt R)) :
    lastSeen P (p :: b) = (lastSeen P b).or (if P p then some p else none) := by
  have : p :: b = [p] ++ b := rfl
  rw [this, lastSeen_append]
  congr 1
  show List.find? P [p] = _
  rw [List.find?_cons]
  cases P p <;> rfl

theorem lastSeen_congr {R : Type} (P Q : Pt R → Bool) (h : List (Pt R)) (e : ∀ p ∈ h, P p = Q p) :
    lastSeen P h = lastSeen Q h := by
  induction h with
  | nil => rfl
  | cons p h ih =>
    rw [lastSeen_cons, lastSeen_cons, ih (fun q hq => e q (List.mem_cons_of_mem _ hq)), e p List.mem_cons_self]

theorem lastSeen_none {R : Type} (P : Pt R → Bool) (h : List (Pt R)) (e : ∀ p ∈ h, P p = false) :
    lastSeen P h = none := by
  induction h with
  | nil => rfl
  | cons p h ih =>
    rw [lastSeen_cons, ih (fun q hq => e q (List.mem_cons_of_mem _ hq)), e p List.mem_cons_self]
    rfl

theorem put_eq {R : Type} (mem : Mem R) (w : Int × R) : put mem w w.1 = w.2 := if_pos rfl

theorem put_ne {R : Type} (mem : Mem R) (w : Int × R) (i : Int) (h : i ≠ w.1) : put mem w i = mem i := if_neg h

/-! ## C24 -/

/-- Whether the particle is inside the monitored window in repetition `rep`, at column `col`. -/
def sameCell {R : Type} (m : PMon) (rep id col : Int) (p : Pt R) : Bool :=
  decide (p.id = id ∧ m.clock p = m.start + col + (if m.nRep = 1 then 0 else rep * m.period))

theorem tdiv_frame (a p : Int) (ha : 0 ≤ a) (hp : 0 < p) :
    a.tdiv p * p ≤ a ∧ a < a.tdiv p * p + p ∧ 0 ≤ a.tdiv p := by
  rw [Int.tdiv_eq_ediv_of_nonneg ha]
  have h1 := Int.mul_ediv_add_emod a p
  have h2 := Int.emod_nonneg a (by omega : p ≠ 0)
  have h3 := Int.emod_lt_of_pos a hp
  have h4 := Int.ediv_nonneg ha (le_of_lt hp)
  rw [Int.mul_comm] at h1
  refine ⟨by omega, by omega, h4⟩

theorem frame_unique (a p i : Int) (hp : 0 < p) (hi : 0 ≤ i) (h1 : i * p ≤ a) (h2 : a < i * p + p) :
    a.tdiv p = i := by
  have ha : 0 ≤ a := le_trans (mul_nonneg hi (le_of_lt hp)) h1
  obtain ⟨k1, k2, k3⟩ := tdiv_frame a p ha hp
  generalize a.tdiv p = q at *
  rcases lt_trichotomy q i with h | h | h
  · have : (q + 1) * p ≤ i * p := Int.mul_le_mul_of_nonneg_right (by omega) (le_of_lt hp)
    rw [add_mul, one_mul] at this
    omega
  · exact h
  · have : (i + 1) * p ≤ q * p := Int.mul_le_mul_of_nonneg_right (by omega) (le_of_lt hp)
    rw [add_mul, one_mul] at this
    omega

/-- A flat index with row length `n` determines row and column. -/
theorem flat_inj (n r c r' c' : Int) (hc : 0 ≤ c) (hcn : c < n) (hc' : 0 ≤ c') (hcn' : c' < n)
    (h : n * r + c = n * r' + c') : r = r' ∧ c = c' := by
  have hn : 0 < n := by omega
  have e1 : (n * r + c) / n = r := by
    rw [Int.add_comm, Int.add_mul_ediv_left _ _ (by omega), Int.ediv_eq_zero_of_lt hc hcn, Int.zero_add]
  have e2 : (n * r' + c') / n = r' := by
    rw [Int.add_comm, Int.add_mul_ediv_left _ _ (by omega), Int.ediv_eq_zero_of_lt hc' hcn', Int.zero_add]
  have hr : r = r' := by rw [← e1, ← e2, h]
  subst hr
  exact ⟨rfl, by omega⟩

/-- Monitors made by the constructor. -/
theorem new_fields (a : PArgs) (ebe : Bool) (m : PMon) (h : PMon.new a ebe = some m) :
    m.idStart ≤ m.idEnd ∧ m.nRecords = (m.stop - m.start) * (m.idEnd - m.idStart) * m.nRep := by
  unfold PMon.new at h
  obtain ⟨ids, _, h⟩ := Option.bind_eq_some_iff.mp h
  obtain ⟨reps, _, h⟩ := Option.bind_eq_some_iff.mp h
  split at h
  · exact absurd h (by simp)
  · rename_i hlt
    rw [← Option.some.inj h]
    exact ⟨by show ids.1 ≤ ids.2; omega, rfl⟩

theorem cell_eq (m : PMon) (hrec : m.nRecords = (m.stop - m.start) * (m.idEnd - m.idStart) * m.nRep)
    (hw : m.start < m.stop) (hn : 1 ≤ m.nRep) (rep row col : Int) (hrep : m.nRep = 1 → rep = 0) :
    m.cell rep row col = (m.stop - m.start) * ((m.idEnd - m.idStart) * rep + row) + col := by
  unfold PMon.cell
  by_cases h1 : m.nRep = 1
  · rw [if_pos h1, hrep h1]; ring
  · rw [if_neg h1, hrec]
    have e1 : (m.stop - m.start) * (m.idEnd - m.idStart) * m.nRep / (m.stop - m.start) = (m.idEnd - m.idStart) * m.nRep := by
      rw [mul_assoc]; exact Int.mul_ediv_cancel_left _ (by omega)
    rw [e1, Int.mul_ediv_cancel _ (by omega)]
    ring

/-- The write of a particle, if any. -/
def PMon.write? {R : Type} (m : PMon) (p : Pt R) : Option (Int × R) :=
  if m.nRep = 1 then
    if (m.start ≤ m.clock p ∧ m.clock p < m.stop) ∧ (p.id < m.idEnd ∧ m.idStart ≤ p.id) then
      some ((m.stop - m.start) * (p.id - m.idStart) + m.clock p - m.start, p.coords)
    else none
  else if ((m.clock p - m.start).tdiv m.period < m.nRep ∧
            m.start + (m.clock p - m.start).tdiv m.period * m.period ≤ m.clock p ∧
            m.clock p < m.stop + (m.clock p - m.start).tdiv m.period * m.period) ∧
          (p.id < m.idEnd ∧ m.idStart ≤ p.id) then
    some ((m.stop - m.start) * (m.idEnd - m.idStart) * (m.clock p - m.start).tdiv m.period +
              (m.stop - m.start) * (p.id - m.idStart) +
              (m.clock p - (m.clock p - m.start).tdiv m.period * m.period) - m.start, p.coords)
  else none

theorem writes_cons {R : Type} (m : PMon) (back : Bool) (hb : m.ebe = true ∨ back = false) (hn : 1 ≤ m.nRep) (p : Pt R)
    (ps : List (Pt R)) (h : m.nRep = 1 ∨ m.start ≤ m.clock p) :
    m.writes back (p :: ps) = (m.write? p).toList ++ m.writes back ps := by
  rw [PMon.writes]
  rw [if_neg (by rcases hb with hb | hb <;> simp [hb])]
  unfold PMon.write?
  by_cases h1 : m.nRep = 1
  · rw [if_pos h1, if_pos h1]
    congr 1
    by_cases c1 : m.start ≤ m.clock p ∧ m.clock p < m.stop
    · rw [if_pos c1]
      by_cases c2 : p.id < m.idEnd ∧ m.idStart ≤ p.id
      · rw [if_pos c2, if_pos ⟨c1, c2⟩]; rfl
      · rw [if_neg c2, if_neg (fun h => c2 h.2)]; rfl
    · rw [if_neg c1, if_neg (fun h => c1 h.1)]; rfl
  · rw [if_neg h1, if_neg h1, if_pos (by omega), if_neg (by rcases h with h | h <;> omega)]
    congr 1
    generalize (m.clock p - m.start).tdiv m.period = q
    by_cases c1 : q < m.nRep ∧ m.start + q * m.period ≤ m.clock p ∧ m.clock p < m.stop + q * m.period
    · rw [if_pos c1]
      by_cases c2 : p.id < m.idEnd ∧ m.idStart ≤ p.id
      · rw [if_pos c2, if_pos ⟨c1, c2⟩]; rfl
      · rw [if_neg c2, if_neg (fun h => c2 h.2)]; rfl
    · rw [if_neg c1, if_neg (fun h => c1 h.1)]; rfl

/-- The window of the repetitions do not overlap. -/
def Separate (m : PMon) : Prop := m.nRep = 1 ∨ m.stop - m.start ≤ m.period

theorem write_spec {R : Type} (m : PMon) (hw : m.start < m.stop) (hsep : Separate m) (p : Pt R)
    (hstart : m.nRep = 1 ∨ m.start ≤ m.clock p)
    (rep id col : Int) (hrep0 : 0 ≤ rep) (hrep : rep < m.nRep) (hid : m.idStart ≤ id) (hid' : id < m.idEnd)
    (hcol : 0 ≤ col) (hcol' : col < m.stop - m.start) (mem : Mem R) :
    ((m.write? p).toList.foldl put mem) ((m.stop - m.start) * ((m.idEnd - m.idStart) * rep + (id - m.idStart)) + col) =
      if sameCell m rep id col p then p.coords
      else mem ((m.stop - m.start) * ((m.idEnd - m.idStart) * rep + (id - m.idStart)) + col) := by
  unfold PMon.write? sameCell
  by_cases h1 : m.nRep = 1
  · have hr0 : rep = 0 := by omega
    subst hr0
    simp only [h1, if_true, decide_eq_true_eq]
    by_cases hc : (m.start ≤ m.clock p ∧ m.clock p < m.stop) ∧ (p.id < m.idEnd ∧ m.idStart ≤ p.id)
    · rw [if_pos hc]
      show put mem _ _ = _
      by_cases hs : p.id = id ∧ m.clock p = m.start + col + 0
      · rw [if_pos hs, hs.1]
        have : (m.stop - m.start) * ((m.idEnd - m.idStart) * 0 + (id - m.idStart)) + col =
            (m.stop - m.start) * (id - m.idStart) + m.clock p - m.start := by rw [hs.2]; ring
        rw [this]
        exact put_eq _ _
      · rw [if_neg hs]
        apply put_ne
        intro he
        apply hs
        have := flat_inj (m.stop - m.start) (id - m.idStart) col (p.id - m.idStart) (m.clock p - m.start) hcol hcol'
          (by omega) (by omega) (by rw [mul_zero, zero_add] at he; simp only at he; omega)
        omega
    · rw [if_neg hc, if_neg]
      · rfl
      · intro hs
        apply hc
        omega
  · simp only [h1, if_false, decide_eq_true_eq]
    have hper : 0 < m.period := by
      rcases hsep with h | h
      · exact absurd h h1
      · omega
    have hsep' : m.stop - m.start ≤ m.period := by
      rcases hsep with h | h
      · exact absurd h h1
      · exact h
    have hst : m.start ≤ m.clock p := by
      rcases hstart with h | h
      · exact absurd h h1
      · exact h
    obtain ⟨k1, k2, k3⟩ := tdiv_frame (m.clock p - m.start) m.period (by omega) hper
    have huniq := frame_unique (m.clock p - m.start) m.period rep hper hrep0
    generalize (m.clock p - m.start).tdiv m.period = q at *
    by_cases hc : (q < m.nRep ∧ m.start + q * m.period ≤ m.clock p ∧ m.clock p < m.stop + q * m.period) ∧
          (p.id < m.idEnd ∧ m.idStart ≤ p.id)
    · rw [if_pos hc]
      show put mem _ _ = _
      by_cases hs : p.id = id ∧ m.clock p = m.start + col + rep * m.period
      · have hq : q = rep := huniq (by omega) (by omega)
        rw [if_pos hs, hs.1, hq]
        have : (m.stop - m.start) * ((m.idEnd - m.idStart) * rep + (id - m.idStart)) + col =
            (m.stop - m.start) * (m.idEnd - m.idStart) * rep + (m.stop - m.start) * (id - m.idStart) +
              (m.clock p - rep * m.period) - m.start := by rw [hs.2]; ring
        rw [this]
        exact put_eq _ _
      · rw [if_neg hs]
        apply put_ne
        intro he
        apply hs
        have he' : (m.stop - m.start) * ((m.idEnd - m.idStart) * rep + (id - m.idStart)) + col =
            (m.stop - m.start) * ((m.idEnd - m.idStart) * q + (p.id - m.idStart)) + (m.clock p - q * m.period - m.start) := by
          rw [he]; ring
        obtain ⟨a1, a2⟩ := flat_inj _ _ _ _ _ hcol hcol' (by omega) (by omega) he'
        obtain ⟨b1, b2⟩ := flat_inj (m.idEnd - m.idStart) rep (id - m.idStart) q (p.id - m.idStart) (by omega) (by omega)
          (by omega) (by omega) a1
        subst b1
        constructor
        · omega
        · omega
    · rw [if_neg hc, if_neg]
      · rfl
      · intro hs
        apply hc
        have hq : q = rep := huniq (by omega) (by omega)
        subst hq
        obtain ⟨hs1, hs2⟩ := hs
        refine ⟨⟨hrep, by omega, by omega⟩, by omega, by omega⟩

/-- In a passage either all particles have reached the first recorded turn (element), or none has. -/
def Together {R : Type} (m : PMon) (ps : List (Pt R)) : Prop :=
  m.nRep = 1 ∨ (∀ p ∈ ps, m.start ≤ m.clock p) ∨ (∀ p ∈ ps, m.clock p < m.start)

theorem track_spec {R : Type} (m : PMon) (back : Bool) (hb : m.ebe = true ∨ back = false) (hw : m.start < m.stop)
    (hn : 1 ≤ m.nRep) (hsep : Separate m) (ps : List (Pt R)) (htog : Together m ps)
    (rep id col : Int) (hrep0 : 0 ≤ rep) (hrep : rep < m.nRep) (hid : m.idStart ≤ id) (hid' : id < m.idEnd)
    (hcol : 0 ≤ col) (hcol' : col < m.stop - m.start) (mem : Mem R) :
    m.track back mem ps ((m.stop - m.start) * ((m.idEnd - m.idStart) * rep + (id - m.idStart)) + col) =
      match lastSeen (sameCell m rep id col) ps with
      | some p => p.coords
      | none => mem ((m.stop - m.start) * ((m.idEnd - m.idStart) * rep + (id - m.idStart)) + col) := by
  have main : ∀ ps : List (Pt R), (m.nRep = 1 ∨ ∀ p ∈ ps, m.start ≤ m.clock p) → ∀ mem : Mem R,
      m.track back mem ps ((m.stop - m.start) * ((m.idEnd - m.idStart) * rep + (id - m.idStart)) + col) =
      match lastSeen (sameCell m rep id col) ps with
      | some p => p.coords
      | none => mem ((m.stop - m.start) * ((m.idEnd - m.idStart) * rep + (id - m.idStart)) + col) := by
    intro ps
    induction ps with
    | nil => intro _ mem; rfl
    | cons p ps ih =>
      intro hall mem
      have hp : m.nRep = 1 ∨ m.start ≤ m.clock p := by
        rcases hall with h | h
        · exact Or.inl h
        · exact Or.inr (h p List.mem_cons_self)
      have hall' : m.nRep = 1 ∨ ∀ p ∈ ps, m.start ≤ m.clock p := by
        rcases hall with h | h
        · exact Or.inl h
        · exact Or.inr (fun q hq => h q (List.mem_cons_of_mem _ hq))
      unfold PMon.track
      rw [writes_cons m back hb hn p ps hp, List.foldl_append]
      have := ih hall' ((m.write? p).toList.foldl put mem)
      unfold PMon.track at this
      rw [this, lastSeen_cons]
      cases lastSeen (sameCell m rep id col) ps with
      | some q => rfl
      | none =>
        simp only [Option.none_or]
        rw [write_spec m hw hsep p hp rep id col hrep0 hrep hid hid' hcol hcol']
        cases sameCell m rep id col p <;> rfl
  rcases htog with h | h | h
  · exact main ps (Or.inl h) mem
  · exact main ps (Or.inr h) mem
  · by_cases h1 : m.nRep = 1
    · exact main ps (Or.inl h1) mem
    · have e1 : m.writes back ps = [] := by
        cases ps with
        | nil => rfl
        | cons p ps =>
          rw [PMon.writes, if_neg (by rcases hb with hb | hb <;> simp [hb]), if_neg h1, if_pos (by omega),
            if_pos (h p List.mem_cons_self)]
      unfold PMon.track
      rw [e1]
      have e2 : lastSeen (sameCell m rep id col) ps = none := by
        apply lastSeen_none
        intro p hp
        have hlt := h p hp
        unfold sameCell
        simp only [h1, if_false, decide_eq_false_iff_not]
        have hper : 0 ≤ m.period := by
          rcases hsep with h | h
          · exact absurd h h1
          · omega
        have := mul_nonneg hrep0 hper
        omega
      rw [e2]
      rfl

/-- **C24 (partial).**  For every history of passages and every cell of the record: the value read for
repetition `rep`, particle `id` and the `col`-th recorded turn (element, in element-by-element mode) is the one of the last passage
of particle `id` at that turn of that repetition, and the initial value if there was none.
Missing: repetitions that overlap (`C24_overlap_violated`), passages in which only some of the particles have reached
the first turn when there are several repetitions (`C24_mixed_turns_violated`). -/
theorem C24_cells_partial {R : Type} (a : PArgs) (ebe : Bool) (m : PMon) (hm : PMon.new a ebe = some m) (back : Bool)
    (hb : m.ebe = true ∨ back = false) (hw : m.start < m.stop) (hn : 1 ≤ m.nRep) (hsep : Separate m)
    (h : List (List (Pt R))) (htog : ∀ ps ∈ h, Together m ps) (mem : Mem R)
    (rep id col : Int) (hrep0 : 0 ≤ rep) (hrep : rep < m.nRep) (hid : m.idStart ≤ id) (hid' : id < m.idEnd)
    (hcol : 0 ≤ col) (hcol' : col < m.stop - m.start) :
    (h.foldl (m.track back) mem) (m.cell rep (id - m.idStart) col) =
      match lastSeen (fun p => decide (p.id = id ∧
          (if ebe = true then p.element else p.turn) =
            a.start + col + (if m.nRep = 1 then 0 else rep * m.period))) h.flatten with
      | some p => p.coords
      | none => mem (m.cell rep (id - m.idStart) col) := by
  have hebe : m.ebe = ebe ∧ m.start = a.start := by
    unfold PMon.new at hm
    cases h1 : a.ids with
    | none => rw [h1] at hm; exact absurd hm (by simp)
    | some ids =>
      cases h2 : a.reps with
      | none => rw [h1, h2] at hm; exact absurd hm (by simp)
      | some reps =>
        rw [h1, h2, Option.bind_some, Option.bind_some] at hm
        split at hm
        · exact absurd hm (by simp)
        · cases hm; exact ⟨rfl, rfl⟩
  rw [← hebe.1, ← hebe.2]
  obtain ⟨_, hrec⟩ := new_fields a ebe m hm
  rw [cell_eq m hrec hw hn rep (id - m.idStart) col (by omega)]
  show _ = match lastSeen (sameCell m rep id col) h.flatten with
    | some p => p.coords
    | none => _
  induction h generalizing mem with
  | nil => rfl
  | cons ps h ih =>
    rw [List.foldl_cons, ih (fun q hq => htog q (List.mem_cons_of_mem _ hq)), List.flatten_cons, lastSeen_append]
    cases lastSeen (sameCell m rep id col) h.flatten with
    | some q => rfl
    | none =>
      simp only [Option.none_or]
      exact track_spec m back hb hw hn hsep ps (htog ps List.mem_cons_self) rep id col hrep0 hrep hid hid' hcol hcol' mem

/-- Two repetitions of a window of two turns, period five: turn 6 of particle 3. -/
example : ∃ m, PMon.new ⟨1, 3, some 2, some 5, none, some (2, 5)⟩ false = some m ∧ Separate m ∧
    ([[⟨3, 6, 0, 60⟩, ⟨4, 6, 0, 70⟩], [⟨3, 7, 0, 61⟩]].foldl (m.track false) (fun _ => 0)) (m.cell 1 1 0) = (60 : Nat) ∧
    ([[⟨3, 6, 0, 60⟩, ⟨4, 6, 0, 70⟩], [⟨3, 7, 0, 61⟩]].foldl (m.track false) (fun _ => 0)) (m.cell 1 1 1) = (61 : Nat) :=
  ⟨⟨1, 3, 2, 5, false, 12, 2, 5⟩, by decide, Or.inr (by decide), by decide, by decide⟩

/-- **C24, memory.**  Nothing is written outside the record. -/
theorem C24_in_bounds {R : Type} (a : PArgs) (ebe : Bool) (m : PMon) (hm : PMon.new a ebe = some m) (back : Bool)
    (hper : m.nRep = 1 ∨ 0 < m.period) (ps : List (Pt R)) :
    ∀ w ∈ m.writes back ps, 0 ≤ w.1 ∧ w.1 < m.nRecords := by
  obtain ⟨hids, hrec⟩ := new_fields a ebe m hm
  induction ps with
  | nil => intro w hw; exact absurd hw (by simp [PMon.writes])
  | cons p ps ih =>
    intro w hw
    rw [PMon.writes] at hw
    split at hw
    · exact absurd hw (by simp)
    · split at hw
      · rename_i h1
        rcases List.mem_append.mp hw with hw | hw
        · split at hw
          · rename_i c1
            split at hw
            · rename_i c2
              rw [List.mem_singleton.mp hw, hrec, h1]
              show 0 ≤ (m.stop - m.start) * (p.id - m.idStart) + m.clock p - m.start ∧
                (m.stop - m.start) * (p.id - m.idStart) + m.clock p - m.start < _
              have : 0 ≤ (m.stop - m.start) * (p.id - m.idStart) := mul_nonneg (by omega) (by omega)
              have h2 : (m.stop - m.start) * (p.id - m.idStart + 1) ≤ (m.stop - m.start) * (m.idEnd - m.idStart) :=
                Int.mul_le_mul_of_nonneg_left (by omega) (by omega)
              rw [mul_add, mul_one] at h2
              constructor
              · omega
              · rw [mul_one]; omega
            · exact absurd hw (by simp)
          · exact absurd hw (by simp)
        · exact ih w hw
      · rename_i h1
        split at hw
        · split at hw
          · exact absurd hw (by simp)
          · rename_i hge
            rcases List.mem_append.mp hw with hw | hw
            · split at hw
              · rename_i c1
                split at hw
                · rename_i c2
                  rw [List.mem_singleton.mp hw, hrec]
                  have hp : 0 < m.period := by
                    rcases hper with h | h
                    · exact absurd h h1
                    · exact h
                  obtain ⟨_, _, k3⟩ := tdiv_frame (m.clock p - m.start) m.period (by omega) hp
                  generalize (m.clock p - m.start).tdiv m.period = q at *
                  have e : ∀ A : Int, A = (m.stop - m.start) * (m.idEnd - m.idStart) * q + (m.stop - m.start) * (p.id - m.idStart) +
                      (m.clock p - q * m.period) - m.start → 0 ≤ A ∧ A < (m.stop - m.start) * (m.idEnd - m.idStart) * m.nRep := by
                    intro A hA
                    have t1 : 0 ≤ (m.stop - m.start) * (p.id - m.idStart) := mul_nonneg (by omega) (by omega)
                    have t2 : (m.stop - m.start) * (p.id - m.idStart + 1) ≤ (m.stop - m.start) * (m.idEnd - m.idStart) :=
                      Int.mul_le_mul_of_nonneg_left (by omega) (by omega)
                    have t3 : 0 ≤ (m.stop - m.start) * (m.idEnd - m.idStart) := mul_nonneg (by omega) (by omega)
                    have t4 : 0 ≤ (m.stop - m.start) * (m.idEnd - m.idStart) * q := mul_nonneg t3 k3
                    have t5 : (m.stop - m.start) * (m.idEnd - m.idStart) * (q + 1) ≤
                        (m.stop - m.start) * (m.idEnd - m.idStart) * m.nRep :=
                      Int.mul_le_mul_of_nonneg_left (by omega) t3
                    rw [mul_add, mul_one] at t2 t5
                    constructor
                    · omega
                    · omega
                  exact e _ rfl
                · exact absurd hw (by simp)
              · exact absurd hw (by simp)
            · exact ih w hw
        · exact ih w hw

/-- **C24 violated**: window of three turns repeated every two turns.  Turn 2 belongs to the window of the first
repetition (turns 0, 1, 2) but is not recorded there. -/
theorem C24_overlap_violated :
    ∃ m, PMon.new ⟨0, 3, some 2, some 2, some 1, none⟩ false = some m ∧
      ([[⟨0, 0, 0, 10⟩], [⟨0, 1, 0, 11⟩], [⟨0, 2, 0, 12⟩], [⟨0, 3, 0, 13⟩], [⟨0, 4, 0, 14⟩]].foldl (m.track false) (fun _ => 0))
        (m.cell 0 0 2) = (0 : Nat) :=
  ⟨⟨0, 3, 0, 1, false, 6, 2, 2⟩, by decide, by decide⟩

/-- **C24 violated**: with repetitions, particle 1 (at turn 5, inside the window) is not recorded because particle 0 of
the same passage has not reached the first turn of the window. -/
theorem C24_mixed_turns_violated :
    ∃ m, PMon.new ⟨5, 6, some 2, some 10, some 2, none⟩ false = some m ∧ Separate m ∧
      m.track false (fun _ => 0) [⟨0, 4, 0, 10⟩, ⟨1, 5, 0, 11⟩] (m.cell 0 1 0) = (0 : Nat) ∧
      m.track false (fun _ => 0) [⟨1, 5, 0, 11⟩, ⟨0, 4, 0, 10⟩] (m.cell 0 1 0) = (11 : Nat) :=
  ⟨⟨5, 6, 0, 2, false, 4, 2, 10⟩, by decide, Or.inr (by decide), by decide, by decide⟩

/-! ## C25 -/

/-- The passages of particle `id` that are recorded: turns that are multiples of `every_n_turns`. -/
def recorded {R : Type} (m : LMon) (id : Int) (h : List (Pt R)) : List (Pt R) :=
  h.filter (fun p => decide (p.id = id ∧ 0 ≤ p.turn ∧ p.turn % m.every = 0))

/-- Row of the monitor for a particle, as read by the user. -/
def LMon.row {R : Type} (m : LMon) (d : LData R) (n : Nat) (id : Int) : List R :=
  (List.range n).map (fun c : Nat => m.get d (id - m.idStart) c)

theorem track_lmon_append {R : Type} (m : LMon) (d : LData R) (a b : List (Pt R)) :
    m.track d (a ++ b) = m.track (m.track d a) b := by
  unfold LMon.track
  rw [List.foldl_append]

theorem lmon_inv {R : Type} (m : LMon) (n : Nat) (hn : m.n = n) (hpos : 0 < n) (hev : 0 < m.every) (zero : R) (id : Int)
    (hid : m.idStart ≤ id) (hid' : id < m.idStart + m.num) (h : List (Pt R))
    (hcons : (recorded m id h).IsChain (fun p q => q.turn = p.turn + m.every)) :
    (recorded m id h = [] → ∀ j, 0 ≤ j → j < m.n →
      (m.track (LData.new zero) h).data (m.n * (id - m.idStart) + j) = zero) ∧
    (∀ p, (recorded m id h).getLast? = some p →
      (m.track (LData.new zero) h).offset (id - m.idStart) = p.turn / m.every % m.n) ∧
    (∀ c : Nat, c < n → m.get (m.track (LData.new zero) h) (id - m.idStart) c =
      ((List.replicate n zero ++ (recorded m id h).map Pt.coords)[(recorded m id h).length + c]?).getD zero) := by
  have hmn : 0 < m.n := by omega
  induction h using List.reverseRecOn with
  | nil =>
    refine ⟨fun _ j _ _ => rfl, fun p hp => by simp [recorded] at hp, ?_⟩
    intro c hc
    show zero = _
    simp only [recorded, List.filter_nil, List.map_nil, List.append_nil, List.length_nil, Nat.zero_add]
    rw [List.getElem?_replicate, if_pos hc]
    rfl
  | append_singleton h p ih =>
    rw [track_lmon_append]
    have hchain : (recorded m id h).IsChain (fun p q => q.turn = p.turn + m.every) := by
      unfold recorded at hcons ⊢
      rw [List.filter_append] at hcons
      exact (List.isChain_append.mp hcons).1
    obtain ⟨i1, i2, i3⟩ := ih hchain
    generalize hd : m.track (LData.new zero) h = d at *
    show _ ∧ _ ∧ ∀ c : Nat, c < n → m.get (m.one d p) (id - m.idStart) c = _
    by_cases hr : p.id = id ∧ 0 ≤ p.turn ∧ p.turn % m.every = 0
    · -- recorded
      have hrec : recorded m id (h ++ [p]) = recorded m id h ++ [p] := by
        unfold recorded
        rw [List.filter_append]
        congr 1
        simp [hr]
      have hmod : p.turn.tmod m.every = 0 := by
        rw [Int.tmod_eq_emod_of_nonneg hr.2.1]; exact hr.2.2
      have hdiv : (p.turn.tdiv m.every).tmod m.n = p.turn / m.every % m.n := by
        rw [Int.tdiv_eq_ediv_of_nonneg hr.2.1, Int.tmod_eq_emod_of_nonneg (Int.ediv_nonneg hr.2.1 (le_of_lt hev))]
      have hone : m.one d p = ⟨put d.data (m.n * (id - m.idStart) + p.turn / m.every % m.n, p.coords),
          fun i => if i = id - m.idStart then p.turn / m.every % m.n else d.offset i⟩ := by
        unfold LMon.one
        rw [if_pos ⟨hr.2.1, hmod, by omega, by omega⟩, hdiv, hr.1]
      have hlast : ∀ q, (recorded m id h).getLast? = some q → p.turn = q.turn + m.every := by
        intro q hq
        rw [hrec] at hcons
        have := (List.isChain_append.mp hcons).2.2 q (by rw [hq]; rfl) p (by simp)
        exact this
      rw [hrec]
      show (recorded m id h ++ [p] = [] → ∀ j, 0 ≤ j → j < m.n → (m.one d p).data _ = zero) ∧
        (∀ q, (recorded m id h ++ [p]).getLast? = some q → (m.one d p).offset (id - m.idStart) = q.turn / m.every % m.n) ∧ _
      rw [hone]
      refine ⟨fun hc => absurd hc (by simp), ?_, ?_⟩
      · intro q hq
        have : p = q := by simpa using hq
        rw [← this]
        exact if_pos rfl
      · intro c hc
        have hget : m.get (⟨put d.data (m.n * (id - m.idStart) + p.turn / m.every % m.n, p.coords),
            fun i => if i = id - m.idStart then p.turn / m.every % m.n else d.offset i⟩ : LData R) (id - m.idStart) c =
            if (c : Int) = m.n - 1 then p.coords
            else d.data (m.n * (id - m.idStart) + (c + (p.turn / m.every % m.n + 1)) % m.n) := by
          unfold LMon.get
          simp only [if_true]
          have ho1 := Int.emod_nonneg (p.turn / m.every) (by omega : m.n ≠ 0)
          have ho2 := Int.emod_lt_of_pos (p.turn / m.every) hmn
          generalize p.turn / m.every % m.n = o at *
          rw [Int.mul_comm (id - m.idStart)]
          by_cases hcn : (c : Int) = m.n - 1
          · have hslot : ((c : Int) + (o + 1)) % m.n = o := by
              rw [hcn]
              have : m.n - 1 + (o + 1) = o + m.n * 1 := by ring
              rw [this, Int.add_mul_emod_self_left, Int.emod_eq_of_lt ho1 ho2]
            rw [if_pos hcn, hslot]
            exact put_eq _ _
          · rw [if_neg hcn]
            apply put_ne
            intro he
            apply hcn
            have hs : ((c : Int) + (o + 1)) % m.n = o := by simp only at he; omega
            have hcn' : (c : Int) < m.n := by omega
            by_cases hov : (c : Int) + (o + 1) < m.n
            · rw [Int.emod_eq_of_lt (by omega) hov] at hs; omega
            · have : (c : Int) + (o + 1) = (c + (o + 1) - m.n) + m.n * 1 := by ring
              rw [this, Int.add_mul_emod_self_left, Int.emod_eq_of_lt (by omega) (by omega)] at hs
              omega
        rw [hget]
        have hlen : ((recorded m id h) ++ [p]).length = (recorded m id h).length + 1 := by simp
        rw [hlen, List.map_append, ← List.append_assoc]
        have hA : (List.replicate n zero ++ (recorded m id h).map Pt.coords).length = n + (recorded m id h).length := by simp
        by_cases hcn : (c : Int) = m.n - 1
        · rw [if_pos hcn]
          have hc' : (recorded m id h).length + 1 + c = n + (recorded m id h).length := by omega
          rw [hc', ← hA, List.getElem?_append_right (le_refl _)]
          simp
        · rw [if_neg hcn, List.getElem?_append_left (by omega)]
          have hc1 : c + 1 < n := by omega
          have := i3 (c + 1) hc1
          have e : (recorded m id h).length + 1 + c = (recorded m id h).length + (c + 1) := by omega
          rw [e, ← this]
          unfold LMon.get
          rw [Int.mul_comm (id - m.idStart)]
          by_cases hemp : recorded m id h = []
          · rw [i1 hemp _ (Int.emod_nonneg _ (by omega)) (Int.emod_lt_of_pos _ hmn),
              i1 hemp _ (Int.emod_nonneg _ (by omega)) (Int.emod_lt_of_pos _ hmn)]
          · obtain ⟨q, hq⟩ : ∃ q, (recorded m id h).getLast? = some q := by
              cases hg : (recorded m id h).getLast? with
              | none => exact absurd (List.getLast?_eq_none_iff.mp hg) hemp
              | some q => exact ⟨q, rfl⟩
            rw [i2 q hq, hlast q hq]
            have hdv : (q.turn + m.every) / m.every = q.turn / m.every + 1 := by
              rw [Int.add_ediv_of_dvd_right (dvd_refl _), Int.ediv_self (by omega)]
            rw [hdv]
            have e2 : ((c : Int) + ((q.turn / m.every + 1) % m.n + 1)) % m.n =
                (((c + 1 : Nat) : Int) + (q.turn / m.every % m.n + 1)) % m.n := by
              generalize q.turn / m.every = u
              have a1 : ((c : Int) + ((u + 1) % m.n + 1)) % m.n = (c + (u + 1 + 1)) % m.n := by
                have b1 : (c : Int) + ((u + 1) % m.n + 1) = (u + 1) % m.n + (c + 1) := by ring
                have b2 : (c : Int) + (u + 1 + 1) = (u + 1) + (c + 1) := by ring
                rw [b1, b2, Int.emod_add_emod]
              have a2 : (((c + 1 : Nat) : Int) + (u % m.n + 1)) % m.n = (c + (u + 1 + 1)) % m.n := by
                have b1 : ((c + 1 : Nat) : Int) + (u % m.n + 1) = u % m.n + (c + 2) := by push_cast; ring
                have b2 : (c : Int) + (u + 1 + 1) = u + (c + 2) := by ring
                rw [b1, b2, Int.emod_add_emod]
              rw [a1, a2]
            rw [e2]
    · -- not recorded for this particle
      have hrec : recorded m id (h ++ [p]) = recorded m id h := by
        unfold recorded
        rw [List.filter_append]
        simp [hr]
      rw [hrec]
      have key : ∀ j, 0 ≤ j → j < m.n → (m.one d p).data (m.n * (id - m.idStart) + j) = d.data (m.n * (id - m.idStart) + j) := by
        intro j hj hj'
        unfold LMon.one
        split
        · rename_i hc
          apply put_ne
          intro he
          have hu : 0 ≤ p.turn.tdiv m.every := by
            rw [Int.tdiv_eq_ediv_of_nonneg hc.1]; exact Int.ediv_nonneg hc.1 (le_of_lt hev)
          rw [Int.tmod_eq_emod_of_nonneg hu] at he
          have := (flat_inj m.n (id - m.idStart) j (p.id - m.idStart) _ hj hj' (Int.emod_nonneg _ (by omega))
            (Int.emod_lt_of_pos _ hmn) he).1
          apply hr
          refine ⟨by omega, hc.1, ?_⟩
          rw [← Int.tmod_eq_emod_of_nonneg hc.1]; exact hc.2.1
        · rfl
      have keyo : (m.one d p).offset (id - m.idStart) = d.offset (id - m.idStart) := by
        unfold LMon.one
        split
        · rename_i hc
          apply if_neg
          intro he
          apply hr
          refine ⟨by omega, hc.1, ?_⟩
          rw [← Int.tmod_eq_emod_of_nonneg hc.1]; exact hc.2.1
        · rfl
      refine ⟨?_, ?_, ?_⟩
      · intro he j hj hj'
        show (m.one d p).data _ = _
        rw [key j hj hj', i1 he j hj hj']
      · intro q hq
        show (m.one d p).offset _ = _
        rw [keyo, i2 q hq]
      · intro c hc
        rw [← i3 c hc]
        unfold LMon.get
        rw [keyo, Int.mul_comm (id - m.idStart), key _ (Int.emod_nonneg _ (by omega)) (Int.emod_lt_of_pos _ hmn)]

/-- **C25 (partial).**  After any history of passages (particles in any order, any number of wrap-arounds of the rolling
buffer), the row of a monitored particle holds the last `n` recorded passages of this particle in
chronological order, preceded by zeros if there are fewer than `n`.  Recorded are the passages at
non-negative turns that are multiples of `every_n_turns`.
Missing: histories in which the particle does not pass at some of these turns, see `C25_gap_violated`. -/
theorem C25_last_turns_partial {R : Type} (m : LMon) (n : Nat) (hn : m.n = n) (hpos : 0 < n) (hev : 0 < m.every) (zero : R)
    (id : Int) (hid : m.idStart ≤ id) (hid' : id < m.idStart + m.num) (h : List (List (Pt R)))
    (hcons : (recorded m id h.flatten).IsChain (fun p q => q.turn = p.turn + m.every)) :
    m.row (h.foldl m.track (LData.new zero)) n id =
      (List.replicate n zero ++ (recorded m id h.flatten).map Pt.coords).drop (recorded m id h.flatten).length := by
  have hflat : ∀ (h : List (List (Pt R))) d, h.foldl m.track d = m.track d h.flatten := by
    intro h
    induction h with
    | nil => intro d; rfl
    | cons a h ih => intro d; rw [List.foldl_cons, ih, List.flatten_cons, track_lmon_append]
  rw [hflat]
  have := (lmon_inv m n hn hpos hev zero id hid hid' h.flatten hcons).2.2
  unfold LMon.row
  apply List.ext_getElem?
  intro i
  rw [List.getElem?_map, List.getElem?_drop]
  by_cases hi : i < n
  · rw [List.getElem?_range hi]
    simp only [Option.map_some]
    rw [this i hi]
    have hlt : (recorded m id h.flatten).length + i <
        (List.replicate n zero ++ (recorded m id h.flatten).map Pt.coords).length := by simp; omega
    rw [List.getElem?_eq_getElem hlt]
    rfl
  · rw [List.getElem?_eq_none (by simpa using hi), List.getElem?_eq_none (by simp; omega)]
    rfl

/-- Two particles, every second turn, five turns seen: the last two recorded turns of particle 7 are 2 and 4. -/
example : (⟨2, 6, 3, 2⟩ : LMon).row
    ([[⟨7, 0, 0, 10⟩, ⟨8, 0, 0, 90⟩], [⟨7, 1, 0, 11⟩], [⟨7, 2, 0, 12⟩, ⟨8, 2, 0, 92⟩], [⟨7, 3, 0, 13⟩], [⟨7, 4, 0, 14⟩]].foldl
      (⟨2, 6, 3, 2⟩ : LMon).track (LData.new 0)) 2 7 = [12, 14] ∧
    (recorded ⟨2, 6, 3, 2⟩ 7 [⟨7, 0, 0, 10⟩, ⟨8, 0, 0, 90⟩, ⟨7, 1, 0, 11⟩, ⟨7, 2, 0, 12⟩]).map Pt.coords = [10, 12] := by
  decide

/-- **C25 violated** when the particle skips the monitor in one turn (turns 0, 1, 3 seen, window of two turns): the row
shows turns 0 and 3 instead of 1 and 3. -/
theorem C25_gap_violated :
    (⟨2, 0, 1, 1⟩ : LMon).row ([[⟨0, 0, 0, 10⟩], [⟨0, 1, 0, 11⟩], [⟨0, 3, 0, 13⟩]].foldl
      (⟨2, 0, 1, 1⟩ : LMon).track (LData.new 0)) 2 0 = [10, 13] := by decide

/-! ## C26 -/

theorem lastIndex_some (k e : Nat) (os : List Nat) (i : Nat) (h : lastIndex k e os = some i) :
    k ≤ i ∧ os[i - k]? = some e := by
  induction os generalizing k with
  | nil => simp [lastIndex] at h
  | cons o os ih =>
    rw [lastIndex] at h
    cases hl : lastIndex (k + 1) e os with
    | some j =>
      rw [hl] at h
      have := Option.some.inj h
      subst this
      obtain ⟨h1, h2⟩ := ih (k + 1) hl
      refine ⟨by omega, ?_⟩
      have : j - k = (j - (k + 1)) + 1 := by omega
      rw [this, List.getElem?_cons_succ]
      exact h2
    | none =>
      rw [hl] at h
      simp only at h
      split at h
      · rename_i ho
        have := Option.some.inj h
        subst this
        refine ⟨le_refl _, ?_⟩
        rw [Nat.sub_self, ho]
        rfl
      · exact absurd h (by simp)

theorem lastIndex_mem (k e : Nat) (os : List Nat) (h : e ∈ os) : (lastIndex k e os).isSome := by
  induction os generalizing k with
  | nil => simp at h
  | cons o os ih =>
    rw [lastIndex]
    cases hl : lastIndex (k + 1) e os with
    | some j => rfl
    | none =>
      rcases List.mem_cons.mp h with h | h
      · simp only
        rw [if_pos h.symm]; rfl
      · have := ih (k + 1) h
        rw [hl] at this
        exact absurd this (by simp)

theorem coord_index_range (c : Coord) : 0 ≤ c.index ∧ c.index < 7 := by cases c <;> decide

theorem coord_index_inj (c c' : Coord) (h : c.index = c'.index) : c = c' := by
  revert h
  cases c <;> cases c' <;> decide

theorem mflat_inj (m : MMon) (t i c k t' i' c' k' : Int) (hi : 0 ≤ i) (hi2 : i < m.idEnd - m.idStart) (hc : 0 ≤ c) (hc2 : c < 7)
    (hk : 0 ≤ k) (hk2 : k < m.obs.length) (hi' : 0 ≤ i') (hi2' : i' < m.idEnd - m.idStart) (hc' : 0 ≤ c') (hc2' : c' < 7)
    (hk' : 0 ≤ k') (hk2' : k' < m.obs.length) (h : m.flat t i c k = m.flat t' i' c' k') :
    t = t' ∧ i = i' ∧ c = c' ∧ k = k' := by
  unfold MMon.flat at h
  rw [Int.mul_comm _ (m.obs.length : Int), Int.mul_comm _ (m.obs.length : Int)] at h
  obtain ⟨h, hk3⟩ := flat_inj _ _ _ _ _ hk hk2 hk' hk2' h
  rw [Int.mul_comm _ 7, Int.mul_comm _ 7] at h
  obtain ⟨h, hc3⟩ := flat_inj _ _ _ _ _ hc hc2 hc' hc2' h
  rw [Int.mul_comm t, Int.mul_comm t'] at h
  obtain ⟨h, hi3⟩ := flat_inj _ _ _ _ _ hi hi2 hi' hi2' h
  exact ⟨h, hi3, hc3, hk3⟩

theorem foldl_put_ne {R α : Type} (f : α → Int) (v : α → R) (l : List α) (mem : Mem R) (i : Int) (h : ∀ c ∈ l, f c ≠ i) :
    ((l.map (fun c => (f c, v c))).foldl put mem) i = mem i := by
  induction l generalizing mem with
  | nil => rfl
  | cons a l ih =>
    rw [List.map_cons, List.foldl_cons, ih _ (fun c hc => h c (List.mem_cons_of_mem _ hc))]
    exact put_ne _ _ _ (h a List.mem_cons_self).symm

theorem foldl_put_eq {R α : Type} (f : α → Int) (v : α → R) (l : List α) (mem : Mem R) (c : α) (hc : c ∈ l)
    (inj : ∀ c', f c' = f c → c' = c) : ((l.map (fun c => (f c, v c))).foldl put mem) (f c) = v c := by
  induction l generalizing mem with
  | nil => simp at hc
  | cons a l ih =>
    rw [List.map_cons, List.foldl_cons]
    by_cases hl : c ∈ l
    · exact ih _ hl
    · have : c = a := by
        rcases List.mem_cons.mp hc with h | h
        · exact h
        · exact absurd h hl
      subst this
      rw [foldl_put_ne]
      · exact put_eq _ _
      · intro c' hc' he
        exact hl (inj c' he ▸ hc')

/-- All coordinates. -/
def coords7 : List Coord := [.x, .px, .y, .py, .zeta, .delta, .s]

theorem mwrites_spec {R : Type} (m : MMon) (hobs : ∀ o ∈ m.obs, o < m.lenTable) (p : Pt (Coord → R)) (hel : 0 ≤ p.element)
    (c : Coord) (e k : Nat) (hk : lastIndex 0 e m.obs = some k) (id turn : Int) (hid : m.idStart ≤ id) (hid' : id < m.idEnd)
    (ht : m.start ≤ turn) (ht' : turn < m.stop) (mem : Mem R) :
    ((m.writes p).foldl put mem) (m.flat (turn - m.start) (id - m.idStart) c.index k) =
      if p.id = id ∧ p.turn = turn ∧ p.element = e then p.coords c
      else mem (m.flat (turn - m.start) (id - m.idStart) c.index k) := by
  obtain ⟨_, hk2⟩ := lastIndex_some 0 e m.obs k hk
  rw [Nat.sub_zero] at hk2
  have hklt : k < m.obs.length := by
    rw [List.getElem?_eq_some_iff] at hk2
    exact hk2.1
  have heo : e ∈ m.obs := List.mem_of_getElem? hk2
  have hrange := coord_index_range c
  by_cases hwin : (m.start ≤ p.turn ∧ p.turn < m.stop) ∧ (m.idStart ≤ p.id ∧ p.id < m.idEnd)
  · unfold MMon.writes
    rw [if_pos hwin]
    simp only
    by_cases hst : 0 ≤ (if p.element < m.lenTable then m.mapping p.element.toNat else -1)
    · rw [if_pos hst]
      have hlt : p.element < m.lenTable := by
        by_contra hc
        rw [if_neg hc] at hst
        omega
      rw [if_pos hlt] at hst ⊢
      unfold MMon.mapping at hst ⊢
      cases hli : lastIndex 0 p.element.toNat m.obs with
      | none => rw [hli] at hst; exact absurd hst (by decide)
      | some k' =>
        obtain ⟨_, hk2'⟩ := lastIndex_some 0 _ m.obs k' hli
        rw [Nat.sub_zero] at hk2'
        have hklt' : k' < m.obs.length := by
          rw [List.getElem?_eq_some_iff] at hk2'
          exact hk2'.1
        show ((coords7.map (fun c => (m.flat (p.turn - m.start) (p.id - m.idStart) c.index (k' : Int), p.coords c))).foldl put mem) _ = _
        by_cases hs : p.id = id ∧ p.turn = turn ∧ p.element = e
        · rw [if_pos hs]
          obtain ⟨s1, s2, s3⟩ := hs
          have : k' = k := by
            rw [s3] at hli
            have : (e : Int).toNat = e := rfl
            rw [this, hk] at hli
            exact (Option.some.inj hli).symm
          rw [s1, s2, this]
          apply foldl_put_eq (fun c => m.flat (turn - m.start) (id - m.idStart) c.index (k : Int)) p.coords coords7 mem c
          · cases c <;> decide
          · intro c' he
            have hr' := coord_index_range c'
            exact coord_index_inj _ _ (mflat_inj m _ _ _ _ _ _ _ _ (by omega) (by omega) hr'.1 hr'.2 (by omega) (by omega) (by omega)
              (by omega) hrange.1 hrange.2 (by omega) (by omega) he).2.2.1
        · rw [if_neg hs]
          apply foldl_put_ne (fun c => m.flat (p.turn - m.start) (p.id - m.idStart) c.index (k' : Int)) p.coords coords7 mem
          intro c' _ he
          apply hs
          have hr' := coord_index_range c'
          obtain ⟨q1, q2, _, q4⟩ := mflat_inj m _ _ _ _ _ _ _ _ (by omega) (by omega) hr'.1 hr'.2 (by omega) (by omega) (by omega)
              (by omega) hrange.1 hrange.2 (by omega) (by omega) he
          have hkk : k' = k := by omega
          rw [hkk, hk2] at hk2'
          have := Option.some.inj hk2'
          refine ⟨by omega, by omega, ?_⟩
          omega
    · rw [if_neg hst, if_neg]
      · rfl
      · intro hs
        apply hst
        have : p.element.toNat = e := by omega
        have hlt : p.element < m.lenTable := by
          have := hobs e heo
          omega
        rw [if_pos hlt, this]
        unfold MMon.mapping
        rw [hk]
        exact Int.natCast_nonneg k
  · unfold MMon.writes
    rw [if_neg hwin, if_neg]
    · rfl
    · intro hs
      apply hwin
      omega

/-- **C26.**  For every history of passages and every observed element, the value returned by `get` for a
coordinate, an element, a particle and a turn inside the window is the one of the last passage of this particle at this
element in this turn, and the initial content of the buffer if there was none (also if an element is listed twice). -/
theorem C26_multi_element {R : Type} (m : MMon) (hobs : ∀ o ∈ m.obs, o < m.lenTable) (h : List (List (Pt (Coord → R))))
    (hel : ∀ ps ∈ h, ∀ p ∈ ps, 0 ≤ p.element) (mem : Mem R) (c : Coord) (e : Nat) (he : e ∈ m.obs) (id turn : Int)
    (hid : m.idStart ≤ id) (hid' : id < m.idEnd) (ht : m.start ≤ turn) (ht' : turn < m.stop) :
    m.get (h.foldl m.track mem) c e id turn =
      match lastSeen (fun p => decide (p.id = id ∧ p.turn = turn ∧ p.element = e)) h.flatten with
      | some p => some (p.coords c)
      | none => m.get mem c e id turn := by
  obtain ⟨k, hk⟩ := Option.isSome_iff_exists.mp (lastIndex_mem 0 e m.obs he)
  have one : ∀ (ps : List (Pt (Coord → R))) (mem : Mem R), (∀ p ∈ ps, 0 ≤ p.element) →
      m.get (m.track mem ps) c e id turn =
      match lastSeen (fun p => decide (p.id = id ∧ p.turn = turn ∧ p.element = e)) ps with
      | some p => some (p.coords c)
      | none => m.get mem c e id turn := by
    intro ps
    induction ps with
    | nil => intro mem _; rfl
    | cons p ps ih =>
      intro mem hps
      have htr : m.track mem (p :: ps) = m.track ((m.writes p).foldl put mem) ps := by
        unfold MMon.track
        rw [List.flatMap_cons, List.foldl_append]
      rw [htr, ih _ (fun q hq => hps q (List.mem_cons_of_mem _ hq)), lastSeen_cons]
      cases lastSeen (fun p => decide (p.id = id ∧ p.turn = turn ∧ p.element = (e : Int))) ps with
      | some q => rfl
      | none =>
        simp only [Option.none_or]
        unfold MMon.get MMon.nameToIndex
        rw [hk]
        show some (List.foldl put mem (m.writes p) (m.flat (turn - m.start) (id - m.idStart) c.index (k : Int))) = _
        rw [mwrites_spec m hobs p (hps p List.mem_cons_self) c e k hk id turn hid hid' ht ht']
        by_cases hs : p.id = id ∧ p.turn = turn ∧ p.element = (e : Int)
        · rw [if_pos hs, if_pos (by simpa using hs)]
        · rw [if_neg hs, if_neg (by simpa using hs)]
          rfl
  induction h generalizing mem with
  | nil => rfl
  | cons ps h ih =>
    rw [List.foldl_cons, ih (fun q hq => hel q (List.mem_cons_of_mem _ hq)), List.flatten_cons, lastSeen_append]
    cases lastSeen (fun p => decide (p.id = id ∧ p.turn = turn ∧ p.element = (e : Int))) h.flatten with
    | some q => rfl
    | none =>
      simp only [Option.none_or]
      exact one ps mem (hel ps List.mem_cons_self)

/-- Elements 4 and 2 observed for two turns and particles 3, 4. -/
example : (⟨0, 2, 3, 5, [4, 2], 6⟩ : MMon).get
    ([[⟨3, 0, 2, fun _ => 7⟩, ⟨4, 0, 2, fun _ => 8⟩], [⟨3, 0, 3, fun _ => 9⟩], [⟨3, 0, 4, fun c => if c = .y then 10 else 11⟩]].foldl
      (⟨0, 2, 3, 5, [4, 2], 6⟩ : MMon).track (fun _ => 0)) .y 4 3 0 = some 10 := by decide

/-- **C26, memory.**  Nothing is written outside the buffer. -/
theorem C26_in_bounds {R : Type} (m : MMon) (p : Pt (Coord → R)) : ∀ w ∈ m.writes p, 0 ≤ w.1 ∧ w.1 < m.size := by
  intro w hw
  unfold MMon.writes at hw
  split at hw
  · rename_i hwin
    simp only at hw
    by_cases hst : 0 ≤ (if p.element < m.lenTable then m.mapping p.element.toNat else -1)
    · rw [if_pos hst] at hw
      have hlt : p.element < m.lenTable := by
        by_contra hc
        rw [if_neg hc] at hst
        omega
      rw [if_pos hlt] at hst hw
      unfold MMon.mapping at hst hw
      cases hli : lastIndex 0 p.element.toNat m.obs with
      | none => rw [hli] at hst; exact absurd hst (by decide)
      | some k =>
        rw [hli] at hw
        obtain ⟨_, hk2⟩ := lastIndex_some 0 _ m.obs k hli
        rw [Nat.sub_zero] at hk2
        have hklt : k < m.obs.length := by
          rw [List.getElem?_eq_some_iff] at hk2
          exact hk2.1
        have hw' : w ∈ coords7.map (fun c => (m.flat (p.turn - m.start) (p.id - m.idStart) c.index (k : Int), p.coords c)) := hw
        obtain ⟨c, _, hc⟩ := List.mem_map.mp hw'
        rw [← hc]
        have hr := coord_index_range c
        show 0 ≤ m.flat _ _ _ _ ∧ m.flat _ _ _ _ < m.size
        unfold MMon.flat MMon.size
        generalize c.index = ci at *
        generalize hT : p.turn - m.start = T
        generalize hI : p.id - m.idStart = I
        generalize hN : m.idEnd - m.idStart = N
        generalize hS : m.stop - m.start = S
        have hK : ((k : Int)) < (m.obs.length : Int) := by omega
        generalize (m.obs.length : Int) = O at *
        have h0 : (0 : Int) ≤ k := Int.natCast_nonneg k
        generalize (k : Int) = K at *
        have a1 : 0 ≤ T * N := mul_nonneg (by omega) (by omega)
        have a2 : 0 ≤ ((T * N + I) * 7 + ci) * O := mul_nonneg (by omega) (by omega)
        have a3 : (T + 1) * N ≤ S * N := Int.mul_le_mul_of_nonneg_right (by omega) (by omega)
        have a4 : ((T * N + I) * 7 + ci + 1) * O ≤ S * N * 7 * O := by
          apply Int.mul_le_mul_of_nonneg_right _ (by omega)
          rw [add_mul, one_mul] at a3
          omega
        rw [add_mul _ 1 O, one_mul] at a4
        constructor <;> omega
    · rw [if_neg hst] at hw
      exact absurd hw (by simp)
  · exact absurd hw (by simp)

end Verif.Monitors
