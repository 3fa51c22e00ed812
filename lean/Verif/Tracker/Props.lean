import Verif.Tracker.Lemmas
import Mathlib.Algebra.Group.Basic
import Mathlib.Tactic.Abel
import Mathlib.Algebra.BigOperators.Group.List.Basic

/-!
# C18, C19, C20: which elements are tracked
-/

namespace Verif.Tracker

/-! ## C18: specification -/

/-- Going through `n` consecutive elements of a ring of `L` elements from position `a`: the end of the
line is crossed each time the last element has been traversed; when `m` is set, a record is taken at
the beginning of each further turn that has elements to traverse. -/
def walk (L : Nat) (m : Bool) : Nat → Nat → List Ev
  | _, 0 => []
  | a, n + 1 =>
    .ele a :: (if a + 1 = L then .endTurn :: ((if 0 < n then monL m else []) ++ walk L m 0 n)
      else walk L m (a + 1) n)

/-- The whole track call: a record at the beginning, then the walk.  Starting at `L` means starting
behind the last element: the end of the line is crossed first. -/
def walkFrom (L : Nat) (m : Bool) (a n : Nat) : List Ev :=
  monL m ++ (if a = L then .endTurn :: ((if 0 < n then monL m else []) ++ walk L m 0 n) else walk L m a n)

/-- Number of elements between `a` and the stop point: to the end of the line, or to the next
occurrence of element `b`, plus `turns - 1` full turns. -/
def distance (L a : Nat) (stop : Option Nat) (turns : Nat) : Nat :=
  (match stop with
    | none => L - a
    | some b => if a < b then b - a else L - a + b) + (turns - 1) * L

/-- The request made by the arguments: number of elements to traverse. -/
def requested (L a : Nat) (args : Args) : Nat :=
  match args.numElements with
  | some n => n
  | none => distance L a args.stop (args.numTurns.getD 1)

/-! ### Walks -/

theorem walk_inside (L : Nat) (m : Bool) (a n : Nat) (h : a + n < L) : walk L m a n = eles a n := by
  induction n generalizing a with
  | zero => rfl
  | succ n ih =>
    rw [walk, if_neg (by omega), ih (a + 1) (by omega)]
    rfl

theorem walk_cross (L : Nat) (m : Bool) (a r : Nat) (h : a < L) :
    walk L m a (L - a + r) =
      eles a (L - a) ++ (.endTurn :: ((if 0 < r then monL m else []) ++ walk L m 0 r)) := by
  obtain ⟨d, hd⟩ : ∃ d, L - a = d + 1 := ⟨L - a - 1, by omega⟩
  rw [hd]
  induction d generalizing a with
  | zero =>
    rw [show 0 + 1 + r = r + 1 by omega, walk, if_pos (by omega)]
    rfl
  | succ d ih =>
    rw [show d + 1 + 1 + r = (d + 1 + r) + 1 by omega, walk, if_neg (by omega), ih (a + 1) (by omega) (by omega)]
    rfl

theorem walk_turns (L : Nat) (m : Bool) (k r : Nat) (hL : 0 < L) (hr : r < L) :
    (if 0 < k * L + r then monL m else []) ++ walk L m 0 (k * L + r) =
      rep k (monL m ++ eles 0 L ++ [.endTurn]) ++ (if 0 < r then monL m ++ eles 0 r else []) := by
  induction k with
  | zero =>
    simp only [Nat.zero_mul, Nat.zero_add, rep, List.nil_append]
    by_cases h : 0 < r
    · rw [if_pos h, if_pos h, walk_inside _ _ _ _ (by omega)]
    · rw [if_neg h, if_neg h]
      have : r = 0 := by omega
      subst this; rfl
  | succ k ih =>
    have hpos : 0 < (k + 1) * L + r := by
      have : (k + 1) * L = k * L + L := Nat.succ_mul k L
      omega
    have e : (k + 1) * L + r = L - 0 + (k * L + r) := by
      have : (k + 1) * L = k * L + L := Nat.succ_mul k L
      omega
    rw [if_pos hpos, e, walk_cross L m 0 _ hL, ih]
    simp [rep]

theorem walkFrom_first (L : Nat) (m : Bool) (a r : Nat) (hL : 0 < L) (ha : a ≤ L) :
    walkFrom L m a (L - a + r) =
      monL m ++ eles a (L - a) ++ .endTurn :: ((if 0 < r then monL m else []) ++ walk L m 0 r) := by
  unfold walkFrom
  by_cases h : a = L
  · subst h
    simp [eles]
  · rw [if_neg h, walk_cross L m a r (by omega), List.append_assoc]

/-- **C18 (partial).**  For every accepted combination of start, stop, number of turns and number of
elements, the elements traversed are exactly the `requested` consecutive ones, the end-of-turn actions
are performed exactly each time the end of the line is crossed, and one record is taken at the
beginning of each turn.  Missing: the stop point given as `ele_stop = len(line)` after more than one
turn (`C18_stop_at_end_violated`). -/
theorem C18_elements_tracked_partial (L : Nat) (m : Bool) (startAt : Option Nat) (args : Args) (a : Nat)
    (tr : List Ev) (hL : 0 < L) (ha : startElement L startAt args = some a)
    (ht : track L false m true startAt args = some tr)
    (hstop : args.stop ≠ some L ∨ (a < L ∧ args.numTurns.getD 1 = 1)) :
    tr = walkFrom L m a (requested L a args) := by
  have haL : a ≤ L := by
    have key : ∀ s, (if s ≤ L then some s else none) = some a → a ≤ L := by
      intro s hs
      split at hs
      · rename_i h; rw [← Option.some.inj hs]; exact h
      · exact absurd hs (by simp)
    cases startAt with
    | none => exact key _ ha
    | some v =>
      simp only [startElement] at ha
      split at ha
      · exact absurd ha (by simp)
      · exact key _ ha
  obtain ⟨s, hs⟩ : ∃ s, splitTurns L a args = some s := by
    unfold track at ht
    rw [ha] at ht
    simp only [Option.bind_eq_bind, Option.bind_some] at ht
    obtain ⟨s, hs, _⟩ := Option.bind_eq_some_iff.mp ht
    exact ⟨s, hs⟩
  rw [track_fwd L a m true startAt args s ha hs] at ht
  rw [← Option.some.inj ht]
  clear ht
  simp only [Bool.true_and, endL, if_true]
  unfold splitTurns at hs
  unfold requested
  cases hm : args.numElements with
  | some n =>
    rw [hm] at hs
    simp only at hs ⊢
    split at hs
    · exact absurd hs (by simp)
    · split at hs
      · exact absurd hs (by simp)
      · split at hs
        · rename_i hle
          have := Option.some.inj hs
          subst this
          simp only [rep, List.append_nil, Nat.lt_irrefl, if_false]
          by_cases hend : n + a = L
          · have hn : n = L - a := by omega
            subst hn
            have hb : ((L - a + a == L) = true) := by simp [hend]
            have := walkFrom_first L m a 0 hL haL
            rw [Nat.add_zero] at this
            rw [this, if_pos hb]
            simp [walk]
          · have hb : ¬ ((n + a == L) = true) := by simp [hend]
            rw [if_neg hb]
            unfold walkFrom
            rw [if_neg (by omega), walk_inside L m a n (by omega)]
            simp
        · rename_i hgt
          have := Option.some.inj hs
          subst this
          have hb : ((L - a + a == L) = true) := by simp; omega
          simp only [hb, if_true]
          have hdm := Nat.div_add_mod (a + n) L
          have hml := Nat.mod_lt (a + n) hL
          have hq : 1 ≤ (a + n) / L := (Nat.one_le_div_iff hL).mpr (by omega)
          obtain ⟨q, hq'⟩ : ∃ q, (a + n) / L = q + 1 := ⟨(a + n) / L - 1, by omega⟩
          rw [hq'] at hdm ⊢
          have hmul : L * (q + 1) = q * L + L := by rw [Nat.mul_comm, Nat.succ_mul]
          have hn : n = L - a + (q * L + (a + n) % L) := by omega
          have w := walkFrom_first L m a (q * L + (a + n) % L) hL haL
          rw [← hn] at w
          rw [w, walk_turns L m q _ hL hml]
          simp
  | none =>
    rw [hm] at hs
    simp only at hs ⊢
    generalize args.numTurns.getD 1 = t at hs hstop ⊢
    split at hs
    · exact absurd hs (by simp)
    · rename_i ht0
      cases hst : args.stop with
      | none =>
        rw [hst] at hs
        simp only at hs ⊢
        have := Option.some.inj hs
        subst this
        have hb : ((L - a + a == L) = true) := by simp; omega
        have w := walkFrom_first L m a ((t - 1) * L + 0) hL haL
        have w2 := walk_turns L m (t - 1) 0 hL hL
        rw [w2] at w
        simp only [Nat.add_zero] at w
        simp only [distance, w, hb, if_true]
        simp
      | some b =>
        rw [hst] at hs
        simp only at hs ⊢
        split at hs
        · exact absurd hs (by simp)
        · rename_i hbL
          by_cases hba : b ≤ a
          · rw [if_pos hba, if_neg (by omega)] at hs
            have := Option.some.inj hs
            subst this
            have hb : ((L - a + a == L) = true) := by simp; omega
            simp only [hb, if_true]
            have hbL' : b < L := by
              rcases hstop with h | h
              · rw [hst] at h
                have : b ≠ L := fun hc => h (by rw [hc])
                omega
              · omega
            have hd : distance L a (some b) t = L - a + ((t - 1) * L + b) := by
              simp only [distance]
              rw [if_neg (by omega)]
              omega
            have w := walkFrom_first L m a ((t - 1) * L + b) hL haL
            rw [← hd, walk_turns L m (t - 1) b hL hbL'] at w
            rw [w, show t + 1 - 2 = t - 1 by omega]
            simp
          · rw [if_neg hba] at hs
            by_cases ht1 : t = 1
            · rw [if_pos ht1] at hs
              have := Option.some.inj hs
              subst this
              subst ht1
              simp only [rep, List.append_nil, Nat.lt_irrefl, if_false]
              have hd : distance L a (some b) 1 = b - a := by
                simp only [distance]
                rw [if_pos (by omega)]
                omega
              rw [hd]
              by_cases hend : b = L
              · subst hend
                have hb : ((b - a + a == b) = true) := by simp; omega
                have := walkFrom_first b m a 0 hL haL
                rw [Nat.add_zero] at this
                rw [this, if_pos hb]
                simp [walk]
              · have hb : ¬ ((b - a + a == L) = true) := by simp; omega
                rw [if_neg hb]
                unfold walkFrom
                rw [if_neg (by omega), walk_inside L m a _ (by omega)]
                simp
            · rw [if_neg ht1] at hs
              have := Option.some.inj hs
              subst this
              have hb : ((L - a + a == L) = true) := by simp; omega
              simp only [hb, if_true]
              have hbL' : b < L := by
                rcases hstop with h | h
                · rw [hst] at h
                  have : b ≠ L := fun hc => h (by rw [hc])
                  omega
                · exact absurd h.2 ht1
              obtain ⟨u, hu⟩ : ∃ u, t = u + 2 := ⟨t - 2, by omega⟩
              subst hu
              have hd : distance L a (some b) (u + 2) = L - a + (u * L + b) := by
                simp only [distance]
                rw [if_pos (by omega), show u + 2 - 1 = u + 1 by omega, Nat.succ_mul]
                omega
              have w := walkFrom_first L m a (u * L + b) hL haL
              rw [← hd, walk_turns L m u b hL hbL'] at w
              rw [w]
              simp

/-- A partial first turn, one full turn and a partial last turn in a line of four elements. -/
example : track 4 false true true none ⟨some 3, some 2, none, some 2⟩ = some
    [.mon, .ele 3, .endTurn, .mon, .ele 0, .ele 1, .ele 2, .ele 3, .endTurn, .mon, .ele 0, .ele 1] := by
  decide

/-- **C18 violated.**  Stopping at `ele_stop = len(line)` performs the end-of-turn actions when one
turn is tracked, but leaves them out after the last one when two turns are tracked (the end of the
line is crossed twice, `at_turn` is incremented once). -/
theorem C18_stop_at_end_violated :
    track 2 false false true none ⟨some 0, some 2, none, some 1⟩ = some [.ele 0, .ele 1, .endTurn] ∧
    track 2 false false true none ⟨some 0, some 2, none, some 2⟩ =
      some [.ele 0, .ele 1, .endTurn, .ele 0, .ele 1] ∧
    requested 2 0 ⟨some 0, some 2, none, some 2⟩ = 4 ∧
    walkFrom 2 false 0 4 = [.ele 0, .ele 1, .endTurn, .ele 0, .ele 1, .endTurn] := by decide

/-- With `skip_end_turn_actions` the same happens without the end-of-turn actions. -/
theorem C18_skip_end_turn_actions (L : Nat) (m : Bool) (startAt : Option Nat) (args : Args) (tr : List Ev)
    (ht : track L false m true startAt args = some tr) :
    track L false m false startAt args = some (tr.filter (· ≠ .endTurn)) := by
  cases h1 : startElement L startAt args with
  | none => simp [track, h1] at ht
  | some a =>
    cases h2 : splitTurns L a args with
    | none => simp [track, h1, h2] at ht
    | some s =>
      have h3 := track_fwd L a m true startAt args s h1 h2
      have h4 := track_fwd L a m false startAt args s h1 h2
      rw [h3] at ht
      rw [h4, ← Option.some.inj ht]
      have feles : ∀ (n a : Nat), (eles a n).filter (· ≠ .endTurn) = eles a n := by
        intro n
        induction n with
        | zero => intro _; rfl
        | succ n ih =>
          intro a
          rw [eles, List.filter_cons, if_pos (by simp), ih]
      have fmon : (monL m).filter (· ≠ .endTurn) = monL m := by cases m <;> rfl
      have fend : ∀ e, (endL e).filter (· ≠ .endTurn) = [] := by intro e; cases e <;> rfl
      have frep : ∀ (k : Nat) (l : List Ev), (rep k l).filter (· ≠ .endTurn) = rep k (l.filter (· ≠ .endTurn)) := by
        intro k l
        induction k with
        | zero => rfl
        | succ k ih => simp only [rep, List.filter_append, ih]
      have flast : (if 0 < s.last then monL m ++ eles 0 s.last else []).filter (· ≠ .endTurn) =
          (if 0 < s.last then monL m ++ eles 0 s.last else []) := by
        split
        · rw [List.filter_append, feles, fmon]
        · rfl
      congr 1
      rw [List.filter_append, flast]
      simp only [List.filter_append, frep, feles, fmon, fend, Bool.false_and]
      simp [endL]

/-! ### Counters -/

/-- The counters of a particle. -/
structure Ctr where
  atTurn : Nat
  atElement : Nat
  deriving DecidableEq, Repr

/-- `increment_at_element`, `increment_at_turn`; local_particle_custom_api.h:67-84. -/
def Ctr.apply (c : Ctr) : Ev → Ctr
  | .ele _ => { c with atElement := c.atElement + 1 }
  | .endTurn => ⟨c.atTurn + 1, 0⟩
  | _ => c

/-- Counters after a sequence of actions. -/
def counters (c : Ctr) (tr : List Ev) : Ctr := tr.foldl Ctr.apply c

theorem counters_append (c : Ctr) (l l' : List Ev) : counters c (l ++ l') = counters (counters c l) l' :=
  List.foldl_append

theorem counters_mon (c : Ctr) (m : Bool) : counters c (monL m) = c := by cases m <;> rfl

theorem counters_walk (L : Nat) (m : Bool) (t a n : Nat) (hL : 0 < L) (ha : a < L) :
    counters ⟨t, a⟩ (walk L m a n) = ⟨t + (a + n) / L, (a + n) % L⟩ := by
  induction n generalizing t a with
  | zero =>
    show (⟨t, a⟩ : Ctr) = _
    rw [Nat.add_zero, Nat.div_eq_of_lt ha, Nat.mod_eq_of_lt ha]; rfl
  | succ n ih =>
    rw [walk]
    show counters ⟨t, a + 1⟩ _ = _
    by_cases h : a + 1 = L
    · rw [if_pos h]
      show counters ⟨t + 1, 0⟩ _ = _
      have hm : counters ⟨t + 1, 0⟩ (if 0 < n then monL m else []) = ⟨t + 1, 0⟩ := by
        split
        · exact counters_mon _ _
        · rfl
      rw [counters_append, hm, ih (t + 1) 0 hL]
      have e : a + (n + 1) = n + L := by omega
      rw [e, Nat.add_div_right _ hL, Nat.add_mod_right, Nat.zero_add]
      congr 1
      omega
    · rw [if_neg h, ih t (a + 1) (by omega), show a + 1 + n = a + (n + 1) by omega]

/-- **C18, counters.**  A particle that starts with `at_element` on the start element has, after
tracking, `at_turn` increased by the number of times the end of the line was crossed and `at_element`
on the stop element. -/
theorem C18_counters (L : Nat) (m : Bool) (t a n : Nat) (hL : 0 < L) (ha : a < L) :
    counters ⟨t, a⟩ (walkFrom L m a n) = ⟨t + (a + n) / L, (a + n) % L⟩ := by
  unfold walkFrom
  rw [if_neg (by omega), counters_append, counters_mon, counters_walk L m t a n hL ha]

theorem counters_walk_at (L : Nat) (m : Bool) (t a n : Nat) (hL : 0 < L) (ha : a < L) (pre post : List Ev) (i : Nat)
    (h : walk L m a n = pre ++ .ele i :: post) : (counters ⟨t, a⟩ pre).atElement = i := by
  induction n generalizing t a pre with
  | zero => rw [walk] at h; simp at h
  | succ n ih =>
    rw [walk] at h
    cases pre with
    | nil =>
      simp only [List.nil_append, List.cons.injEq, Ev.ele.injEq] at h
      exact h.1
    | cons e pre =>
      simp only [List.cons_append, List.cons.injEq] at h
      obtain ⟨rfl, h⟩ := h
      show (counters ⟨t, a + 1⟩ pre).atElement = i
      by_cases hc : a + 1 = L
      · rw [if_pos hc] at h
        cases pre with
        | nil => simp at h
        | cons e2 pre =>
          simp only [List.cons_append, List.cons.injEq] at h
          obtain ⟨rfl, h⟩ := h
          show (counters ⟨t + 1, 0⟩ pre).atElement = i
          by_cases hn : 0 < n
          · rw [if_pos hn] at h
            cases m with
            | false => exact ih (t + 1) 0 hL pre h
            | true =>
              cases pre with
              | nil => simp [monL] at h
              | cons e3 pre =>
                simp only [monL, if_true, List.cons_append, List.nil_append, List.cons.injEq] at h
                obtain ⟨rfl, h⟩ := h
                exact ih (t + 1) 0 hL pre h
          · rw [if_neg hn] at h
            exact ih (t + 1) 0 hL pre h
      · rw [if_neg hc] at h
        exact ih t (a + 1) (by omega) pre h

/-- **C18, counters during tracking.**  At the moment an element is traversed, `at_element` is the
index of this element. -/
theorem C18_at_element_during_tracking (L : Nat) (m : Bool) (t a n : Nat) (hL : 0 < L) (ha : a < L)
    (pre post : List Ev) (i : Nat) (h : walkFrom L m a n = pre ++ .ele i :: post) :
    (counters ⟨t, a⟩ pre).atElement = i := by
  unfold walkFrom at h
  rw [if_neg (by omega)] at h
  cases m with
  | false => exact counters_walk_at L false t a n hL ha pre post i (by simpa [monL] using h)
  | true =>
    cases pre with
    | nil => simp [monL] at h
    | cons e pre =>
      simp only [monL, if_true, List.cons_append, List.nil_append, List.cons.injEq] at h
      obtain ⟨rfl, h⟩ := h
      exact counters_walk_at L true t a n hL ha pre post i h

/-- **C18, monitor size.**  The monitor created by `turn_by_turn_monitor=True` has exactly one place
for each record that is taken. -/
theorem C18_monitor_size (L a : Nat) (startAt : Option Nat) (args : Args) (s : Segs) (e : Bool)
    (h1 : startElement L startAt args = some a) (h2 : splitTurns L a args = some s) :
    ∃ tr, track L false true e startAt args = some tr ∧ tr.count .mon = monitorTurns s := by
  refine ⟨_, track_fwd L a true e startAt args s h1 h2, ?_⟩
  have celes : ∀ (n a : Nat), (eles a n).count .mon = 0 := by
    intro n
    induction n with
    | zero => intro _; rfl
    | succ n ih => intro a; rw [eles, List.count_cons, ih]; simp
  have cend : ∀ e, (endL e).count .mon = 0 := by intro e; cases e <;> rfl
  have crep : ∀ (k : Nat) (l : List Ev), (rep k l).count .mon = k * l.count .mon := by
    intro k l
    induction k with
    | zero => simp [rep]
    | succ k ih => rw [rep, List.count_append, ih, Nat.succ_mul]; omega
  have c1 : (monL true).count .mon = 1 := rfl
  simp only [List.count_append, crep, celes, cend, c1]
  unfold monitorTurns
  split
  · simp only [List.count_append, celes, c1]; omega
  · simp only [List.count_nil]; omega

/-! ## C19: backtracking -/

/-- The elements (and crossings of the end of the line) of a trace. -/
def motion (tr : List Ev) : List Ev := tr.filter (· ≠ .mon)

theorem motion_append (l l' : List Ev) : motion (l ++ l') = motion l ++ motion l' := List.filter_append l l'
theorem motion_mon (m : Bool) : motion (monL m) = [] := by cases m <;> rfl
theorem motion_end (e : Bool) : motion (endL e) = endL e := by cases e <;> rfl
theorem motion_ele (i : Nat) (l : List Ev) : motion (.ele i :: l) = .ele i :: motion l := rfl
theorem motion_eles (a n : Nat) : motion (eles a n) = eles a n := by
  induction n generalizing a with
  | zero => rfl
  | succ n ih => rw [eles, motion_ele, ih]
theorem motion_elesBack (a n : Nat) : motion (elesBack a n) = elesBack a n := by
  induction n with
  | zero => rfl
  | succ n ih => rw [elesBack, motion_ele, ih]
theorem motion_rep (k : Nat) (l : List Ev) : motion (rep k l) = rep k (motion l) := by
  induction k with
  | zero => rfl
  | succ k ih => rw [rep, motion_append, ih]; rfl

theorem rep_succ' {α : Type} (k : Nat) (l : List α) : rep (k + 1) l = rep k l ++ l := by
  rw [rep_add, rep_one]

theorem reverse_rep {α : Type} (k : Nat) (l : List α) : (rep k l).reverse = rep k l.reverse := by
  induction k with
  | zero => rfl
  | succ k ih => rw [rep_succ', List.reverse_append, ih]; rfl

theorem reverse_endL (e : Bool) : (endL e).reverse = endL e := by cases e <;> rfl

/-- The call consists of one segment of the line, or of full turns only. -/
def OneSegmentOrFullTurns (L a : Nat) (s : Segs) : Prop :=
  (s.mid = 0 ∧ s.last = 0) ∨ (a = 0 ∧ s.first = L ∧ s.last = 0)

/-- **C19 (partial).**  Backtracking over one segment of the line, or over any number of full turns,
undoes the actions of forward tracking with the same arguments in exactly the reverse order.
Missing: ranges that wrap around the end of the line, see `C19_wrap_violated`. -/
theorem C19_reverse_order_partial (L a : Nat) (m m' e : Bool) (startAt : Option Nat) (args : Args) (s : Segs)
    (h1 : startElement L startAt args = some a) (h2 : splitTurns L a args = some s)
    (hs : OneSegmentOrFullTurns L a s) :
    ∃ fwd bwd, track L false m e startAt args = some fwd ∧ track L true m' e startAt args = some bwd ∧
      motion bwd = (motion fwd).reverse := by
  refine ⟨_, endL (e && (s.first + a == L)) ++ elesBack a s.first ++ monL m' ++
      rep s.mid (endL e ++ elesBack 0 L ++ monL m'), track_fwd L a m e startAt args s h1 h2, ?_, ?_⟩
  · unfold track
    rw [h1]
    simp only [Option.bind_eq_bind, Option.bind_some, h2, kernel_back, rep_one]
    have hl : s.last = 0 := by rcases hs with h | h <;> omega
    rw [hl, if_neg (Nat.lt_irrefl 0), List.append_nil]
    congr 2
    split
    · rfl
    · have : s.mid = 0 := by omega
      rw [this]; rfl
  · have hl : s.last = 0 := by rcases hs with h | h <;> omega
    rw [hl, if_neg (Nat.lt_irrefl 0)]
    simp only [motion_append, motion_rep, motion_end, motion_mon, motion_elesBack, motion_eles,
      List.append_nil, List.nil_append, List.reverse_append, reverse_rep, reverse_endL, eles_reverse]
    rcases hs with h | ⟨ha, hf, _⟩
    · simp [h.1, rep]
    · subst ha
      have hb : (s.first + 0 == L) = true := by simp [hf]
      rw [hb, Bool.and_true, hf]
      rw [← rep, rep_succ']

/-- **C19 violated.**  A range that wraps around the end of the line: the elements before and after the
end of the line are backtracked in the wrong order. -/
theorem C19_wrap_violated :
    track 3 false false true none ⟨some 2, none, some 2, none⟩ = some [.ele 2, .endTurn, .ele 0] ∧
    track 3 true false true none ⟨some 2, none, some 2, none⟩ = some [.endTurn, .ele 2, .ele 0] := by
  decide

/-- A particle: coordinates, counters and path length. -/
structure Pt (X K : Type) where
  x : X
  atTurn : Int
  atElement : Int
  s : K

/-- What the line is made of: the map of each element and its inverse, its length, whether `s` is
reset at the end of the turn. -/
structure Ring (X K : Type) where
  map : Nat → X → X
  inv : Nat → X → X
  len : Nat → K
  resetS : Bool

variable {X K : Type} [AddCommGroup K]

/-- Position of element `i`: sum of the lengths of the elements before. -/
def Ring.pos (R : Ring X K) : Nat → K
  | 0 => 0
  | i + 1 => R.pos i + R.len i

/-- Forward action; local_particle_custom_api.h:67-84. -/
def Ring.fwd (R : Ring X K) (p : Pt X K) : Ev → Pt X K
  | .ele i => { p with x := R.map i p.x, s := p.s + R.len i, atElement := p.atElement + 1 }
  | .endTurn => { p with atTurn := p.atTurn + 1, atElement := 0, s := if R.resetS then 0 else p.s }
  | _ => p

/-- Action in backtracking: the inverse element, or `increment_at_turn_backtrack`
(local_particle_custom_api.h:88-101); `L` elements, line length `pos L`. -/
def Ring.bwd (R : Ring X K) (L : Nat) (p : Pt X K) : Ev → Pt X K
  | .ele i => { p with x := R.inv i p.x, s := p.s - R.len i, atElement := p.atElement - 1 }
  | .endTurn => { p with atTurn := p.atTurn - 1, atElement := L, s := if R.resetS then R.pos L else p.s }
  | _ => p

/-- `at_element` (and `s`, when it is reset at each turn) agree with the position in the line. -/
def Ring.At (R : Ring X K) (p : Pt X K) (a : Nat) : Prop :=
  p.atElement = a ∧ (R.resetS = true → p.s = R.pos a)

theorem fwd_eles (R : Ring X K) (a n : Nat) (p : Pt X K) (h : R.At p a) :
    R.At ((eles a n).foldl R.fwd p) (a + n) := by
  induction n generalizing a p with
  | zero => exact h
  | succ n ih =>
    rw [eles, List.foldl_cons, show a + (n + 1) = a + 1 + n by omega]
    apply ih
    refine ⟨?_, ?_⟩
    · show p.atElement + 1 = ((a + 1 : Nat) : Int)
      rw [h.1]; push_cast; rfl
    · intro hr
      show p.s + R.len a = R.pos a + R.len a
      rw [h.2 hr]

theorem undo_eles (R : Ring X K) (L : Nat) (hinv : ∀ i x, R.inv i (R.map i x) = x) (a n : Nat) (p : Pt X K) :
    (elesBack a n).foldl (R.bwd L) ((eles a n).foldl R.fwd p) = p := by
  induction n generalizing a p with
  | zero => rfl
  | succ n ih =>
    rw [eles_append a n 1, List.foldl_append, elesBack, List.foldl_cons]
    show (elesBack a n).foldl (R.bwd L) (R.bwd L (R.fwd ((eles a n).foldl R.fwd p) (.ele (a + n))) (.ele (a + n))) = p
    have : ∀ q : Pt X K, R.bwd L (R.fwd q (.ele (a + n))) (.ele (a + n)) = q := by
      intro q
      simp only [Ring.fwd, Ring.bwd, hinv]
      obtain ⟨x, t, e, s⟩ := q
      simp
    rw [this, ih]

theorem undo_turn (R : Ring X K) (L : Nat) (hinv : ∀ i x, R.inv i (R.map i x) = x) (a : Nat) (p : Pt X K)
    (e : Bool) (n : Nat) (he : e = true → a + n = L) (h : R.At p a) :
    (endL e ++ elesBack a n).foldl (R.bwd L) ((eles a n ++ endL e).foldl R.fwd p) = p := by
  rw [List.foldl_append, List.foldl_append]
  have hq := fwd_eles R a n p h
  cases e with
  | false =>
    show (elesBack a n).foldl (R.bwd L) ((eles a n).foldl R.fwd p) = p
    exact undo_eles R L hinv a n p
  | true =>
    have hL := he rfl
    rw [hL] at hq
    have : (endL true).foldl (R.bwd L) ((endL true).foldl R.fwd ((eles a n).foldl R.fwd p)) =
        (eles a n).foldl R.fwd p := by
      generalize (eles a n).foldl R.fwd p = q at hq ⊢
      obtain ⟨x, t, el, s⟩ := q
      obtain ⟨h1, h2⟩ := hq
      simp only at h1 h2
      simp only [endL, if_true, List.foldl_cons, List.foldl_nil, Ring.fwd, Ring.bwd]
      cases hr : R.resetS with
      | false => simp [h1]
      | true => simp [h1, h2 hr]
    rw [this]
    exact undo_eles R L hinv a n p

theorem undo_turns (R : Ring X K) (L : Nat) (hinv : ∀ i x, R.inv i (R.map i x) = x) (p : Pt X K)
    (e : Bool) (k : Nat) (h : R.At p 0) (hk : e = true ∨ k ≤ 1) :
    (rep k (endL e ++ elesBack 0 L)).foldl (R.bwd L) ((rep k (eles 0 L ++ endL e)).foldl R.fwd p) = p := by
  induction k generalizing p with
  | zero => rfl
  | succ k ih =>
    rw [rep_succ' k (endL e ++ elesBack 0 L), rep, List.foldl_append (l := rep k (endL e ++ elesBack 0 L)),
      List.foldl_append (l' := rep k (eles 0 L ++ endL e))]
    have hturn := undo_turn R L hinv 0 p e L (by intro; omega) h
    cases k with
    | zero => exact hturn
    | succ k =>
      have he : e = true := by rcases hk with h | h <;> [exact h; omega]
      have hat : R.At ((eles 0 L ++ endL e).foldl R.fwd p) 0 := by
        rw [List.foldl_append, he]
        have hq := fwd_eles R 0 L p h
        refine ⟨rfl, ?_⟩
        intro hr
        simp [endL, Ring.fwd, hr, Ring.pos]
      rw [ih _ hat (Or.inl he)]
      exact hturn

theorem foldl_motion_fwd (R : Ring X K) (tr : List Ev) (p : Pt X K) :
    (motion tr).foldl R.fwd p = tr.foldl R.fwd p := by
  induction tr generalizing p with
  | nil => rfl
  | cons e tr ih =>
    have h : motion (e :: tr) = (if e = .mon then motion tr else e :: motion tr) := by
      unfold motion
      rw [List.filter_cons]
      by_cases he : e = .mon <;> simp [he]
    rw [h]
    split
    · rename_i he; subst he; exact ih p
    · exact ih _

theorem foldl_motion_bwd (R : Ring X K) (L : Nat) (tr : List Ev) (p : Pt X K) :
    (motion tr).foldl (R.bwd L) p = tr.foldl (R.bwd L) p := by
  induction tr generalizing p with
  | nil => rfl
  | cons e tr ih =>
    have h : motion (e :: tr) = (if e = .mon then motion tr else e :: motion tr) := by
      unfold motion
      rw [List.filter_cons]
      by_cases he : e = .mon <;> simp [he]
    rw [h]
    split
    · rename_i he; subst he; exact ih p
    · exact ih _

/-- **C19 (partial), round trip.**  Tracking forward and then backtracking with the same arguments
gives back the particle: coordinates (when the map of every element is undone by its backtracking
map), `at_turn`, `at_element` and path length.  Same restriction on the range as above. -/
theorem C19_round_trip_partial (R : Ring X K) (L a : Nat) (m m' : Bool) (startAt : Option Nat) (args : Args)
    (s : Segs) (hinv : ∀ i x, R.inv i (R.map i x) = x)
    (h1 : startElement L startAt args = some a) (h2 : splitTurns L a args = some s)
    (hs : OneSegmentOrFullTurns L a s) (p : Pt X K) (hp : R.At p a) :
    ∃ fwd bwd, track L false m true startAt args = some fwd ∧ track L true m' true startAt args = some bwd ∧
      bwd.foldl (R.bwd L) (fwd.foldl R.fwd p) = p := by
  obtain ⟨fwd, bwd, hf, hb, hrev⟩ := C19_reverse_order_partial L a m m' true startAt args s h1 h2 hs
  refine ⟨fwd, bwd, hf, hb, ?_⟩
  rw [← foldl_motion_bwd, hrev, ← foldl_motion_fwd]
  rw [track_fwd L a m true startAt args s h1 h2] at hf
  have hl : s.last = 0 := by rcases hs with h | h <;> omega
  rw [hl, if_neg (Nat.lt_irrefl 0), List.append_nil] at hf
  rw [← Option.some.inj hf]
  simp only [motion_append, motion_rep, motion_end, motion_mon, motion_eles, List.nil_append,
    Bool.true_and]
  rcases hs with h | ⟨ha, hf0, _⟩
  · rw [h.1]
    simp only [rep, List.append_nil, List.reverse_append, reverse_endL, eles_reverse]
    apply undo_turn R L hinv a p _ s.first _ hp
    intro hb
    have : s.first + a = L := by simpa using hb
    omega
  · subst ha
    have hb : (s.first + 0 == L) = true := by simp [hf0]
    rw [hb, hf0, ← rep, reverse_rep, List.reverse_append, reverse_endL, eles_reverse]
    exact undo_turns R L hinv p true _ hp (Or.inl rfl)

/-- Three turns of a line of two elements; one segment in the middle of a line. -/
example : OneSegmentOrFullTurns 2 0 ⟨2, 2, 0⟩ ∧ splitTurns 2 0 ⟨some 0, none, none, some 3⟩ = some ⟨2, 2, 0⟩ ∧
    splitTurns 5 1 ⟨some 1, some 4, none, none⟩ = some ⟨3, 0, 0⟩ ∧ OneSegmentOrFullTurns 5 1 ⟨3, 0, 0⟩ :=
  ⟨Or.inr ⟨rfl, rfl, rfl⟩, by decide, by decide, Or.inl ⟨rfl, rfl⟩⟩

/-! ## C20: progress display -/

/-- A first turn from `a`. -/
def firstTurn (L : Nat) (m0 m : Bool) (a : Nat) : List Ev := monL (m && (m0 || a == 0)) ++ eles a (L - a) ++ [.endTurn]
/-- A full turn. -/
def fullTurn (L : Nat) (m : Bool) : List Ev := monL m ++ eles 0 L ++ [.endTurn]
/-- The last turn up to `b`. -/
def lastTurn (m : Bool) (b : Nat) : List Ev := monL m ++ eles 0 b

theorem firstTurn_zero (L : Nat) (m0 m : Bool) : firstTurn L m0 m 0 = fullTurn L m := by
  simp [firstTurn, fullTurn]

/-- What a tracking function does for the requests that occur (start `a` inside the line, stop point
`none` or strictly inside); `m0`: a record is taken at the beginning of a first turn that does not
start at element 0. -/
structure Turns (T : Option Nat → Args → Option (List Ev)) (L : Nat) (m0 m : Bool) : Prop where
  toEnd : ∀ a st n, a < L → 0 < n → st.getD 0 = a →
    T none ⟨st, none, none, some n⟩ = some (firstTurn L m0 m a ++ rep (n - 1) (fullTurn L m))
  oneTurn : ∀ a st b, a < b → b < L → st.getD 0 = a →
    T none ⟨st, some b, none, some 1⟩ = some (monL (m && (m0 || a == 0)) ++ eles a (b - a))
  toStop : ∀ a st b n, a < L → 0 < b → b < L → 0 < n → st.getD 0 = a → (a < b → 1 < n) →
    T none ⟨st, some b, none, some n⟩ = some (firstTurn L m0 m a ++
      rep ((if a < b then n else n + 1) - 2) (fullTurn L m) ++ lastTurn m b)

theorem track_turns (L : Nat) (m : Bool) : Turns (track L false m true) L true m := by
  constructor
  · intro a st n ha hn hst
    have h1 : startElement L none ⟨st, none, none, some n⟩ = some a := by
      simp only [startElement, Option.bind_eq_bind, Option.bind_some, hst]
      rw [if_pos (by omega)]
    have h2 : splitTurns L a ⟨st, none, none, some n⟩ = some ⟨L - a, n - 1, 0⟩ := by
      simp only [splitTurns, Option.getD_some]
      rw [if_neg (by omega)]
    rw [track_fwd L a m true none _ _ h1 h2]
    have hb : (L - a + a == L) = true := by simp; omega
    simp [firstTurn, fullTurn, endL, hb]
  · intro a st b hab hb hst
    have h1 : startElement L none ⟨st, some b, none, some 1⟩ = some a := by
      simp only [startElement, Option.bind_eq_bind, Option.bind_some, hst]
      rw [if_pos (by omega)]
    have h2 : splitTurns L a ⟨st, some b, none, some 1⟩ = some ⟨b - a, 0, 0⟩ := by
      simp only [splitTurns, Option.getD_some]
      rw [if_neg (by omega), if_neg (by omega), if_neg (by omega : ¬ b ≤ a), if_pos rfl]
    rw [track_fwd L a m true none _ _ h1 h2]
    have hb : (b - a + a == L) = false := by simp; omega
    simp [endL, hb, rep]
  · intro a st b n ha hb0 hb hn hst hone
    have h1 : startElement L none ⟨st, some b, none, some n⟩ = some a := by
      simp only [startElement, Option.bind_eq_bind, Option.bind_some, hst]
      rw [if_pos (by omega)]
    have h2 : splitTurns L a ⟨st, some b, none, some n⟩ =
        some ⟨L - a, (if a < b then n else n + 1) - 2, b⟩ := by
      simp only [splitTurns, Option.getD_some]
      rw [if_neg (by omega), if_neg (by omega)]
      by_cases hab : a < b
      · rw [if_neg (by omega : ¬ b ≤ a), if_neg (by have := hone hab; omega), if_pos hab]
      · rw [if_pos (by omega : b ≤ a), if_neg (by omega), if_neg hab]
    rw [track_fwd L a m true none _ _ h1 h2]
    have hb : (L - a + a == L) = true := by simp; omega
    simp [firstTurn, fullTurn, lastTurn, endL, hb, hb0]

/-- The last batches, from turn `ii > 0` on. -/
theorem batchLoop_tail {T : Option Nat → Args → Option (List Ev)} {L : Nat} {m0 m : Bool} (hT : Turns T L m0 m)
    (hL : 0 < L) (st : Option Nat) (stop : Option Nat) (nt : Option Nat) (hstop : ∀ b, stop = some b → 0 < b ∧ b < L)
    (N B : Nat) (hB : 0 < B) (k ii r : Nat) (hii : 0 < ii) (hN : N = ii + k * B + r) (hr : 0 < r) (hrB : r ≤ B)
    (hdvd : ii % B = 0) :
    batchLoop T ⟨st, stop, none, nt⟩ N B ii none (k + 1) = some
      (rep (k * B + r - 1) (fullTurn L m) ++ (match stop with | none => fullTurn L m | some b => lastTurn m b)) := by
  have hmod : N % B = r % B := by
    rw [hN, Nat.add_mod, Nat.add_mod ii, hdvd]
    simp
  induction k generalizing ii with
  | zero =>
    have hlast : ii + B ≥ N := by omega
    have hturns : (if N % B = 0 then B else N % B) = r := by
      rw [hmod]
      rcases Nat.lt_or_ge r B with h | h
      · rw [Nat.mod_eq_of_lt h, if_neg (by omega)]
      · have : r = B := by omega
        subst this
        simp
    have hargs : batchArgs ⟨st, stop, none, nt⟩ N B ii = ⟨none, stop, none, some r⟩ := by
      unfold batchArgs
      rw [if_neg (by omega), if_neg (by omega), if_pos hlast, hturns]
    unfold batchLoop
    rw [hargs]
    simp only [batchLoop, Option.bind_eq_bind, Option.bind_some, List.append_nil, Nat.zero_mul, Nat.zero_add]
    cases stop with
    | none =>
      rw [hT.toEnd 0 none r hL hr rfl]
      simp only [Option.bind_some, firstTurn_zero]
      congr 1
      rw [← rep, rep_succ']
    | some b =>
      obtain ⟨hb0, hbL⟩ := hstop b rfl
      by_cases hr1 : r = 1
      · subst hr1
        rw [hT.oneTurn 0 none b hb0 hbL rfl]
        simp [rep, lastTurn]
      · rw [hT.toStop 0 none b r hL hb0 hbL hr rfl (by intro; omega)]
        simp only [Option.bind_some, firstTurn_zero, if_pos hb0]
        congr 1
        rw [show r - 1 = (r - 2) + 1 by omega, rep]
  | succ k ih =>
    have hk : (k + 1) * B = k * B + B := Nat.succ_mul k B
    have hnot : ¬ (ii + B ≥ N) := by omega
    have hargs : batchArgs ⟨st, stop, none, nt⟩ N B ii = ⟨none, none, none, some B⟩ := by
      unfold batchArgs
      rw [if_neg (by omega), if_neg (by omega), if_neg hnot]
    rw [batchLoop, hargs, hT.toEnd 0 none B hL hB rfl, ih (ii + B) (by omega) (by omega) (by rw [Nat.add_mod_right]; exact hdvd)]
    simp only [Option.bind_eq_bind, Option.bind_some, firstTurn_zero]
    congr 1
    rw [← List.append_assoc]
    congr 1
    rw [← rep, ← rep_add]
    congr 1
    omega

/-- **C20 (partial).**  For every batch size, tracking with the progress bar performs exactly the same
actions (elements, end-of-turn actions, turn-by-turn records) as tracking without, for every start
element, every stop element inside the line (or none) and every number of turns.  Holds for every
tracking function with the turn structure `Turns`.
Missing: `ele_stop = 0`, `ele_stop = len(line)` and particles created with `start_tracking_at_element`, see
the violations below. -/
theorem C20_progress_general_partial {T : Option Nat → Args → Option (List Ev)} {L : Nat} {m0 m : Bool}
    (hT : Turns T L m0 m) (hL : 0 < L) (st stop : Option Nat) (n B : Nat) (hB : 0 < B) (hn : 0 < n)
    (hst : st.getD 0 < L) (hstop : ∀ b, stop = some b → 0 < b ∧ b < L) :
    trackProgress T L B none ⟨st, stop, none, some n⟩ = T none ⟨st, stop, none, some n⟩ ∧
    (T none ⟨st, stop, none, some n⟩).isSome := by
  -- number of turns that have elements
  obtain ⟨N, hN⟩ : ∃ N, N = progressTurns L ⟨st, stop, none, some n⟩ n := ⟨_, rfl⟩
  have hN1 : 0 < N := by rw [hN]; unfold progressTurns; split <;> omega
  have hsome : (T none ⟨st, stop, none, some n⟩).isSome := by
    cases stop with
    | none => rw [hT.toEnd _ st n hst hn rfl]; rfl
    | some b =>
      obtain ⟨hb0, hbL⟩ := hstop b rfl
      by_cases h : st.getD 0 < b ∧ n = 1
      · obtain ⟨h, rfl⟩ := h
        rw [hT.oneTurn _ st b h hbL rfl]; rfl
      · rw [hT.toStop _ st b n hst hb0 hbL hn rfl (by intro hc; omega)]; rfl
  refine ⟨?_, hsome⟩
  unfold trackProgress
  simp only [Option.bind_eq_bind, Option.bind_some]
  rw [if_neg (by omega), ← hN]
  by_cases hone : B ≥ N
  · have hk : (N + B - 1) / B = 1 := by
      rw [Nat.div_eq_of_lt_le] <;> omega
    rw [hk]
    have hargs : batchArgs ⟨st, stop, none, some n⟩ N B 0 = ⟨st, stop, none, some n⟩ := by
      unfold batchArgs
      rw [if_pos (by omega)]
    simp only [batchLoop, hargs, Option.bind_eq_bind, Option.bind_some, List.append_nil]
    cases T none ⟨st, stop, none, some n⟩ <;> rfl
  · -- several batches
    obtain ⟨k, r, hkr, hr0, hrB⟩ : ∃ k r, N = B + k * B + r ∧ 0 < r ∧ r ≤ B := by
      have hdm := Nat.div_add_mod (N - B - 1) B
      have hml := Nat.mod_lt (N - B - 1) hB
      refine ⟨(N - B - 1) / B, (N - B - 1) % B + 1, ?_, by omega, by omega⟩
      rw [Nat.mul_comm] at hdm
      omega
    have hcount : (N + B - 1) / B = k + 1 + 1 := by
      have h1 : (k + 1 + 1) * B = k * B + 2 * B := Nat.add_mul k 2 B
      have h2 : (k + 1 + 1 + 1) * B = k * B + 3 * B := Nat.add_mul k 3 B
      apply Nat.div_eq_of_lt_le <;> omega
    rw [hcount]
    have hargs : batchArgs ⟨st, stop, none, some n⟩ N B 0 = ⟨st, none, none, some B⟩ := by
      unfold batchArgs
      rw [if_neg (by omega), if_pos rfl]
    rw [batchLoop, hargs, hT.toEnd _ st B hst hB rfl]
    simp only [Option.bind_eq_bind, Option.bind_some, Nat.zero_add]
    rw [batchLoop_tail hT hL st stop (some n) hstop N B hB k B r hB hkr hr0 hrB (Nat.mod_self B)]
    simp only [Option.bind_some]
    cases stop with
    | none =>
      have hNn : N = n := by
        rw [hN]; unfold progressTurns
        simp only [Option.getD_none]
        rw [if_neg (by omega)]
      rw [hT.toEnd _ st n hst hn rfl]
      congr 1
      rw [List.append_assoc]
      congr 1
      simp only
      rw [← rep_succ', ← rep_add]
      congr 1
      omega
    | some b =>
      obtain ⟨hb0, hbL⟩ := hstop b rfl
      have hNn : N = if st.getD 0 < b then n else n + 1 := by
        rw [hN]; unfold progressTurns
        simp only [Option.getD_some]
        by_cases h : st.getD 0 < b
        · rw [if_neg (by omega), if_pos h]
        · rw [if_pos (by omega), if_neg h]
      have hmulti : st.getD 0 < b → 1 < n := by
        intro h
        rw [if_pos h] at hNn
        omega
      rw [hT.toStop _ st b n hst hb0 hbL hn rfl hmulti, ← hNn]
      congr 1
      simp only
      rw [List.append_assoc, ← List.append_assoc _ _ (lastTurn m b), ← rep_add, ← List.append_assoc]
      congr 2
      congr 1
      omega

/-- **C20 (partial)** for the usual (non-collective) tracking. -/
theorem C20_progress_partial (L : Nat) (m : Bool) (hL : 0 < L) (st stop : Option Nat) (n B : Nat) (hB : 0 < B)
    (hn : 0 < n) (hst : st.getD 0 < L) (hstop : ∀ b, stop = some b → 0 < b ∧ b < L) :
    trackProgress (track L false m true) L B none ⟨st, stop, none, some n⟩ =
      track L false m true none ⟨st, stop, none, some n⟩ ∧
    (track L false m true none ⟨st, stop, none, some n⟩).isSome :=
  C20_progress_general_partial (track_turns L m) hL st stop n B hB hn hst hstop

/-- The number of places in the monitor created for tracking with a progress bar is the one used
without. -/
theorem C20_monitor_size_partial (L a : Nat) (stop : Option Nat) (n : Nat) (s : Segs) (hn : 0 < n) (ha : a < L)
    (hstop : ∀ b, stop = some b → 0 < b ∧ b < L)
    (h2 : splitTurns L a ⟨some a, stop, none, some n⟩ = some s) :
    progressTurns L ⟨some a, stop, none, some n⟩ n = monitorTurns s := by
  unfold splitTurns at h2
  simp only [Option.getD_some] at h2
  rw [if_neg (by omega)] at h2
  unfold progressTurns
  simp only [Option.getD_some]
  cases stop with
  | none =>
    simp only at h2
    have := Option.some.inj h2
    subst this
    simp only [monitorTurns, Option.getD_none]
    rw [if_neg (by omega), if_neg (by omega)]
    omega
  | some b =>
    obtain ⟨hb0, hbL⟩ := hstop b rfl
    simp only at h2
    rw [if_neg (by omega)] at h2
    simp only [Option.getD_some]
    by_cases hba : b ≤ a
    · rw [if_pos hba, if_neg (by omega)] at h2
      have := Option.some.inj h2
      subst this
      rw [if_pos hba]
      simp only [monitorTurns]
      rw [if_pos hb0]
      omega
    · rw [if_neg hba] at h2
      rw [if_neg hba]
      by_cases h1 : n = 1
      · rw [if_pos h1] at h2
        have := Option.some.inj h2
        subst this
        simp [monitorTurns, h1]
      · rw [if_neg h1] at h2
        have := Option.some.inj h2
        subst this
        simp only [monitorTurns]
        rw [if_pos hb0]
        omega

/-- Seven turns in batches of three, wrapping around. -/
example : trackProgress (track 3 false true true) 3 3 none ⟨some 2, some 1, none, some 6⟩ =
    track 3 false true true none ⟨some 2, some 1, none, some 6⟩ := by decide

/-- **C20 violated**, `ele_stop = 0`: with one turn per batch an extra turn is tracked. -/
theorem C20_stop_zero_violated :
    track 1 false false true none ⟨some 0, some 0, none, some 1⟩ = some [.ele 0, .endTurn] ∧
    trackProgress (track 1 false false true) 1 1 none ⟨some 0, some 0, none, some 1⟩ =
      some [.ele 0, .endTurn, .ele 0, .endTurn] := by decide

/-- **C20 violated**, `ele_stop = len(line)`: the result depends on the batch size. -/
theorem C20_stop_at_end_violated :
    track 1 false false true none ⟨some 0, some 1, none, some 2⟩ = some [.ele 0, .endTurn, .ele 0] ∧
    trackProgress (track 1 false false true) 1 1 none ⟨some 0, some 1, none, some 2⟩ =
      some [.ele 0, .endTurn, .ele 0, .endTurn] := by decide

/-- **C20 violated**, particles with `start_tracking_at_element = 2`, `ele_stop = 1`: without progress bar
a full turn more is tracked than with it. -/
theorem C20_start_at_element_violated :
    track 3 false false true (some 2) ⟨some 0, some 1, none, some 2⟩ =
      some [.ele 2, .endTurn, .ele 0, .ele 1, .ele 2, .endTurn, .ele 0] ∧
    trackProgress (track 3 false false true) 3 1 (some 2) ⟨some 0, some 1, none, some 2⟩ =
      some [.ele 2, .endTurn, .ele 0] := by decide

end Verif.Tracker
