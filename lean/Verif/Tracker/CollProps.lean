import Verif.Tracker.CollLemmas

/-!
# C21, C22: collective tracking, hold and resume
-/

namespace Verif.Tracker

/-! ## C21: parts -/

/-- Elements of a part. -/
def Part.elements : Part → List Nat
  | .nc a b => List.range' a (b - a)
  | .co i => [i]

theorem chain_elements (lo hi : Nat) (ps : List Part) (h : chain lo ps hi) :
    ps.flatMap Part.elements = List.range' lo (hi - lo) := by
  induction ps generalizing lo with
  | nil => have : lo = hi := h; subst this; simp
  | cons p ps ih =>
    obtain ⟨h1, h2, h3⟩ := h
    have hle := chain_le _ _ _ h3
    rw [List.flatMap_cons, ih _ h3]
    have hp : p.elements = List.range' lo (p.hi - lo) := by
      cases p with
      | nc a b => have : a = lo := h1; subst this; rfl
      | co i =>
        have : i = lo := h1
        subst this
        show [i] = List.range' i (i + 1 - i)
        rw [show i + 1 - i = 1 by omega]; rfl
    rw [hp]
    have e : p.hi = lo + (p.hi - lo) := by omega
    rw [show List.range' p.hi (hi - p.hi) = List.range' (lo + (p.hi - lo)) (hi - p.hi) by rw [← e],
      List.range'_append_1]
    congr 1
    omega

/-- **C21, parts.**  The parts, one after the other, are the elements of the line in order; no part is
empty; a non-collective part holds only non-collective elements and a collective element is a part of
its own. -/
theorem C21_parts (line : List Bool) :
    (splitParts line).1.flatMap Part.elements = List.range line.length ∧
    (∀ p ∈ (splitParts line).1, p.elements ≠ []) ∧
    (∀ p ∈ (splitParts line).1, ∀ i ∈ p.elements, line[i]? = some true → p = .co i) ∧
    (∀ i, Part.co i ∈ (splitParts line).1 → line[i]? = some true) := by
  obtain ⟨h1, _, h3⟩ := splitParts_spec line
  refine ⟨?_, ?_, ?_, ?_⟩
  · rw [chain_elements 0 _ _ h1, List.range_eq_range']; rfl
  · intro p hp
    have hlt := (chain_lower _ _ _ h1 p hp).2
    cases p with
    | nc a b =>
      have : a < b := hlt
      intro hc
      have := congrArg List.length hc
      simp [Part.elements] at this
      omega
    | co i => intro hc; simp [Part.elements] at hc
  · intro p hp i hi ht
    have hk := h3 p hp
    cases p with
    | nc a b =>
      simp only [Part.elements, List.mem_range'_1] at hi
      have := hk i hi.1 (by omega)
      rw [this] at ht
      exact absurd ht (by simp)
    | co j =>
      simp only [Part.elements, List.mem_singleton] at hi
      rw [hi]
  · intro i hi
    exact h3 _ hi

example : (splitParts [false, true, true, false, false]).1 = [.nc 0 1, .co 1, .co 2, .nc 3 5] := by decide

/-! ## C21: tracking -/

/-- One turn of a session. -/
def turnTrace (s : Session) (tt : Nat) : List Ev :=
  monL (s.mon && (s.start == 0 || decide (0 < tt))) ++
    eles (startA s tt) ((stopB s tt).getD s.L - startA s tt)

theorem turnsLoop_step {s : Session} (wf : WF s) (ord : Ordered s) (htv : s.timeVars = false) (k tt : Nat) :
    turnsLoop s (k + 1) tt none [] =
      if (stopB s tt).isSome then some ⟨turnTrace s tt, none, []⟩
      else (turnsLoop s k (tt + 1) none []).map (fun r => { r with evs := turnTrace s tt ++ endL s.endAct ++ r.evs }) := by
  rw [turnsLoop]
  have hp := partsLoop_spec wf ord tt s.parts 0 0 rfl wf.chain (fun _ _ => Nat.zero_le _)
  simp only [Option.any_none, Bool.false_eq_true, if_false, htv, Bool.false_and, Option.map_none, hp,
    Option.bind_eq_bind, Option.bind_some, Nat.zero_max, Bool.not_false, Bool.and_true, List.append_nil,
    track_endTurn]
  cases hB : stopB s tt with
  | none =>
    simp only [Option.isSome_none, Option.getD_none, turnTrace, hB, Bool.false_eq_true, if_false]
    cases turnsLoop s k (tt + 1) none [] <;> rfl
  | some b =>
    simp only [Option.isSome_some, Option.getD_some, turnTrace, hB, if_true]
    rfl

theorem stopB_eq_some {s : Session} {tt b : Nat} (h : s.stop = some b) (h1 : b < s.L) (h2 : tt + 1 = s.numTurns) :
    stopB s tt = some b := by
  unfold stopB
  rw [h]
  exact if_pos ⟨h1, h2⟩

theorem stopB_eq_none {s : Session} {tt : Nat} (h : ∀ b, s.stop = some b → ¬ (b < s.L ∧ tt + 1 = s.numTurns)) :
    stopB s tt = none := by
  unfold stopB
  cases hs : s.stop with
  | none => rfl
  | some b => exact if_neg (h b hs)

/-- A full turn, the last turn. -/
theorem turns_tail {s : Session} (wf : WF s) (ord : Ordered s) (htv : s.timeVars = false) (he : s.endAct = true)
    (B : Nat) (hB : B = s.stop.getD s.L) (hBL : B ≤ s.L)
    (k tt : Nat) (htt : 0 < tt) (hk : tt + (k + 1) = s.numTurns) :
    turnsLoop s (k + 1) tt none [] = some
      ⟨rep k (fullTurn s.L s.mon) ++ (if B < s.L then lastTurn s.mon B else fullTurn s.L s.mon), none, []⟩ := by
  have hA : ∀ t, 0 < t → startA s t = 0 := by intro t h; unfold startA; rw [if_neg (by omega)]
  have hmon : ∀ t, 0 < t → (s.mon && (s.start == 0 || decide (0 < t))) = s.mon := by
    intro t h; simp [h]
  induction k generalizing tt with
  | zero =>
    rw [turnsLoop_step wf ord htv]
    have hlast : stopB s tt = if B < s.L then some B else none := by
      cases hs : s.stop with
      | none =>
        rw [hs] at hB
        simp only [Option.getD_none] at hB
        rw [if_neg (by omega)]
        exact stopB_eq_none (by intro b hb; rw [hs] at hb; exact absurd hb (by simp))
      | some b =>
        rw [hs] at hB
        simp only [Option.getD_some] at hB
        subst hB
        by_cases h : B < s.L
        · rw [if_pos h]
          exact stopB_eq_some hs h (by omega)
        · rw [if_neg h]
          refine stopB_eq_none ?_
          intro b hb hc
          rw [hs] at hb
          have := Option.some.inj hb
          omega
    by_cases h : B < s.L
    · rw [if_pos h] at hlast
      rw [hlast, if_pos h]
      simp only [Option.isSome_some, if_true, turnTrace, hlast, hA tt htt, hmon tt htt, Option.getD_some,
        Nat.sub_zero, rep, List.nil_append, lastTurn]
    · rw [if_neg h] at hlast
      rw [hlast, if_neg h]
      simp only [Option.isSome_none, Bool.false_eq_true, if_false, turnTrace, hlast, hA tt htt, hmon tt htt,
        Option.getD_none, Nat.sub_zero, rep, List.nil_append, turnsLoop, Option.map_some, List.append_nil, he,
        fullTurn]
      rfl
  | succ k ih =>
    rw [turnsLoop_step wf ord htv]
    have hno : stopB s tt = none := stopB_eq_none (by intro b _ hc; omega)
    rw [hno, ih (tt + 1) (by omega) (by omega)]
    simp only [Option.isSome_none, Bool.false_eq_true, if_false, Option.map_some, turnTrace, hno, hA tt htt,
      hmon tt htt, Option.getD_none, Nat.sub_zero, he]
    congr 2
    have hf : fullTurn s.L s.mon = monL s.mon ++ eles 0 s.L ++ endL true := rfl
    rw [rep, hf]
    simp only [List.append_assoc]

theorem turns_all {s : Session} (wf : WF s) (ord : Ordered s) (htv : s.timeVars = false) (he : s.endAct = true)
    (hn : 0 < s.numTurns) (hBL : s.stop.getD s.L ≤ s.L) (hB0 : 0 < s.stop.getD s.L) (N : Nat)
    (hN : s.start + N = (s.numTurns - 1) * s.L + s.stop.getD s.L) :
    turnsLoop s s.numTurns 0 none [] = some ⟨monL (s.mon && s.start == 0) ++ walk s.L s.mon s.start N, none, []⟩ := by
  obtain ⟨B, hB⟩ : ∃ B, B = s.stop.getD s.L := ⟨_, rfl⟩
  have hst := wf.start
  have hL : 0 < s.L := by omega
  rw [← hB] at hN hBL hB0
  obtain ⟨k, hk⟩ : ∃ k, s.numTurns = k + 1 := ⟨s.numTurns - 1, by omega⟩
  rw [hk, turnsLoop_step wf ord htv]
  rw [hk, show k + 1 - 1 = k by omega] at hN
  have hA : startA s 0 = s.start := rfl
  have hm : (s.mon && (s.start == 0 || decide (0 < 0))) = (s.mon && s.start == 0) := by simp
  by_cases hone : k = 0 ∧ B < s.L
  · obtain ⟨rfl, hlt⟩ := hone
    have hstop : stopB s 0 = some B := by
      cases hs : s.stop with
      | none => rw [hs] at hB; simp only [Option.getD_none] at hB; omega
      | some b =>
        rw [hs] at hB
        simp only [Option.getD_some] at hB
        subst hB
        exact stopB_eq_some hs hlt (by omega)
    rw [hstop]
    simp only [Option.isSome_some, if_true, turnTrace, hstop, Option.getD_some, hA, hm]
    have hord := ord.le B hstop
    rw [walk_inside _ _ _ _ (by omega), show B - s.start = N by omega]
  · have hstop : stopB s 0 = none := by
      refine stopB_eq_none ?_
      intro b hb hc
      rw [hb] at hB
      simp only [Option.getD_some] at hB
      exact hone ⟨by omega, by omega⟩
    rw [hstop]
    simp only [Option.isSome_none, Bool.false_eq_true, if_false]
    have hend : endL s.endAct = [.endTurn] := by rw [he]; rfl
    have hturn : turnTrace s 0 = monL (s.mon && s.start == 0) ++ eles s.start (s.L - s.start) := by
      simp only [turnTrace, hstop, Option.getD_none, hA, hm]
    rw [hend, hturn]
    cases k with
    | zero =>
      have hBL' : B = s.L := by
        have : ¬ B < s.L := fun h => hone ⟨rfl, h⟩
        omega
      have hN' : N = s.L - s.start + 0 := by omega
      rw [hN', walk_cross _ _ _ _ hst]
      simp [turnsLoop, walk]
    | succ k =>
      rw [turns_tail wf ord htv he B hB hBL k 1 (by omega) (by omega)]
      simp only [Option.map_some]
      by_cases hlt : B < s.L
      · have hN' : N = s.L - s.start + (k * s.L + B) := by
          have : (k + 1) * s.L = k * s.L + s.L := Nat.succ_mul k s.L
          omega
        rw [hN', walk_cross _ _ _ _ hst, walk_turns _ _ k B hL hlt, if_pos hlt, if_pos hB0]
        simp [fullTurn, lastTurn]
      · have hBe : B = s.L := by omega
        have hN' : N = s.L - s.start + ((k + 1) * s.L + 0) := by omega
        rw [hN', walk_cross _ _ _ _ hst, walk_turns _ _ (k + 1) 0 hL hL, if_neg hlt, if_neg (Nat.lt_irrefl 0),
          rep_succ']
        simp [fullTurn]

/-- The start element of a track call. -/
def startOf (startAt : Option Nat) (args : Args) : Nat := startAt.getD (args.start.getD 0)

theorem prepare_spec (L : Nat) (startAt : Option Nat) (args : Args) (start : Nat) (stop : Option Nat) (n : Nat)
    (h : prepare L startAt args = some (start, stop, n)) :
    start = startOf startAt args ∧ start < L ∧ 0 < n ∧ stop.getD L ≤ L ∧ 0 < stop.getD L ∧
    start + requested L start args = (n - 1) * L + stop.getD L ∧
    (n = 1 → start ≤ stop.getD L) ∧
    (n = 1 → stop = some start → args.numElements = some 0) := by
  unfold prepare at h
  obtain ⟨st, hst1, hst2⟩ : ∃ st, st = startOf startAt args ∧
      (if ¬ st < L then none else (prepareTurns L st args).bind fun r =>
        match r.2 with
        | some b => if b ≤ L then (if r.1 ≥ 1 then some (st, r.2, r.1) else none) else none
        | none => if r.1 ≥ 1 then some (st, r.2, r.1) else none) = some (start, stop, n) := by
    cases startAt with
    | none => exact ⟨args.start.getD 0, rfl, h⟩
    | some v =>
      simp only at h
      split at h
      · exact absurd h (by simp)
      · exact ⟨v, rfl, h⟩
  clear h
  split at hst2
  · exact absurd hst2 (by simp)
  rename_i hlt
  have hlt : st < L := by omega
  obtain ⟨⟨n', stop'⟩, h1, h2⟩ := Option.bind_eq_some_iff.mp hst2
  unfold prepareTurns at h1
  simp only at h2
  have hfin : start = st ∧ stop = stop' ∧ n = n' ∧ 1 ≤ n' ∧ (∀ b, stop' = some b → b ≤ L) := by
    cases stop' with
    | none =>
      simp only at h2
      split at h2
      · rename_i hn
        have := Option.some.inj h2
        simp only [Prod.mk.injEq] at this
        exact ⟨this.1.symm, this.2.1.symm, this.2.2.symm, hn, by intro b hb; simp at hb⟩
      · exact absurd h2 (by simp)
    | some b =>
      simp only at h2
      split at h2
      · rename_i hbL
        split at h2
        · rename_i hn
          have := Option.some.inj h2
          simp only [Prod.mk.injEq] at this
          exact ⟨this.1.symm, this.2.1.symm, this.2.2.symm, hn, by intro b' hb; have := Option.some.inj hb; omega⟩
        · exact absurd h2 (by simp)
      · exact absurd h2 (by simp)
  obtain ⟨rfl, rfl, rfl, hn1, hbL⟩ := hfin
  refine ⟨hst1, hlt, hn1, ?_⟩
  unfold requested
  cases hm : args.numElements with
  | some m =>
    rw [hm] at h1
    simp only at h1 ⊢
    split at h1
    · exact absurd h1 (by simp)
    · split at h1
      · exact absurd h1 (by simp)
      · have hdm := Nat.div_add_mod (start + m) L
        have hml := Nat.mod_lt (start + m) (show 0 < L by omega)
        split at h1
        · rename_i hr
          have := Option.some.inj h1
          simp only [Prod.mk.injEq] at this
          obtain ⟨hq, rfl⟩ := this
          rw [hq, hr] at hdm
          refine ⟨Nat.le_refl L, by simp only [Option.getD_none]; omega, ?_, ?_, ?_⟩
          · obtain ⟨k, rfl⟩ : ∃ k, n = k + 1 := ⟨n - 1, by omega⟩
            rw [Nat.mul_comm, Nat.succ_mul] at hdm
            simp only [Option.getD_none, Nat.add_sub_cancel]
            omega
          · intro _; simp only [Option.getD_none]; omega
          · intro _ hc; exact absurd hc (by simp)
        · rename_i hr
          have := Option.some.inj h1
          simp only [Prod.mk.injEq] at this
          obtain ⟨hq, rfl⟩ := this
          subst hq
          refine ⟨by simp only [Option.getD_some]; omega, by simp only [Option.getD_some]; omega, ?_, ?_, ?_⟩
          · simp only [Option.getD_some, Nat.add_sub_cancel]
            rw [Nat.mul_comm] at hdm
            omega
          · intro h1
            have hq0 : (start + m) / L = 0 := by omega
            rw [hq0] at hdm
            simp only [Option.getD_some]
            omega
          · intro h1 h2
            have hq0 : (start + m) / L = 0 := by omega
            rw [hq0] at hdm
            have := Option.some.inj h2
            congr 1
            omega
  | none =>
    rw [hm] at h1
    simp only at h1 ⊢
    generalize args.numTurns.getD 1 = t at h1 ⊢
    split at h1
    · exact absurd h1 (by simp)
    · rename_i ht
      by_cases hs0 : args.stop = some 0
      · rw [hs0] at h1
        simp only [if_true] at h1
        have := Option.some.inj h1
        simp only [Prod.mk.injEq] at this
        obtain ⟨rfl, rfl⟩ := this
        rw [hs0]
        simp only [distance, Option.getD_none]
        refine ⟨Nat.le_refl L, by omega, ?_, fun _ => by omega, fun _ hc => absurd hc (by simp)⟩
        rw [if_neg (by omega)]
        omega
      · rw [if_neg hs0] at h1
        cases hs : args.stop with
        | none =>
          rw [hs] at h1
          simp only at h1
          have := Option.some.inj h1
          simp only [Prod.mk.injEq] at this
          obtain ⟨rfl, rfl⟩ := this
          simp only [distance, Option.getD_none]
          refine ⟨Nat.le_refl L, by omega, ?_, fun _ => by omega, fun _ hc => absurd hc (by simp)⟩
          omega
        | some b =>
          rw [hs] at h1
          simp only at h1
          have := Option.some.inj h1
          simp only [Prod.mk.injEq] at this
          obtain ⟨hnn, rfl⟩ := this
          have hbL' := hbL b rfl
          have hb0 : b ≠ 0 := fun hc => hs0 (by rw [hs, hc])
          simp only [distance, Option.getD_some]
          refine ⟨hbL', by omega, ?_, ?_, ?_⟩
          · by_cases hba : b ≤ start
            · rw [if_pos hba] at hnn
              rw [if_neg (by omega)]
              subst hnn
              obtain ⟨k, rfl⟩ : ∃ k, t = k + 1 := ⟨t - 1, by omega⟩
              simp only [Nat.add_sub_cancel, Nat.succ_mul]
              omega
            · rw [if_neg hba] at hnn
              rw [if_pos (by omega)]
              subst hnn
              omega
          · intro h1
            by_cases hba : b ≤ start
            · rw [if_pos hba] at hnn; omega
            · omega
          · intro h1 h2
            have := Option.some.inj h2
            rw [if_pos (by omega)] at hnn
            omega

/-- **C21 (partial).**  Collective tracking, for every arrangement of collective elements, traverses
exactly the requested elements in order, with the end-of-turn actions each time the end of the line is
crossed; the turn-by-turn record is taken at the beginning of each turn (the first turn only if it
starts at element 0).
Missing: a request of zero elements starting on a collective element, see `C21_zero_elements_violated`. -/
theorem C21_collective_tracking_partial (line : List Bool) (m : Bool) (startAt : Option Nat) (args : Args)
    (h : (prepare line.length startAt args).isSome)
    (hz : args.numElements = some 0 → line[startOf startAt args]? ≠ some true) :
    trackCollective line m true startAt args =
      some (monL (m && startOf startAt args == 0) ++
        walk line.length m (startOf startAt args) (requested line.length (startOf startAt args) args)) := by
  obtain ⟨⟨start, stop, n⟩, hp⟩ := Option.isSome_iff_exists.mp h
  obtain ⟨h1, h2, h3, h4, h5, h6, h7, h8⟩ := prepare_spec _ _ _ _ _ _ hp
  obtain ⟨k1, k2, k3⟩ := splitParts_spec line
  unfold trackCollective newSession
  simp only [hp, Option.bind_eq_bind, Option.bind_some]
  obtain ⟨s, hs⟩ : ∃ s : Session, s = ⟨line.length, (splitParts line).1, (splitParts line).2.1, (splitParts line).2.2,
    start, stop, n, m, false, true⟩ := ⟨_, rfl⟩
  have hnum : n = s.numTurns := by rw [hs]
  rw [← hs]
  conv => lhs; rw [hnum]
  have hN : s.start = start ∧ s.stop = stop ∧ s.numTurns = n ∧ s.L = line.length ∧ s.mon = m := by
    rw [hs]; exact ⟨rfl, rfl, rfl, rfl, rfl⟩
  obtain ⟨e1, e2, e3, e4, e5⟩ := hN
  have wf : WF s := by
    constructor
    · rw [hs]; exact k1
    · rw [hs]; exact k2
    · rw [e1, e4]; exact h2
  have ord : Ordered s := by
    constructor
    · intro b hb
      obtain ⟨q1, q2, q3⟩ := stopB_some hb
      rw [e2] at q1
      rw [e3] at q3
      have := h7 (by omega)
      rw [q1] at this
      rw [e1]
      exact this
    · intro b hb hsb hidx
      obtain ⟨q1, q2, q3⟩ := stopB_some hb
      rw [e2] at q1
      rw [e3] at q3
      rw [e1] at hsb
      have hz' := hz (h8 (by omega) (by rw [q1, hsb]))
      rw [← h1, hsb] at hz'
      rw [e4] at q2
      obtain ⟨k, p, g1, g2, g3⟩ := k2 b q2
      have hidx' : (splitParts line).2.2[b]? = some none := by rw [hs] at hidx; exact hidx
      rcases g3 with ⟨_, _, _, _, _, g⟩ | ⟨rfl, _⟩
      · rw [hidx'] at g; exact absurd g (by simp)
      · exact hz' (k3 _ (List.mem_of_getElem? g2))
  have := turns_all wf ord (by rw [hs]) (by rw [hs]) (by rw [e3]; exact h3) (by rw [e2, e4]; exact h4)
    (by rw [e2, e4]; exact h5) (requested line.length start args) (by rw [e1, e2, e3, e4]; exact h6)
  rw [this]
  simp only [Option.bind_some, e1, e4, e5, h1]

/-- A line with two collective elements, two and a half turns. -/
example : trackCollective [false, true, true, false] false true none ⟨some 2, some 1, none, some 2⟩ =
    some [.ele 2, .ele 3, .endTurn, .ele 0, .ele 1, .ele 2, .ele 3, .endTurn, .ele 0] ∧
    (prepare 4 none ⟨some 2, some 1, none, some 2⟩).isSome := by decide

theorem motion_walk (L : Nat) (m : Bool) (a n : Nat) : motion (walk L m a n) = walk L false a n := by
  induction n generalizing a with
  | zero => rfl
  | succ n ih =>
    rw [walk, walk]
    show Ev.ele a :: motion _ = _
    congr 1
    by_cases h : a + 1 = L
    · rw [if_pos h, if_pos h]
      show Ev.endTurn :: motion _ = _
      rw [motion_append, ih]
      congr 2
      · split
        · rw [motion_mon]; rfl
        · rfl
    · rw [if_neg h, if_neg h, ih]

/-- **C21 (partial), comparison.**  Apart from the monitor, collective tracking does the same as
tracking a line with the same number of elements and no collective ones. -/
theorem C21_same_as_non_collective_partial (line : List Bool) (m m' : Bool) (startAt : Option Nat) (args : Args)
    (tr tr' : List Ev) (h : trackCollective line m true startAt args = some tr)
    (h' : track line.length false m' true startAt args = some tr')
    (hz : args.numElements = some 0 → line[startOf startAt args]? ≠ some true)
    (hstop : args.stop ≠ some line.length ∨ args.numTurns.getD 1 = 1) :
    motion tr = motion tr' := by
  have hp : (prepare line.length startAt args).isSome := by
    cases hp : prepare line.length startAt args with
    | none => simp [trackCollective, newSession, hp] at h
    | some v => rfl
  rw [C21_collective_tracking_partial line m startAt args hp hz] at h
  obtain ⟨⟨start, stop, n⟩, hp'⟩ := Option.isSome_iff_exists.mp hp
  obtain ⟨h1, h2, _⟩ := prepare_spec _ _ _ _ _ _ hp'
  have hse : startElement line.length startAt args = some (startOf startAt args) := by
    cases hs : startElement line.length startAt args with
    | none => simp [track, hs] at h'
    | some v =>
      congr 1
      cases startAt with
      | none =>
        simp only [startElement, Option.bind_eq_bind, Option.bind_some] at hs
        split at hs
        · exact (Option.some.inj hs).symm
        · exact absurd hs (by simp)
      | some w =>
        simp only [startElement, Option.bind_eq_bind] at hs
        split at hs
        · exact absurd hs (by simp)
        · simp only [Option.bind_some] at hs
          split at hs
          · exact (Option.some.inj hs).symm
          · exact absurd hs (by simp)
  have ht := C18_elements_tracked_partial line.length m' startAt args _ tr' (by omega) hse h'
    (by rcases hstop with h | h
        · exact Or.inl h
        · exact Or.inr ⟨by omega, h⟩)
  rw [← Option.some.inj h, ht]
  unfold walkFrom
  rw [if_neg (by omega), motion_append, motion_append, motion_mon, motion_mon, motion_walk, motion_walk]

/-- **C21 violated.**  A request of zero elements that starts on a collective element tracks all the
remaining elements of the turn. -/
theorem C21_zero_elements_violated :
    trackCollective [false, true, false] false true none ⟨some 1, none, some 0, none⟩ =
      some [.ele 1, .ele 2, .endTurn] ∧
    track 3 false false true none ⟨some 1, none, some 0, none⟩ = some [] := by decide

/-- **C21 violated**, monitor: the first record is missing when collective tracking starts inside the
line. -/
theorem C21_monitor_violated :
    (trackCollective [true, false] true true none ⟨some 1, none, none, some 2⟩).map (fun t => t.count .mon) = some 1 ∧
    (track 2 false true true none ⟨some 1, none, none, some 2⟩).map (fun t => t.count .mon) = some 2 := by decide

/-! ## C20 for collective tracking -/

theorem collective_turns (line : List Bool) (m : Bool) :
    Turns (trackCollective line m true) line.length false m := by
  have hmon : ∀ a : Nat, (m && (false || a == 0)) = (m && a == 0) := by intro a; simp
  constructor
  · intro a st n ha hn hst
    have hp : (prepare line.length none ⟨st, none, none, some n⟩).isSome := by
      simp only [prepare, prepareTurns, Option.bind_some, hst, Option.getD_some]
      rw [if_neg (by omega), if_neg (by omega)]
      simp
      omega
    have hso : startOf none ⟨st, none, none, some n⟩ = a := hst
    rw [C21_collective_tracking_partial line m none _ hp (by simp), hso]
    congr 1
    have hreq : requested line.length a ⟨st, none, none, some n⟩ = line.length - a + ((n - 1) * line.length + 0) := rfl
    rw [hreq, walk_cross _ _ _ _ ha, walk_turns _ _ (n - 1) 0 (by omega) (by omega)]
    simp [firstTurn, fullTurn]
  · intro a st b hab hb hst
    have hp : (prepare line.length none ⟨st, some b, none, some 1⟩).isSome := by
      simp only [prepare, prepareTurns, Option.bind_some, hst, Option.getD_some]
      rw [if_neg (by omega), if_neg (by omega), if_neg (by simp; omega)]
      simp only [Option.bind_some]
      rw [if_neg (by omega : ¬ b ≤ a), if_pos (by omega), if_pos (by omega)]
      rfl
    have hso : startOf none ⟨st, some b, none, some 1⟩ = a := hst
    rw [C21_collective_tracking_partial line m none _ hp (by simp), hso]
    congr 1
    have hreq : requested line.length a ⟨st, some b, none, some 1⟩ = b - a := by
      simp only [requested, distance, Option.getD_some]
      rw [if_pos hab]; omega
    rw [hreq, walk_inside _ _ _ _ (by omega), hmon]
  · intro a st b n ha hb0 hb hn hst hone
    have hp : (prepare line.length none ⟨st, some b, none, some n⟩).isSome := by
      simp only [prepare, prepareTurns, Option.bind_some, hst, Option.getD_some]
      rw [if_neg (by omega), if_neg (by omega), if_neg (by simp; omega)]
      simp only [Option.bind_some]
      rw [if_pos (by omega), if_pos (by split <;> omega)]
      rfl
    have hso : startOf none ⟨st, some b, none, some n⟩ = a := hst
    rw [C21_collective_tracking_partial line m none _ hp (by simp), hso]
    congr 1
    have hreq : requested line.length a ⟨st, some b, none, some n⟩ =
        line.length - a + (((if a < b then n else n + 1) - 2) * line.length + b) := by
      simp only [requested, distance, Option.getD_some]
      by_cases hab : a < b
      · have := hone hab
        obtain ⟨u, rfl⟩ : ∃ u, n = u + 2 := ⟨n - 2, by omega⟩
        rw [if_pos hab, if_pos hab, show u + 2 - 1 = u + 1 by omega, Nat.succ_mul, Nat.add_sub_cancel]
        omega
      · rw [if_neg hab, if_neg hab, show n + 1 - 2 = n - 1 by omega]
        omega
    rw [hreq, walk_cross _ _ _ _ ha, walk_turns _ _ _ b (by omega) hb, if_pos hb0]
    simp [firstTurn, fullTurn, lastTurn]

/-- **C20 (partial)** for collective tracking. -/
theorem C20_progress_collective_partial (line : List Bool) (m : Bool) (st stop : Option Nat) (n B : Nat) (hB : 0 < B)
    (hn : 0 < n) (hst : st.getD 0 < line.length) (hstop : ∀ b, stop = some b → 0 < b ∧ b < line.length) :
    trackProgress (trackCollective line m true) line.length B none ⟨st, stop, none, some n⟩ =
      trackCollective line m true none ⟨st, stop, none, some n⟩ ∧
    (trackCollective line m true none ⟨st, stop, none, some n⟩).isSome :=
  C20_progress_general_partial (collective_turns line m) (by omega) st stop n B hB hn hst hstop

/-! ## C22: hold and resume -/

/-- What was finally done: the attempts that put the session on hold are removed. -/
def applied (tr : List Ev) : List Ev := tr.filter (fun e => match e with | .held _ => false | _ => true)

theorem applied_append (l l' : List Ev) : applied (l ++ l') = applied l ++ applied l' := List.filter_append l l'

theorem applied_eles (a n : Nat) : applied (eles a n) = eles a n := by
  induction n generalizing a with
  | zero => rfl
  | succ n ih =>
    rw [eles]
    show Ev.ele a :: applied _ = _
    rw [ih]

theorem applied_track (L : Nat) (m e : Bool) (startAt : Option Nat) (args : Args) (tr : List Ev)
    (h : track L false m e startAt args = some tr) : applied tr = tr := by
  cases h1 : startElement L startAt args with
  | none => simp [track, h1] at h
  | some a =>
    cases h2 : splitTurns L a args with
    | none => simp [track, h1, h2] at h
    | some s =>
      rw [track_fwd L a m e startAt args s h1 h2] at h
      rw [← Option.some.inj h]
      have am : ∀ m, applied (monL m) = monL m := by intro m; cases m <;> rfl
      have ae : ∀ e, applied (endL e) = endL e := by intro e; cases e <;> rfl
      have ar : ∀ k l, applied (rep k l) = rep k (applied l) := by
        intro k l
        induction k with
        | zero => rfl
        | succ k ih => rw [rep, applied_append, ih]; rfl
      have al : applied (if 0 < s.last then monL m ++ eles 0 s.last else []) =
          (if 0 < s.last then monL m ++ eles 0 s.last else []) := by
        split
        · rw [applied_append, am, applied_eles]
        · rfl
      simp only [applied_append, am, ae, ar, al, applied_eles]

theorem applied_trackNC (s : Session) (ps pe : Nat) (a b c : Option Nat) (tr : List Ev)
    (h : trackNC s ps pe a b c = some tr) : applied tr = tr := by
  unfold trackNC at h
  cases c with
  | some n => exact applied_track _ _ _ _ _ _ h
  | none =>
    have key : ∀ x y : Nat, (if y < x then none else
        track s.L false false false none ⟨some x, none, some (y - x), none⟩) = some tr → applied tr = tr := by
      intro x y h
      split at h
      · exact absurd h (by simp)
      · exact applied_track _ _ _ _ _ _ h
    exact key _ _ h

/-- A part answered with a hold, or exactly as without any hold. -/
theorem trackPart_hold (s : Session) (p : Part) (tt ipp : Nat) (hs : List Bool) :
    (trackPart s p tt ipp hs = none ∧ trackPart s p tt ipp [] = none) ∨
    (∃ i hs', hs = true :: hs' ∧ trackPart s p tt ipp hs = some ⟨[.held i], false, false, hs', true⟩ ∧
      ∃ r, trackPart s p tt ipp [] = some r ∧ r.hold = false ∧ r.hs = []) ∨
    (∃ r hs', trackPart s p tt ipp [] = some r ∧ r.hold = false ∧ r.hs = [] ∧ applied r.evs = r.evs ∧
      trackPart s p tt ipp hs = some { r with hs := hs' } ∧ hs'.length ≤ hs.length) := by
  have hco : ∀ idx, (∃ i hs', hs = true :: hs' ∧ some (trackCo idx hs) = some ⟨[.held i], false, false, hs', true⟩ ∧
      ∃ r, some (trackCo idx []) = some r ∧ r.hold = false ∧ r.hs = []) ∨
    (∃ r hs', some (trackCo idx []) = some r ∧ r.hold = false ∧ r.hs = [] ∧ applied r.evs = r.evs ∧
      some (trackCo idx hs) = some { r with hs := hs' } ∧ hs'.length ≤ hs.length) := by
    intro idx
    cases hs with
    | nil => exact Or.inr ⟨trackCo idx [], [], rfl, rfl, rfl, rfl, rfl, Nat.le_refl _⟩
    | cons b hs =>
      cases b with
      | true => exact Or.inl ⟨idx, hs, rfl, rfl, _, rfl, rfl, rfl⟩
      | false => exact Or.inr ⟨trackCo idx [], hs, rfl, rfl, rfl, rfl, rfl, Nat.le_succ _⟩
  have hpure : ∀ (x : Option (List Ev)) (st sk : Bool), (∀ tr, x = some tr → applied tr = tr) →
      (((x.bind fun evs => some (⟨evs, st, sk, hs, false⟩ : PartResult)) = none ∧
        (x.bind fun evs => some (⟨evs, st, sk, [], false⟩ : PartResult)) = none) ∨
      (∃ r hs', (x.bind fun evs => some (⟨evs, st, sk, [], false⟩ : PartResult)) = some r ∧ r.hold = false ∧ r.hs = [] ∧
        applied r.evs = r.evs ∧ (x.bind fun evs => some (⟨evs, st, sk, hs, false⟩ : PartResult)) = some { r with hs := hs' } ∧
        hs'.length ≤ hs.length)) := by
    intro x st sk hx
    cases x with
    | none => exact Or.inl ⟨rfl, rfl⟩
    | some tr => exact Or.inr ⟨⟨tr, st, sk, [], false⟩, hs, rfl, rfl, rfl, hx tr rfl, rfl, Nat.le_refl _⟩
  unfold trackPart
  split
  · exact Or.inr (Or.inr ⟨⟨[], false, true, [], false⟩, hs, rfl, rfl, rfl, rfl, rfl, Nat.le_refl _⟩)
  · split
    · split
      · rcases hco _ with h | h
        · exact Or.inr (Or.inl h)
        · exact Or.inr (Or.inr h)
      · split
        · rcases hpure _ _ _ (fun tr h => applied_trackNC s _ _ _ _ _ tr h) with h | h
          · exact Or.inl h
          · exact Or.inr (Or.inr h)
        · rcases hpure _ _ _ (fun tr h => applied_trackNC s _ _ _ _ _ tr h) with h | h
          · exact Or.inl h
          · exact Or.inr (Or.inr h)
      · exact Or.inl ⟨rfl, rfl⟩
    · split
      · split
        · rcases hpure _ _ _ (fun tr h => applied_trackNC s _ _ _ _ _ tr h) with h | h
          · exact Or.inl h
          · exact Or.inr (Or.inr h)
        · exact Or.inl ⟨rfl, rfl⟩
        · exact Or.inr (Or.inr ⟨⟨[], true, false, [], false⟩, hs, rfl, rfl, rfl, rfl, rfl, Nat.le_refl _⟩)
      · split
        · rcases hpure _ _ _ (fun tr h => applied_trackNC s _ _ _ _ _ tr h) with h | h
          · exact Or.inl h
          · exact Or.inr (Or.inr h)
        · rcases hco _ with h | h
          · exact Or.inr (Or.inl h)
          · exact Or.inr (Or.inr h)

/-- Whether part `ipp` is skipped because the session was on hold at a later one. -/
def before (resume : Option Nat) (ipp : Nat) : Bool := resume.any (fun r => decide (ipp < r))

theorem partsLoop_cons (s : Session) (tt : Nat) (p : Part) (ps : List Part) (ipp : Nat) (resume : Option Nat) (hs : List Bool) :
    partsLoop s tt (p :: ps) ipp resume hs =
      if before resume ipp then partsLoop s tt ps (ipp + 1) resume hs
      else (trackPart s p tt ipp hs).bind fun r =>
        if r.hold then some ⟨r.evs, .hold ipp, r.hs⟩
        else if r.stop then some ⟨r.evs, .finished true, r.hs⟩
        else (partsLoop s tt ps (ipp + 1) none r.hs).bind fun rest =>
          some { rest with evs := r.evs ++ rest.evs } := by
  rw [partsLoop]; rfl

/-- Without any hold, the loop over the parts does not stop on hold, and nothing is attempted twice. -/
theorem partsLoop_nil (s : Session) (tt : Nat) (ps : List Part) (ipp : Nat) (resume : Option Nat) (u : LoopResult)
    (h : partsLoop s tt ps ipp resume [] = some u) :
    (∃ b, u.out = .finished b) ∧ u.hs = [] ∧ applied u.evs = u.evs := by
  induction ps generalizing ipp resume u with
  | nil =>
    rw [partsLoop] at h
    have := Option.some.inj h
    subst this
    exact ⟨⟨false, rfl⟩, rfl, rfl⟩
  | cons p ps ih =>
    rw [partsLoop_cons] at h
    split at h
    · exact ih _ _ _ h
    · rcases trackPart_hold s p tt ipp [] with ⟨h1, _⟩ | ⟨_, _, h1, _⟩ | ⟨r, hs', h1, h2, h3, h4, _⟩
      · rw [h1] at h; exact absurd h (by simp)
      · exact absurd h1 (by simp)
      · rw [h1] at h
        simp only [Option.bind_some, h2, Bool.false_eq_true, if_false] at h
        split at h
        · have := Option.some.inj h
          subst this
          exact ⟨⟨true, rfl⟩, h3, h4⟩
        · rw [h3] at h
          obtain ⟨rest, hr, hr'⟩ := Option.bind_eq_some_iff.mp h
          have := Option.some.inj hr'
          subst this
          obtain ⟨g1, g2, g3⟩ := ih _ _ _ hr
          exact ⟨g1, g2, by show applied (r.evs ++ rest.evs) = _; rw [applied_append, h4, g3]⟩

/-- The loop over the parts with holds. -/
theorem partsLoop_hold (s : Session) (tt : Nat) (ps : List Part) (ipp : Nat) (resume : Option Nat) (hs : List Bool)
    (u : LoopResult) (hu : partsLoop s tt ps ipp resume [] = some u) :
    ∃ r, partsLoop s tt ps ipp resume hs = some r ∧
      ((r.out = u.out ∧ applied r.evs = u.evs ∧ r.hs.length ≤ hs.length) ∨
       (∃ ipp', r.out = .hold ipp' ∧ ipp ≤ ipp' ∧ (∀ q, resume = some q → q ≤ ipp') ∧ r.hs.length < hs.length ∧
         ∃ w, partsLoop s tt ps ipp (some ipp') [] = some w ∧ w.out = u.out ∧ applied r.evs ++ w.evs = u.evs)) := by
  induction ps generalizing ipp resume hs u with
  | nil =>
    rw [partsLoop] at hu
    have := Option.some.inj hu
    subst this
    exact ⟨⟨[], .finished false, hs⟩, by rw [partsLoop], Or.inl ⟨rfl, rfl, Nat.le_refl _⟩⟩
  | cons p ps ih =>
    rw [partsLoop_cons] at hu
    by_cases hb : before resume ipp = true
    · rw [if_pos hb] at hu
      obtain ⟨r, hr, hr'⟩ := ih (ipp + 1) resume hs u hu
      refine ⟨r, by rw [partsLoop_cons, if_pos hb]; exact hr, ?_⟩
      rcases hr' with h | ⟨ipp', h1, h2, h3, h4, w, h5, h6⟩
      · exact Or.inl h
      · refine Or.inr ⟨ipp', h1, by omega, h3, h4, w, ?_, h6⟩
        rw [partsLoop_cons, if_pos (by simp [before]; omega)]
        exact h5
    · rw [if_neg hb] at hu
      have hle : ∀ q, resume = some q → q ≤ ipp := by
        intro q hq
        subst hq
        simp [before] at hb
        exact hb
      rcases trackPart_hold s p tt ipp hs with ⟨_, h1⟩ | ⟨i, hs', h1, h2, r0, h3, h4, h5⟩ | ⟨r0, hs', h1, h2, h3, h4, h5, h6⟩
      · rw [h1] at hu; exact absurd hu (by simp)
      · -- the part puts the session on hold
        refine ⟨⟨[.held i], .hold ipp, hs'⟩, ?_, Or.inr ⟨ipp, rfl, Nat.le_refl _, hle, ?_, u, ?_, rfl, rfl⟩⟩
        · rw [partsLoop_cons, if_neg hb, h2]; rfl
        · rw [h1]; exact Nat.lt_succ_self _
        · rw [partsLoop_cons, if_neg (by simp [before])]
          exact hu
      · rw [h1] at hu
        simp only [Option.bind_some, h2, Bool.false_eq_true, if_false] at hu
        have hgo : partsLoop s tt (p :: ps) ipp resume hs =
            if r0.stop then some ⟨r0.evs, .finished true, hs'⟩
            else (partsLoop s tt ps (ipp + 1) none hs').bind fun rest =>
              some { rest with evs := r0.evs ++ rest.evs } := by
          rw [partsLoop_cons, if_neg hb, h5]
          simp only [Option.bind_some, h2, Bool.false_eq_true, if_false]
        by_cases hst : r0.stop = true
        · rw [if_pos hst] at hu
          have := Option.some.inj hu
          subst this
          refine ⟨⟨r0.evs, .finished true, hs'⟩, by rw [hgo, if_pos hst], Or.inl ⟨rfl, h4, h6⟩⟩
        · rw [if_neg hst, h3] at hu
          obtain ⟨rest, hr, hr'⟩ := Option.bind_eq_some_iff.mp hu
          have := Option.some.inj hr'
          subst this
          obtain ⟨q, hq, hq'⟩ := ih (ipp + 1) none hs' rest hr
          refine ⟨{ q with evs := r0.evs ++ q.evs }, ?_, ?_⟩
          · rw [hgo, if_neg hst, hq]; rfl
          · rcases hq' with ⟨g1, g2, g3⟩ | ⟨ipp', g1, g2, g3, g4, w, g5, g6, g7⟩
            · refine Or.inl ⟨g1, ?_, Nat.le_trans g3 h6⟩
              show applied (r0.evs ++ q.evs) = r0.evs ++ rest.evs
              rw [applied_append, h4, g2]
            · refine Or.inr ⟨ipp', g1, by omega, fun q hq => Nat.le_trans (hle q hq) (by omega), by
                show q.hs.length < hs.length; omega, w, ?_, g6, ?_⟩
              · rw [partsLoop_cons, if_pos (by simp [before]; omega)]
                exact g5
              · show applied (r0.evs ++ q.evs) ++ w.evs = r0.evs ++ rest.evs
                rw [applied_append, h4, List.append_assoc, g7]

theorem turnsLoop_succ (s : Session) (htv : s.timeVars = false) (k tt : Nat) (resume : Option (Nat × Nat)) (hs : List Bool) :
    turnsLoop s (k + 1) tt resume hs =
      if resume.any (fun r => decide (tt < r.1)) then turnsLoop s k (tt + 1) resume hs
      else (partsLoop s tt s.parts 0 (resume.map Prod.snd) hs).bind fun r =>
        let pre : List Ev := if s.mon && (s.start == 0 || decide (0 < tt)) &&
          !(resume.any (fun r => decide (tt = r.1))) then [.mon] else []
        match r.out with
        | .hold ipp => some ⟨pre ++ r.evs, some (tt, ipp), r.hs⟩
        | .finished true => some ⟨pre ++ r.evs, none, r.hs⟩
        | .finished false => (turnsLoop s k (tt + 1) none r.hs).bind fun rest =>
            some { rest with evs := pre ++ r.evs ++ endL s.endAct ++ rest.evs } := by
  rw [turnsLoop]
  split
  · rfl
  · simp only [htv, Bool.false_and, Bool.false_eq_true, if_false, List.append_nil, track_endTurn,
      Option.bind_eq_bind, Option.bind_some]
    rfl

/-- The loop over the turns with holds: it ends as without holds, or on hold at a later point from
which the remaining actions are the missing ones. -/
theorem turnsLoop_hold (s : Session) (htv : s.timeVars = false) (k tt : Nat) (resume : Option (Nat × Nat)) (hs : List Bool)
    (hres : ∀ q, resume = some q → tt ≤ q.1) (u : CallResult) (hu : turnsLoop s k tt resume [] = some u) :
    u.session = none ∧
    ∃ r, turnsLoop s k tt resume hs = some r ∧
      ((r.session = none ∧ applied r.evs = u.evs) ∨
       (∃ tt' ipp', r.session = some (tt', ipp') ∧ tt ≤ tt' ∧ r.hs.length < hs.length ∧
         ∃ w, turnsLoop s k tt (some (tt', ipp')) [] = some w ∧ applied r.evs ++ w.evs = u.evs)) := by
  induction k generalizing tt resume hs u with
  | zero =>
    rw [turnsLoop] at hu
    have := Option.some.inj hu
    subst this
    exact ⟨rfl, ⟨[], none, hs⟩, by rw [turnsLoop], Or.inl ⟨rfl, rfl⟩⟩
  | succ k ih =>
    rw [turnsLoop_succ s htv] at hu
    by_cases hb : resume.any (fun r => decide (tt < r.1)) = true
    · rw [if_pos hb] at hu
      have hres' : ∀ q, resume = some q → tt + 1 ≤ q.1 := by
        intro q hq
        subst hq
        have : tt < q.1 := by simpa using hb
        exact this
      obtain ⟨hn, r, hr, hr'⟩ := ih (tt + 1) resume hs hres' u hu
      refine ⟨hn, r, by rw [turnsLoop_succ s htv, if_pos hb]; exact hr, ?_⟩
      rcases hr' with h | ⟨tt', ipp', h1, h2, h3, w, h4, h5⟩
      · exact Or.inl h
      · refine Or.inr ⟨tt', ipp', h1, by omega, h3, w, ?_, h5⟩
        rw [turnsLoop_succ s htv, if_pos (by simp; omega)]
        exact h4
    · rw [if_neg hb] at hu
      obtain ⟨p, hp, hp'⟩ := Option.bind_eq_some_iff.mp hu
      obtain ⟨⟨bfin, hfin⟩, hphs, happ⟩ := partsLoop_nil s tt s.parts 0 _ p hp
      obtain ⟨q, hq, hq'⟩ := partsLoop_hold s tt s.parts 0 (resume.map Prod.snd) hs p hp
      have hwithin : ∀ ipp' : Nat, (some (tt, ipp')).any (fun r : Nat × Nat => decide (tt = r.1)) = true := by intro; simp
      generalize hpre : (if s.mon && (s.start == 0 || decide (0 < tt)) &&
          !(resume.any (fun r => decide (tt = r.1))) then [Ev.mon] else []) = pre at hp'
      have hapre : applied pre = pre := by
        rw [← hpre]
        split <;> rfl
      have hgo : turnsLoop s (k + 1) tt resume hs =
        match q.out with
        | .hold ipp => some ⟨pre ++ q.evs, some (tt, ipp), q.hs⟩
        | .finished true => some ⟨pre ++ q.evs, none, q.hs⟩
        | .finished false => (turnsLoop s k (tt + 1) none q.hs).bind fun rest =>
            some { rest with evs := pre ++ q.evs ++ endL s.endAct ++ rest.evs } := by
        rw [turnsLoop_succ s htv, if_neg hb, hq]
        simp only [Option.bind_some, hpre]
      have hae : applied (endL s.endAct) = endL s.endAct := by cases s.endAct <;> rfl
      rw [hfin] at hp'
      rcases hq' with ⟨g1, g2, g3⟩ | ⟨ipp', g1, g2, g3, g4, w, g5, g6, g7⟩
      · -- no hold in this turn
        rw [g1, hfin] at hgo
        cases bfin with
        | true =>
          simp only at hp' hgo
          have := Option.some.inj hp'
          subst this
          refine ⟨rfl, _, hgo, Or.inl ⟨rfl, ?_⟩⟩
          show applied (pre ++ q.evs) = pre ++ p.evs
          rw [applied_append, hapre, g2]
        | false =>
          simp only at hp' hgo
          rw [hphs] at hp'
          obtain ⟨rest, hr, hr'⟩ := Option.bind_eq_some_iff.mp hp'
          have := Option.some.inj hr'
          subst this
          obtain ⟨hn, z, hz, hz'⟩ := ih (tt + 1) none q.hs (by simp) rest hr
          refine ⟨hn, { z with evs := pre ++ q.evs ++ endL s.endAct ++ z.evs }, ?_, ?_⟩
          · rw [hgo, hz]; rfl
          · rcases hz' with ⟨h1, h2⟩ | ⟨tt', ipp', h1, h2, h3, w, h4, h5⟩
            · refine Or.inl ⟨h1, ?_⟩
              show applied (pre ++ q.evs ++ endL s.endAct ++ z.evs) = pre ++ p.evs ++ endL s.endAct ++ rest.evs
              simp only [applied_append, hapre, hae, g2, h2]
            · refine Or.inr ⟨tt', ipp', h1, by omega, by show z.hs.length < hs.length; omega, w, ?_, ?_⟩
              · rw [turnsLoop_succ s htv, if_pos (by simp; omega)]
                exact h4
              · show applied (pre ++ q.evs ++ endL s.endAct ++ z.evs) ++ w.evs = pre ++ p.evs ++ endL s.endAct ++ rest.evs
                simp only [applied_append, hapre, hae, g2, List.append_assoc]
                rw [← h5]
      · -- on hold in this turn
        rw [g1] at hgo
        simp only at hgo
        have hresume : turnsLoop s (k + 1) tt (some (tt, ipp')) [] =
          match p.out with
          | .hold ipp => some ⟨w.evs, some (tt, ipp), []⟩
          | .finished true => some ⟨w.evs, none, []⟩
          | .finished false => (turnsLoop s k (tt + 1) none []).bind fun rest =>
              some { rest with evs := w.evs ++ endL s.endAct ++ rest.evs } := by
          rw [turnsLoop_succ s htv, if_neg (by simp)]
          simp only [Option.map_some, g5, Option.bind_some, hwithin, Bool.not_true, Bool.and_false,
            Bool.false_eq_true, if_false, List.nil_append, g6]
          have hw := (partsLoop_nil s tt s.parts 0 _ w g5).2.1
          rw [hw]
        rw [hfin] at hresume
        cases bfin with
        | true =>
          simp only at hp' hresume
          have := Option.some.inj hp'
          subst this
          refine ⟨rfl, _, hgo, Or.inr ⟨tt, ipp', rfl, Nat.le_refl _, g4, _, hresume, ?_⟩⟩
          show applied (pre ++ q.evs) ++ w.evs = pre ++ p.evs
          rw [applied_append, hapre, List.append_assoc, g7]
        | false =>
          simp only at hp' hresume
          rw [hphs] at hp'
          obtain ⟨rest, hr, hr'⟩ := Option.bind_eq_some_iff.mp hp'
          have := Option.some.inj hr'
          subst this
          rw [hr] at hresume
          refine ⟨(ih (tt + 1) none [] (by simp) rest hr).1, _, hgo, Or.inr ⟨tt, ipp', rfl, Nat.le_refl _, g4, _, hresume, ?_⟩⟩
          show applied (pre ++ q.evs) ++ (w.evs ++ endL s.endAct ++ rest.evs) = pre ++ p.evs ++ endL s.endAct ++ rest.evs
          rw [applied_append, hapre, ← g7]
          simp

theorem resumeAll_eq (s : Session) (htv : s.timeVars = false) (fuel : Nat) (resume : Option (Nat × Nat)) (hs : List Bool)
    (hf : hs.length ≤ fuel) (u : CallResult) (hu : turnsLoop s s.numTurns 0 resume [] = some u) :
    ∃ r, resumeAll s fuel resume hs = some r ∧ r.session = none ∧ applied r.evs = u.evs := by
  induction fuel generalizing resume hs u with
  | zero =>
    have : hs = [] := List.length_eq_zero_iff.mp (by omega)
    subst this
    obtain ⟨hn, r, hr, h⟩ := turnsLoop_hold s htv s.numTurns 0 resume [] (fun _ _ => Nat.zero_le _) u hu
    rw [hu] at hr
    have := Option.some.inj hr
    subst this
    refine ⟨u, hu, hn, ?_⟩
    rcases h with h | ⟨_, _, h, _⟩
    · exact h.2
    · rw [hn] at h; exact absurd h (by simp)
  | succ fuel ih =>
    obtain ⟨hn, r, hr, h⟩ := turnsLoop_hold s htv s.numTurns 0 resume hs (fun _ _ => Nat.zero_le _) u hu
    rw [resumeAll, hr]
    simp only [Option.bind_eq_bind, Option.bind_some]
    rcases h with ⟨h1, h2⟩ | ⟨tt', ipp', h1, _, h3, w, h4, h5⟩
    · rw [h1]
      exact ⟨r, rfl, h1, h2⟩
    · rw [h1]
      obtain ⟨z, hz, hz1, hz2⟩ := ih (some (tt', ipp')) r.hs (by omega) w h4
      simp only [hz, Option.bind_some]
      refine ⟨_, rfl, hz1, ?_⟩
      show applied (r.evs ++ z.evs) = u.evs
      rw [applied_append, hz2, h5]

/-- **C22 (partial).**  Whatever the collective elements answer (each of them may put the tracking on
hold any number of times in any turn), tracking and resuming until the end applies the same elements
in the same order, with the same end-of-turn actions and turn-by-turn records, as tracking without
holds.  At most as many resumes as holds are needed.
Missing: lines with time-dependent variables, see `C22_time_dependent_violated`. -/
theorem C22_hold_resume_partial (line : List Bool) (mon e : Bool) (startAt : Option Nat) (args : Args) (s : Session)
    (tr : List Ev) (hs : List Bool) (hses : newSession line mon false e startAt args = some s)
    (htr : trackCollective line mon e startAt args = some tr) :
    ∃ r, resumeAll s hs.length none hs = some r ∧ r.session = none ∧ applied r.evs = tr := by
  unfold trackCollective at htr
  rw [hses] at htr
  simp only [Option.bind_eq_bind, Option.bind_some] at htr
  obtain ⟨u, hu, hu'⟩ := Option.bind_eq_some_iff.mp htr
  have htv : s.timeVars = false := by
    unfold newSession at hses
    simp only [Option.bind_eq_bind] at hses
    obtain ⟨v, _, hv⟩ := Option.bind_eq_some_iff.mp hses
    obtain ⟨a, b, c⟩ := v
    simp only at hv
    rw [← Option.some.inj hv]
  obtain ⟨r, h1, h2, h3⟩ := resumeAll_eq s htv hs.length none hs (Nat.le_refl _) u hu
  exact ⟨r, h1, h2, by rw [h3]; exact Option.some.inj hu'⟩

/-- Two turns of a line with one collective element that puts the tracking on hold twice in the first
turn and once in the second one. -/
example : ((newSession [false, true, false] true false true none ⟨some 0, none, none, some 2⟩).bind
      (fun s => resumeAll s 5 none [true, true, false, true, false])).map (fun r => r.evs) =
    some [.mon, .ele 0, .held 1, .held 1, .ele 1, .ele 2, .endTurn, .mon, .ele 0, .held 1, .ele 1, .ele 2, .endTurn] := by
  decide

/-- **C22 violated** with time-dependent variables: a session that was on hold cannot be resumed. -/
theorem C22_time_dependent_violated :
    (newSession [true] false true true none ⟨some 0, none, none, some 1⟩).isSome ∧
    ((newSession [true] false true true none ⟨some 0, none, none, some 1⟩).bind
      (fun s => resumeAll s 1 none [])).isSome ∧
    (newSession [true] false true true none ⟨some 0, none, none, some 1⟩).bind
      (fun s => resumeAll s 1 none [true]) = none := by decide

end Verif.Tracker
