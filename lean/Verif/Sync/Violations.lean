import Verif.Sync.Props
import Mathlib.Tactic.NormNum

/-! A particle which comes more than a frame late at the start can wait for ever (C105). -/

namespace Verif.Sync

/-- A ring with length 1 and one window per turn. -/
noncomputable def ring1 : Cfg := ⟨1, 1, 1, 0, fun i => i⟩

theorem ring1_ring : Ring ring1 := by
  constructor <;> simp [ring1]

/-- The first particle is delayed in its first turn, nothing else happens. -/
noncomputable def slip1 (pid j : ℕ) : Option ℝ := if pid = 0 ∧ j = 0 then some (-2 / 5) else some 0

/-- Three particles; the last comes at time 8/5, in the third window. -/
noncomputable def three : List P :=
  [⟨0, 1, -2 / 5, 0, 0, []⟩, ⟨1, 1, 0, 0, 0, []⟩, ⟨2, 1, -8 / 5, 0, 0, []⟩]

theorem f0_0 : sync ring1 0 0 three = some [⟨0, 1, -2 / 5, 0, 0, [⟨0, 0, 2 / 5⟩]⟩, ⟨1, 1, 0, 0, 0, [⟨0, 0, 0⟩]⟩,
    ⟨2, -coast, -3 / 5, 0, 0, []⟩] := by
  norm_num [sync, three, firstTurn, park, resume, stop, TooFast, reorganize, zmin, ratio, beta1, ident, time, ring1,
    coast, nextFrame, unpark]

theorem f0_1 (s1 s2 : List Seen) : sync ring1 1 0 [⟨0, 1, -4 / 5, 1, 0, s1⟩, ⟨1, 1, 0, 1, 0, s2⟩,
    ⟨2, -coast, -3 / 5, 0, 0, []⟩] = some [⟨0, -coast - 2, 1 / 5, 1, 0, s1⟩, ⟨1, 1, 0, 1, 0, s2 ++ [⟨0, 1, 1⟩]⟩,
    ⟨2, 1, -3 / 5, 0, 0, []⟩] := by
  norm_num [sync, three, firstTurn, park, resume, stop, TooFast, reorganize, zmin, ratio, beta1, ident, time, ring1,
    coast, nextFrame, unpark]

theorem f1_0 (s1 s2 : List Seen) : sync ring1 0 1 [⟨0, -coast - 2, 1 / 5, 1, 0, s1⟩, ⟨1, 1, 0, 0, 1, s2⟩,
    ⟨2, 1, -3 / 5, 0, 1, []⟩] = some [⟨1, 1, 0, 0, 1, s2 ++ [⟨1, 0, 1⟩]⟩, ⟨0, -coast - 2, 1 / 5, 1, 0, s1⟩,
    ⟨2, -coast, 2 / 5, 0, 1, []⟩] := by
  norm_num [sync, three, firstTurn, park, resume, stop, TooFast, reorganize, zmin, ratio, beta1, ident, time, ring1,
    coast, nextFrame, unpark]

theorem f1_1 (s1 s2 : List Seen) : sync ring1 1 1 [⟨1, 1, 0, 1, 1, s2⟩, ⟨0, -coast - 2, 1 / 5, 1, 0, s1⟩,
    ⟨2, -coast, 2 / 5, 0, 1, []⟩] = some [⟨1, 1, 0, 1, 1, s2 ++ [⟨1, 1, 2⟩]⟩, ⟨0, 1, 1 / 5, 1, 0, s1 ++ [⟨1, 1, 9 / 5⟩]⟩,
    ⟨2, -coast, 2 / 5, 0, 1, []⟩] := by
  norm_num [sync, three, firstTurn, park, resume, stop, TooFast, reorganize, zmin, ratio, beta1, ident, time, ring1,
    coast, nextFrame, unpark]

theorem fk_0 (s1 s2 : List Seen) (k t1 t2 : ℕ) : sync ring1 0 k [⟨1, 1, 0, 0, t1 + 1, s2⟩,
    ⟨0, 1, 1 / 5, 0, t2, s1⟩, ⟨2, -coast, 2 / 5, 0, 1, []⟩] = some [⟨1, 1, 0, 0, t1 + 1, s2 ++ [⟨k, 0, k⟩]⟩,
    ⟨0, 1, 1 / 5, 0, t2, s1 ++ [⟨k, 0, -(1 / 5) + k⟩]⟩, ⟨2, -coast, 2 / 5, 0, 1, []⟩] := by
  norm_num [sync, three, firstTurn, park, resume, stop, TooFast, reorganize, zmin, ratio, beta1, ident, time, ring1,
    coast, nextFrame, unpark]

theorem fk_1 (s1 s2 : List Seen) (k t1 t2 : ℕ) : sync ring1 1 k [⟨1, 1, 0, 1, t1 + 1, s2⟩,
    ⟨0, 1, 1 / 5, 1, t2, s1⟩, ⟨2, -coast, 2 / 5, 0, 1, []⟩] = some [⟨1, 1, 0, 1, t1 + 1, s2 ++ [⟨k, 1, 1 + k⟩]⟩,
    ⟨0, 1, 1 / 5, 1, t2, s1 ++ [⟨k, 1, 4 / 5 + k⟩]⟩, ⟨2, -coast, 2 / 5, 0, 1, []⟩] := by
  norm_num [sync, three, firstTurn, park, resume, stop, TooFast, reorganize, zmin, ratio, beta1, ident, time, ring1,
    coast, nextFrame, unpark]

theorem frame0 : frame ring1 slip1 0 three = some [⟨0, -coast - 2, 1 / 5, 1, 0, [⟨0, 0, 2 / 5⟩]⟩,
    ⟨1, 1, 0, 0, 1, [⟨0, 0, 0⟩, ⟨0, 1, 1⟩]⟩, ⟨2, 1, -3 / 5, 0, 1, []⟩] := by
  have hm : List.map (move ring1 slip1 0) [⟨0, 1, -2 / 5, 0, 0, [⟨0, 0, 2 / 5⟩]⟩, ⟨1, 1, 0, 0, 0, [⟨0, 0, 0⟩]⟩,
      ⟨2, -coast, -3 / 5, 0, 0, []⟩] = [⟨0, 1, -4 / 5, 1, 0, [⟨0, 0, 2 / 5⟩]⟩, ⟨1, 1, 0, 1, 0, [⟨0, 0, 0⟩]⟩,
      ⟨2, -coast, -3 / 5, 0, 0, []⟩] := by
    norm_num [move, slip1, ring1, coast]
  have hn : ring1.n = 0 := rfl
  simp only [frame, hn, upTo, Nat.zero_add, f0_0, Option.bind_some, hm, f0_1]
  norm_num [endTurn, coast]

theorem frame1 (s1 s2 : List Seen) : ∃ s1' s2' : List Seen, s1.length < s1'.length ∧
    frame ring1 slip1 1 [⟨0, -coast - 2, 1 / 5, 1, 0, s1⟩, ⟨1, 1, 0, 0, 1, s2⟩, ⟨2, 1, -3 / 5, 0, 1, []⟩]
      = some [⟨1, 1, 0, 0, 2, s2'⟩, ⟨0, 1, 1 / 5, 0, 1, s1'⟩, ⟨2, -coast, 2 / 5, 0, 1, []⟩] := by
  refine ⟨s1 ++ [⟨1, 1, 9 / 5⟩], s2 ++ [⟨1, 0, 1⟩] ++ [⟨1, 1, 2⟩], by simp, ?_⟩
  have hm : ∀ s2, List.map (move ring1 slip1 0) [⟨1, 1, 0, 0, 1, s2⟩, ⟨0, -coast - 2, 1 / 5, 1, 0, s1⟩,
    ⟨2, -coast, 2 / 5, 0, 1, []⟩] = [⟨1, 1, 0, 1, 1, s2⟩, ⟨0, -coast - 2, 1 / 5, 1, 0, s1⟩,
    ⟨2, -coast, 2 / 5, 0, 1, []⟩] := by
    intro s2; norm_num [move, slip1, ring1, coast]
  have hn : ring1.n = 0 := rfl
  simp only [frame, hn, upTo, Nat.zero_add, f1_0, Option.bind_some, hm, f1_1]
  norm_num [endTurn, coast]

theorem framek (k t1 t2 : ℕ) (s1 s2 : List Seen) (hs : 2 ≤ s1.length) : ∃ s1' s2' : List Seen,
    s1.length < s1'.length ∧
    frame ring1 slip1 k [⟨1, 1, 0, 0, t1 + 1, s2⟩, ⟨0, 1, 1 / 5, 0, t2, s1⟩, ⟨2, -coast, 2 / 5, 0, 1, []⟩]
      = some [⟨1, 1, 0, 0, t1 + 2, s2'⟩, ⟨0, 1, 1 / 5, 0, t2 + 1, s1'⟩, ⟨2, -coast, 2 / 5, 0, 1, []⟩] := by
  refine ⟨s1 ++ [⟨k, 0, -(1 / 5) + k⟩] ++ [⟨k, 1, 4 / 5 + k⟩], s2 ++ [⟨k, 0, k⟩] ++ [⟨k, 1, 1 + k⟩], by simp, ?_⟩
  have hm : ∀ s2 s1 : List Seen, 2 ≤ s1.length →
      List.map (move ring1 slip1 0) [⟨1, 1, 0, 0, t1 + 1, s2⟩, ⟨0, 1, 1 / 5, 0, t2, s1⟩,
      ⟨2, -coast, 2 / 5, 0, 1, []⟩] = [⟨1, 1, 0, 1, t1 + 1, s2⟩, ⟨0, 1, 1 / 5, 1, t2, s1⟩,
      ⟨2, -coast, 2 / 5, 0, 1, []⟩] := by
    intro s2 s1 h
    have h1 : ¬ s1.length - 1 = 0 := by omega
    norm_num [move, slip1, ring1, coast, h1]
  have hn : ring1.n = 0 := rfl
  simp only [frame, hn, upTo, Nat.zero_add, fk_0, Option.bind_some]
  rw [hm _ _ (by simp; omega)]
  simp only [fk_1]
  norm_num [endTurn, coast]

theorem run_late : ∀ K : ℕ, ∃ s1 s2 : List Seen, 2 ≤ s1.length ∧ run ring1 slip1 three (K + 2) =
    some [⟨1, 1, 0, 0, K + 2, s2⟩, ⟨0, 1, 1 / 5, 0, K + 1, s1⟩, ⟨2, -coast, 2 / 5, 0, 1, []⟩]
  | 0 => by
    obtain ⟨s1, s2, h1, h2⟩ := frame1 [⟨0, 0, 2 / 5⟩] [⟨0, 0, 0⟩, ⟨0, 1, 1⟩]
    refine ⟨s1, s2, h1, ?_⟩
    simp only [run, Option.bind_some, frame0, h2]
  | K + 1 => by
    obtain ⟨s1, s2, h1, h2⟩ := run_late K
    obtain ⟨s1', s2', h3, h4⟩ := framek (K + 2) (K + 1) (K + 1) s1 s2 h1
    refine ⟨s1', s2', by omega, ?_⟩
    rw [run, h2, Option.bind_some, h4]

/-- **C105, violation.**  A particle which comes more than a frame late at the start: it is parked, revived,
and parked a second time if the particle in the first slot has been stopped at the end of its first
turn.  Then it stays parked for ever, whatever the number of turns: the collective elements never see it,
although it is not lost and its passages are due. -/
theorem C105_late_violated : ∀ K : ℕ, ∃ qs, run ring1 slip1 three (K + 3) = some qs ∧
    ∃ q ∈ qs, q.seen = [] ∧ ¬ Lost q
      ∧ free ring1 slip1 q.pid (-8 / 5) 0 < windowEnd ring1 (K + 2) 0 := by
  intro K
  obtain ⟨s1, s2, -, h⟩ := run_late (K + 1)
  refine ⟨_, h, ⟨2, -coast, 2 / 5, 0, 1, []⟩, by simp, rfl, ?_, ?_⟩
  · simp [Lost, coast]
  · simp only [free, windowEnd, ring1, beta1]
    have : (0 : ℝ) ≤ K := Nat.cast_nonneg K
    push_cast
    norm_num
    linarith

/-- The hypotheses of `C105_passages_partial` can be met, with one particle in the second frame. -/
example : Ring ring1 ∧ ∀ p ∈ ([⟨0, 1, -2 / 5, 0, 0, []⟩, ⟨1, 1, -6 / 5, 0, 0, []⟩] : List P), Fresh ring1 p := by
  refine ⟨ring1_ring, ?_⟩
  intro p hp
  simp only [List.mem_cons, List.not_mem_nil, or_false] at hp
  rcases hp with rfl | rfl <;> norm_num [Fresh, ring1]

end Verif.Sync
