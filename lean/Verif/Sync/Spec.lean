import Verif.Sync.Model

/-! Physics behind `SyncTime`: free motion of a particle, and windows in time. -/

namespace Verif.Sync

/-- Time of the `j`-th passage of a particle which starts with `z0` and moves freely, without being
stopped: places `0 … n + 1`, and again.  From place to place the time grows by the distance minus what
the elements add to `zeta`, over the speed of the reference; from the end to the start by nothing. -/
noncomputable def free (c : Cfg) (slip : ℕ → ℕ → Option ℝ) (pid : ℕ) (z0 : ℝ) : ℕ → ℝ
  | 0 => -z0 / c.beta0
  | j + 1 =>
    if j % (c.n + 2) = c.n + 1 then free c slip pid z0 j
    else free c slip pid z0 j
      + ((c.pos (j % (c.n + 2) + 1) - c.pos (j % (c.n + 2))) - (slip pid j).getD 0) / c.beta0

/-- End of the window of frame `k` at place `i`: half a period after an observer with speed `beta1`, who
started at time zero, came there. -/
noncomputable def windowEnd (c : Cfg) (k i : ℕ) : ℝ := (c.pos i + k * c.C + c.C / 2) / beta1 c

/-- Start of the window: the end of the one of the frame before. -/
noncomputable def windowStart (c : Cfg) (k i : ℕ) : ℝ := (c.pos i + k * c.C - c.C / 2) / beta1 c

/-- A ring. -/
structure Ring (c : Cfg) : Prop where
  C : 0 < c.C
  beta0 : 0 < c.beta0
  rel : 0 < c.rel
  start : c.pos 0 = 0
  stop : c.pos (c.n + 1) = c.C

/-- Lost in an element, not stopped by a `SyncTime`. -/
def Lost (p : P) : Prop := -coast < p.state ∧ p.state ≤ 0

/-- Particles at the start of the simulation; none is later than the second frame. -/
def Fresh (c : Cfg) (p : P) : Prop :=
  p.turn = 0 ∧ p.s = 0 ∧ p.seen = [] ∧ (0 < p.state ∨ Lost p) ∧ -(3 / 2 * c.C * c.rel) ≤ p.zeta

end Verif.Sync
