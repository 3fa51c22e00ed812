import Verif.EProg.Model

/-!
# C140: energy programs

The momentum of the beam follows the program: turn numbers and times agree at the points of the program and, for constant velocity,
at every turn; and the particles get the momentum of the program for the time of the turn.
-/

namespace Verif.EProg

/-! ### Interpolation -/

theorem interp_knot {l : List (ℝ × ℝ)} (h : l.Pairwise fun a b => a.1 < b.1) {p : ℝ × ℝ} (hp : p ∈ l) : interp l p.1 = p.2 := by
  induction l with
  | nil => simp at hp
  | cons a t ih =>
    cases t with
    | nil =>
      simp only [List.mem_singleton] at hp
      subst hp; simp [interp]
    | cons b u =>
      rw [List.pairwise_cons] at h
      rcases List.mem_cons.1 hp with rfl | hp
      · simp [interp]
      · have hlt := h.1 p hp
        simp only [interp]
        rw [if_neg (not_le.2 hlt)]
        rcases List.mem_cons.1 hp with rfl | hp'
        · rw [if_pos (le_refl _)]
          have : p.1 - a.1 ≠ 0 := by linarith
          field_simp
          ring
        · have h2 := (List.pairwise_cons.1 h.2).1 p hp'
          rw [if_neg (not_le.2 h2)]
          exact ih h.2 hp

/-- Points on a straight line through the origin: the interpolation is that line between the first and the last point. -/
theorem interp_line (m : ℝ) : ∀ (l : List (ℝ × ℝ)), (l.Pairwise fun a b => a.1 < b.1) → (∀ p ∈ l, p.2 = m * p.1) →
    ∀ x, (∀ p, l.head? = some p → p.1 ≤ x) → (∀ p, l.getLast? = some p → x ≤ p.1) → l ≠ [] → interp l x = m * x
  | [], _, _, _, _, _, h => absurd rfl h
  | [p], _, hm, x, h1, h2, _ => by
    have a := h1 p rfl
    have b := h2 p rfl
    rw [show x = p.1 by linarith]
    exact hm p List.mem_cons_self
  | p :: q :: t, hs, hm, x, h1, h2, _ => by
    have a := h1 p rfl
    rw [List.pairwise_cons] at hs
    have hpq := hs.1 q List.mem_cons_self
    have ep := hm p List.mem_cons_self
    have eq := hm q (List.mem_cons_of_mem _ List.mem_cons_self)
    simp only [interp]
    by_cases c1 : x ≤ p.1
    · rw [if_pos c1, show x = p.1 by linarith]; exact ep
    · rw [if_neg c1]
      by_cases c2 : x ≤ q.1
      · rw [if_pos c2, ep, eq]
        have : q.1 - p.1 ≠ 0 := by linarith
        field_simp
        ring
      · rw [if_neg c2]
        exact interp_line m (q :: t) hs.2 (fun r hr => hm r (List.mem_cons_of_mem _ hr)) x
          (fun r hr => by simp at hr; subst hr; linarith) (fun r hr => h2 r (by simpa using hr)) (by simp)

/-! ### Turn numbers -/

/-- Increasing times from zero and positive velocities. -/
structure Good (pts : List (ℝ × ℝ)) : Prop where
  inc : pts.Pairwise fun a b => a.1 < b.1
  pos : ∀ p ∈ pts, 0 < p.2

/-- All turn numbers with the first one given. -/
theorem turns_eq (k : ℝ) (p : ℝ × ℝ) (t : List (ℝ × ℝ)) (h0 : p.1 = 0) : turns k (p :: t) = 0 :: turnsFrom k 0 (p :: t) := by
  simp [turns, h0]

theorem length_turnsFrom (k : ℝ) : ∀ (acc : ℝ) (p : ℝ × ℝ) (t : List (ℝ × ℝ)), (turnsFrom k acc (p :: t)).length = t.length
  | _, _, [] => rfl
  | acc, p, q :: t => by simp [turnsFrom, length_turnsFrom k _ q t]

theorem turnsFrom_gt {k : ℝ} (hk : 0 < k) : ∀ (acc : ℝ) (p : ℝ × ℝ) (t : List (ℝ × ℝ)), Good (p :: t) →
    (∀ m ∈ turnsFrom k acc (p :: t), acc < m) ∧ (turnsFrom k acc (p :: t)).Pairwise (· < ·)
  | _, _, [], _ => by simp [turnsFrom]
  | acc, p, q :: t, h => by
    have hg : Good (q :: t) := ⟨(List.pairwise_cons.1 h.inc).2, fun r hr => h.pos r (List.mem_cons_of_mem _ hr)⟩
    have hpq := (List.pairwise_cons.1 h.inc).1 q List.mem_cons_self
    have hp := h.pos p List.mem_cons_self
    have hq := h.pos q (List.mem_cons_of_mem _ List.mem_cons_self)
    have step : acc < acc + (p.2 + q.2) / 2 * k * (q.1 - p.1) := by
      have : 0 < (p.2 + q.2) / 2 * k * (q.1 - p.1) := mul_pos (mul_pos (by linarith) hk) (by linarith)
      linarith
    obtain ⟨i1, i2⟩ := turnsFrom_gt hk (acc + (p.2 + q.2) / 2 * k * (q.1 - p.1)) q t hg
    simp only [turnsFrom]
    constructor
    · intro m hm
      rcases List.mem_cons.1 hm with rfl | hm
      · exact step
      · exact lt_trans step (i1 m hm)
    · exact List.pairwise_cons.2 ⟨i1, i2⟩

/-- Between neighbouring points the turn number grows by the time times the mean of the two velocities over the circumference. -/
theorem turnsFrom_diff (k : ℝ) : ∀ (acc : ℝ) (p : ℝ × ℝ) (t : List (ℝ × ℝ)) (j : ℕ) (a b : ℝ × ℝ),
    (p :: t)[j]? = some a → (p :: t)[j + 1]? = some b →
    ∃ m n, (acc :: turnsFrom k acc (p :: t))[j]? = some m ∧ (acc :: turnsFrom k acc (p :: t))[j + 1]? = some n ∧
      n - m = (a.2 + b.2) / 2 * k * (b.1 - a.1)
  | _, _, [], j, a, b, _, h2 => by simp at h2
  | acc, p, q :: t, j, a, b, h1, h2 => by
    cases j with
    | zero =>
      simp at h1 h2
      subst h1 h2
      exact ⟨acc, _, rfl, rfl, by ring⟩
    | succ i =>
      obtain ⟨m, n, e1, e2, e3⟩ := turnsFrom_diff k (acc + (p.2 + q.2) / 2 * k * (q.1 - p.1)) q t i a b
        (by simpa using h1) (by simpa using h2)
      exact ⟨m, n, by simpa [turnsFrom] using e1, by simpa [turnsFrom] using e2, e3⟩

/-- The turn number grows between neighbouring points of the program by the time times the mean velocity over the circumference
(`k` is the velocity of light over the circumference), starting from turn zero. -/
theorem C140_turns (k : ℝ) (p : ℝ × ℝ) (t : List (ℝ × ℝ)) (h0 : p.1 = 0) (j : ℕ) (a b : ℝ × ℝ)
    (ha : (p :: t)[j]? = some a) (hb : (p :: t)[j + 1]? = some b) :
    (turns k (p :: t))[0]? = some 0 ∧
    ∃ m n, (turns k (p :: t))[j]? = some m ∧ (turns k (p :: t))[j + 1]? = some n ∧ n - m = (a.2 + b.2) / 2 * k * (b.1 - a.1) := by
  rw [turns_eq k p t h0]
  exact ⟨rfl, turnsFrom_diff k 0 p t j a b ha hb⟩

theorem zip_inc {ns ts : List ℝ} (h : ns.Pairwise (· < ·)) : (ns.zip ts).Pairwise fun a b => a.1 < b.1 := by
  induction ns generalizing ts with
  | nil => simp
  | cons n ns ih =>
    cases ts with
    | nil => simp
    | cons t ts =>
      rw [List.pairwise_cons] at h
      simp only [List.zip_cons_cons, List.pairwise_cons]
      refine ⟨?_, ih h.2⟩
      intro q hq
      exact h.1 q.1 (List.of_mem_zip hq).1

theorem turns_inc {k : ℝ} (hk : 0 < k) (p : ℝ × ℝ) (t : List (ℝ × ℝ)) (h0 : p.1 = 0) (h : Good (p :: t)) :
    (turns k (p :: t)).Pairwise (· < ·) := by
  rw [turns_eq k p t h0]
  obtain ⟨a, b⟩ := turnsFrom_gt hk 0 p t h
  exact List.pairwise_cons.2 ⟨a, b⟩

theorem le_getLastD {l : List ℝ} (h : l.Pairwise (· < ·)) {x d : ℝ} (hx : x ∈ l) : x ≤ l.getLastD d := by
  induction l generalizing d x with
  | nil => simp at hx
  | cons a t ih =>
    rw [List.getLastD_cons]
    rw [List.pairwise_cons] at h
    cases t with
    | nil => simp at hx; subst hx; simp
    | cons b u =>
      rcases List.mem_cons.1 hx with rfl | hx
      · exact le_of_lt (lt_of_lt_of_le (h.1 b List.mem_cons_self) (ih h.2 List.mem_cons_self))
      · exact ih h.2 hx

/-- At each point of the program, the time given for the turn number of that point is the time of that point. -/
theorem C140_samples {k : ℝ} (hk : 0 < k) (p : ℝ × ℝ) (t : List (ℝ × ℝ)) (h0 : p.1 = 0) (h : Good (p :: t)) (j : ℕ) (a : ℝ × ℝ)
    (ha : (p :: t)[j]? = some a) :
    ∃ n, (turns k (p :: t))[j]? = some n ∧ timeAtTurn ((p :: t).map (·.1)) (turns k (p :: t)) n = some a.1 := by
  have inc := turns_inc hk p t h0 h
  have len : (turns k (p :: t)).length = (p :: t).length := by
    rw [turns_eq k p t h0]; simp [length_turnsFrom]
  have hj : j < (p :: t).length := (List.getElem?_eq_some_iff.1 ha).1
  have hj' : j < (turns k (p :: t)).length := by omega
  refine ⟨(turns k (p :: t))[j], List.getElem?_eq_getElem hj', ?_⟩
  simp only [timeAtTurn]
  rw [if_neg (not_lt.2 (le_getLastD inc (List.getElem_mem hj')))]
  congr 1
  have : ((turns k (p :: t))[j], a.1) ∈ (turns k (p :: t)).zip ((p :: t).map (·.1)) := by
    rw [List.mem_iff_getElem?]
    refine ⟨j, ?_⟩
    rw [List.getElem?_zip_eq_some]
    exact ⟨List.getElem?_eq_getElem hj', by rw [List.getElem?_map, ha]; rfl⟩
  exact interp_knot (zip_inc inc) this

example : Good [(0, 1 / 2), (1, 3 / 4), (3, 9 / 10)] := by
  constructor
  · simp
  · intro p hp; simp at hp; rcases hp with rfl | rfl | rfl <;> norm_num

theorem turnsFrom_const (k b : ℝ) : ∀ (acc : ℝ) (p : ℝ × ℝ) (t : List (ℝ × ℝ)), (∀ q ∈ p :: t, q.2 = b) → acc = b * k * p.1 →
    acc :: turnsFrom k acc (p :: t) = (p :: t).map fun q => b * k * q.1
  | acc, p, [], _, e => by simp [turnsFrom, e]
  | acc, p, q :: t, h, e => by
    have hp := h p List.mem_cons_self
    have hq := h q (List.mem_cons_of_mem _ List.mem_cons_self)
    have := turnsFrom_const k b (acc + (p.2 + q.2) / 2 * k * (q.1 - p.1)) q t (fun r hr => h r (List.mem_cons_of_mem _ hr))
      (by rw [hp, hq, e]; ring)
    simp only [turnsFrom]
    rw [this, e]
    rfl

/-- At constant velocity `b` every turn `i` within the program begins at `i` times the revolution time. -/
theorem C140_constant {k b : ℝ} (hk : 0 < k) (p q : ℝ × ℝ) (t : List (ℝ × ℝ)) (h0 : p.1 = 0) (h : Good (p :: q :: t))
    (hb : ∀ r ∈ p :: q :: t, r.2 = b) (i : ℝ) (h1 : 0 ≤ i) (h2 : i ≤ b * k * ((q :: t).getLast (by simp)).1) :
    timeAtTurn ((p :: q :: t).map (·.1)) (turns k (p :: q :: t)) i = some (i * (1 / (b * k))) := by
  have hbp : 0 < b := by have := h.pos p List.mem_cons_self; rw [hb p List.mem_cons_self] at this; exact this
  have hbk : 0 < b * k := mul_pos hbp hk
  have e : turns k (p :: q :: t) = (p :: q :: t).map fun r => b * k * r.1 := by
    rw [turns_eq k p _ h0]
    exact turnsFrom_const k b 0 p (q :: t) hb (by rw [h0]; ring)
  have hl : (turns k (p :: q :: t)).getLastD 0 = b * k * ((q :: t).getLast (by simp)).1 := by
    rw [e, List.getLastD_eq_getLast?, List.getLast?_map, List.getLast?_cons_cons, List.getLast?_eq_some_getLast (by simp)]
    simp
  simp only [timeAtTurn]
  rw [hl, if_neg (not_lt.2 h2)]
  congr 1
  have ez : (turns k (p :: q :: t)).zip ((p :: q :: t).map (·.1)) = (p :: q :: t).map fun r => (b * k * r.1, r.1) := by
    rw [e, List.zip_map', ]
  rw [show i * (1 / (b * k)) = (1 / (b * k)) * i by ring]
  refine interp_line (1 / (b * k)) _ (zip_inc (turns_inc hk p _ h0 h)) ?_ i ?_ ?_ (by rw [ez]; simp)
  · rw [ez]
    intro r hr
    obtain ⟨s, -, rfl⟩ := List.mem_map.1 hr
    simp only
    field_simp
  · rw [ez]
    intro r hr
    simp at hr
    subst hr
    simp only [h0, mul_zero]
    exact h1
  · rw [ez]
    intro r hr
    rw [List.getLast?_map, List.getLast?_cons_cons, List.getLast?_eq_some_getLast (by simp)] at hr
    simp at hr
    subst hr
    exact h2

/-- **Violation.** With the times given as integers (`t_s=[0, 1, 2]`) the turn numbers lose their fractions: at constant velocity and
3/2 turns per second, the second point is at turn 1 instead of 3/2, and turn 1 is said to begin after one second. -/
theorem C140_integer_violated :
    turns (3 / 2) [(0, 1), (1, 1), (2, 1)] = [0, 3 / 2, 3] ∧
    turnsInteger (3 / 2) [(0, 1), (1, 1), (2, 1)] = [0, 1, 3] ∧
    timeAtTurn [0, 1, 2] (turns (3 / 2) [(0, 1), (1, 1), (2, 1)]) 1 = some (2 / 3) ∧
    timeAtTurn [0, 1, 2] (turnsInteger (3 / 2) [(0, 1), (1, 1), (2, 1)]) 1 = some 1 := by
  have a : turns (3 / 2) [(0, 1), (1, 1), (2, 1)] = [0, 3 / 2, 3] := by norm_num [turns, turnsFrom]
  have f : ⌊(3 / 2 : ℝ)⌋ = 1 := by rw [Int.floor_eq_iff]; norm_num
  have b : turnsInteger (3 / 2) [(0, 1), (1, 1), (2, 1)] = [0, 1, 3] := by
    simp [turnsInteger, a, f]
  refine ⟨a, b, ?_, ?_⟩
  · rw [a]; norm_num [timeAtTurn, interp]
  · rw [b]; norm_num [timeAtTurn, interp]

/-! ### Which line is accelerated -/

/-- As long as the program is attached to a line with the reference particle of the tracked line, the particles get the momentum of
the program for the time of each turn, for every number of turns.

What is missing: the program attached to another line (`C140_copy_violated`, `C140_reload_violated`). -/
theorem C140_follows_partial (prog : ℝ → ℝ) (e : Env) (i : ℕ) (h : e.refOf e.owner = e.refOf i) (ts : List ℝ) :
    (turnStarts prog e i ts).2 = ts.map prog := by
  induction ts generalizing e with
  | nil => rfl
  | cons t ts ih =>
    simp only [turnStarts, List.map_cons]
    rw [ih _ (by simpa [turnStart] using h)]
    simp [turnStart, h]

example (e : Env) (i : ℕ) : (attach e i).refOf (attach e i).owner = (attach e i).refOf i := rfl

/-- The program attached to a line with another reference particle: the momentum of the particles never changes. -/
theorem not_followed (prog : ℝ → ℝ) (e : Env) (i : ℕ) (h : e.refOf i ≠ e.refOf e.owner) (ts : List ℝ) :
    (turnStarts prog e i ts).2 = ts.map fun _ => e.p0c (e.refOf i) := by
  induction ts generalizing e with
  | nil => rfl
  | cons t ts ih =>
    simp only [turnStarts, List.map_cons]
    rw [ih _ (by simpa [turnStart] using h)]
    simp [turnStart, h]

/-- **Violation.** After making a shallow copy of an accelerating line with its own reference particle, the line itself does not
accelerate any more: its particles keep the momentum which the reference had when the copy was made. -/
theorem C140_copy_violated (prog : ℝ → ℝ) (e : Env) (i : ℕ) (hi : i < e.nLines) (hr : e.refOf i < e.nRefs) (ts : List ℝ) :
    (turnStarts prog (attach e i) i ts).2 = ts.map prog ∧
    (turnStarts prog (shallowCopy (attach e i) i) i ts).2 = ts.map fun _ => e.p0c (e.refOf i) := by
  refine ⟨C140_follows_partial prog _ i rfl ts, ?_⟩
  have h1 : (shallowCopy (attach e i) i).refOf i = e.refOf i := by
    simp [shallowCopy, attach, Nat.ne_of_lt hi]
  have h2 : (shallowCopy (attach e i) i).refOf (shallowCopy (attach e i) i).owner = e.nRefs := by
    simp [shallowCopy, attach]
  rw [not_followed prog _ i (by rw [h1, h2]; omega) ts, h1]
  apply List.map_congr_left
  intro _ _
  simp only [shallowCopy, attach]
  by_cases c : e.refOf i = e.nRefs
  · exact if_pos c
  · exact if_neg c

theorem reload_owner (e : Env) (h : 0 < e.nLines) : reload e = { e with owner := e.nLines - 1 } := by
  have : ∀ (n : ℕ) (e : Env), 0 < n → (List.range n).foldl attach e = { e with owner := n - 1 } := by
    intro n
    induction n with
    | zero => intro e h; exact absurd h (by omega)
    | succ m ih =>
      intro e _
      rw [List.range_succ, List.foldl_append]
      by_cases hm : m = 0
      · subst hm; simp [attach]
      · rw [ih e (by omega)]; simp [attach]
  exact this _ e h

/-- **Violation.** After writing and reading (or copying) an environment, only the last of its lines accelerates: the particles of
every line with another reference particle keep their momentum, although the program was attached to that line. -/
theorem C140_reload_violated (prog : ℝ → ℝ) (e : Env) (i : ℕ) (hi : i < e.nLines)
    (hr : e.refOf i ≠ e.refOf (e.nLines - 1)) (ts : List ℝ) :
    (turnStarts prog (attach e i) i ts).2 = ts.map prog ∧
    (turnStarts prog (reload (attach e i)) i ts).2 = ts.map fun _ => e.p0c (e.refOf i) := by
  refine ⟨C140_follows_partial prog _ i rfl ts, ?_⟩
  rw [reload_owner _ (by simp only [attach]; omega)]
  rw [not_followed prog _ i (by simpa [attach] using hr) ts]
  rfl

example : (fun j : ℕ => j) 0 ≠ (fun j : ℕ => j) (2 - 1) := by decide

end Verif.EProg
