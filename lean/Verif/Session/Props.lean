import Verif.Session.Model

/-!
# C187: what collective tracking leaves behind
-/

namespace Verif.Session

/-! ## Specification -/

/-- Every part which is tracked is recorded just before. -/
def AllRecorded : List Ev → Prop
  | [] => True
  | .record tt i :: .track tt' i' :: rest => tt = tt' ∧ i = i' ∧ AllRecorded rest
  | .endTurn _ :: rest => AllRecorded rest
  | _ => False

/-! ## Lemmas -/

theorem AllRecorded.append {a b : List Ev} (ha : AllRecorded a) (hb : AllRecorded b) : AllRecorded (a ++ b) := by
  induction a using AllRecorded.induct with
  | case1 => exact hb
  | case2 tt i tt' i' rest ih => exact ⟨ha.1, ha.2.1, ih ha.2.2⟩
  | case3 t rest ih => exact ih ha
  | case4 l h1 h2 h3 =>
    exfalso
    unfold AllRecorded at ha
    split at ha
    · exact h1 rfl
    · exact h2 _ _ _ _ _ rfl
    · exact h3 _ _ rfl
    · exact ha

theorem trackPart_hidden (c : Call) (p : Part) (tt i : Nat) (s : St) : (trackPart c p tt i s).hidden = s.hidden := by
  unfold trackPart; split <;> rfl

theorem trackPart_moved (c : Call) (p : Part) (tt i : Nat) (s : St) : (trackPart c p tt i s).moved = s.moved := by
  unfold trackPart; split <;> rfl

theorem partsLoop_hidden (c : Call) (tt : Nat) (h : ∀ i p, c.parts[i]? = some p → i < c.start → p.needsHidden = false)
    (l : List Part) : ∀ (i : Nat) (s : St), c.parts.drop i = l → (partsLoop c tt i l s).1.hidden = s.hidden := by
  induction l with
  | nil => intro i s _; rfl
  | cons p rest ih =>
    intro i s hd
    have hr : c.parts.drop (i + 1) = rest := by
      rw [← List.drop_drop, hd]; rfl
    have hp : c.parts[i]? = some p := by
      rw [← List.head?_drop, hd]; rfl
    have key : (if needUnhide p s = true then { trackPart c p tt i (prepare c p s) with hidden := false }
        else trackPart c p tt i (prepare c p s)).hidden = s.hidden := by
      unfold needUnhide
      cases h1 : p.needsHidden <;> cases h2 : s.hidden <;> simp [trackPart_hidden, prepare, h1, h2]
    simp only [partsLoop]
    split
    · rename_i hs
      rw [ih _ _ hr]
      simp only [decideSkip, Bool.and_eq_true, decide_eq_true_eq] at hs
      simp [prepare, h i p hp hs.2]
    · split
      · exact key
      · rw [ih _ _ hr, key]

theorem turnsLoop_hidden (c : Call) (h : ∀ i p, c.parts[i]? = some p → i < c.start → p.needsHidden = false) (k : Nat) :
    ∀ (tt : Nat) (s : St), (turnsLoop c k tt s).hidden = s.hidden := by
  induction k with
  | zero => intro tt s; rfl
  | succ k ih =>
    intro tt s
    have hp := partsLoop_hidden c tt h c.parts 0 s (by simp)
    simp only [turnsLoop]
    split
    · exact hp
    · rw [ih]; exact hp

/-! ## C187 -/

/-- C187 (lost particles): if no part before the first element asks for hidden lost particles, tracking leaves
them as visible or hidden as they were, with any holds, and wherever it stops. -/
theorem C187_hidden_partial (c : Call) (s : St)
    (h : ∀ i p, c.parts[i]? = some p → i < c.start → p.needsHidden = false) : (run c s).hidden = s.hidden :=
  turnsLoop_hidden c h _ _ _

/-- C187 (lost particles), violated: a collective element in front of the first element, which is not even tracked,
leaves the lost particles hidden. -/
theorem C187_hidden_violated : ∃ c : Call, c.start < c.parts.length ∧ (run c {}).hidden = true ∧
    Ev.track 0 0 ∉ (run c {}).trace := by
  refine ⟨{ parts := [{ collective := true, needsHidden := true }, {}], start := 1 }, ?_⟩
  decide

theorem decideStop_stop {c : Call} {p : Part} {tt i : Nat} (h : decideStop c p tt i = true) : c.stop = some i := by
  unfold decideStop at h
  split at h <;> simp_all

theorem partsLoop_stop (c : Call) (h : ∀ i p, c.stop = some i → c.parts[i]? = some p → p.needsCpu = false) (tt : Nat)
    (l : List Part) : ∀ (i : Nat) (s : St), c.parts.drop i = l → (partsLoop c tt i l s).2 = true →
      (partsLoop c tt i l s).1.moved = false := by
  induction l with
  | nil => intro i s _ h2; simp [partsLoop] at h2
  | cons p rest ih =>
    intro i s hd
    have hr : c.parts.drop (i + 1) = rest := by
      rw [← List.drop_drop, hd]; rfl
    have hp : c.parts[i]? = some p := by
      rw [← List.head?_drop, hd]; rfl
    simp only [partsLoop]
    split
    · exact ih _ _ hr
    · split
      · rename_i hs
        intro _
        have h1 : (prepare c p s).moved = false := by simp [prepare, h i p (decideStop_stop hs) hp]
        show (if needUnhide p s = true then { trackPart c p tt i (prepare c p s) with hidden := false }
          else trackPart c p tt i (prepare c p s)).moved = false
        split
        · exact (trackPart_moved c p tt i (prepare c p s)).trans h1
        · exact (trackPart_moved c p tt i (prepare c p s)).trans h1
      · exact ih _ _ hr

/-- C187 (context): tracking leaves the particles where they were, unless it stops at an element which needs the
CPU. -/
theorem C187_context_partial (c : Call) (s : St) (hs : s.moved = false)
    (h : ∀ i p, c.stop = some i → c.parts[i]? = some p → p.needsCpu = false) : (run c s).moved = false := by
  have key : ∀ k tt (s : St), s.moved = false → (turnsLoop c k tt s).moved = false := by
    intro k
    induction k with
    | zero => intro tt s hs; exact hs
    | succ k ih =>
      intro tt s _
      simp only [turnsLoop]
      split
      · rename_i h2
        exact partsLoop_stop c h tt c.parts 0 s (by simp) h2
      · exact ih _ _ rfl
  exact key _ _ _ hs

/-- C187 (context): particles which are on the CPU are never moved. -/
theorem C187_cpu (c : Call) (s : St) (hs : s.moved = false) (h : c.onGpu = false) : (run c s).moved = false := by
  have hp : ∀ tt l i (s : St), s.moved = false → (partsLoop c tt i l s).1.moved = false := by
    intro tt l
    induction l with
    | nil => intro i s hs; exact hs
    | cons p rest ih =>
      intro i s hs
      have h1 : (prepare c p s).moved = false := by simp [prepare, hs, h]
      have h2 : (if needUnhide p s = true then { trackPart c p tt i (prepare c p s) with hidden := false }
        else trackPart c p tt i (prepare c p s)).moved = false := by
        split
        · exact (trackPart_moved c p tt i (prepare c p s)).trans h1
        · exact (trackPart_moved c p tt i (prepare c p s)).trans h1
      simp only [partsLoop]
      split
      · exact ih _ _ h1
      · split
        · exact h2
        · exact ih _ _ h2
  have key : ∀ k tt (s : St), s.moved = false → (turnsLoop c k tt s).moved = false := by
    intro k
    induction k with
    | zero => intro tt s hs; exact hs
    | succ k ih =>
      intro tt s hs
      simp only [turnsLoop]
      split
      · exact hp _ _ _ _ hs
      · exact ih _ _ rfl
  exact key _ _ _ hs

/-- C187 (context), violated: if tracking stops at an element which needs the CPU, particles which were on a GPU
stay on the CPU. -/
theorem C187_context_violated : ∃ c : Call, c.onGpu = true ∧ (run c {}).moved = true := by
  refine ⟨{ parts := [{}, { collective := true, needsCpu := true }, {}], stop := some 1, onGpu := true }, ?_⟩
  decide

/-- C187 (records): without holds, every part which is tracked is recorded by the monitor of several elements just
before. -/
theorem C187_records_partial (c : Call) (s : St) (hm : s.monitor = true) (ht : s.trace = []) (h : ∀ tt i, c.holds tt i = 0) :
    AllRecorded (run c s).trace ∧ (run c s).monitor = true := by
  have hpart : ∀ p tt i (s : St), s.monitor = true → AllRecorded s.trace →
      (trackPart c p tt i s).monitor = true ∧ AllRecorded (trackPart c p tt i s).trace := by
    intro p tt i s h1 h2
    unfold trackPart
    split
    · exact ⟨h1, h2⟩
    · refine ⟨by simp [h1, h], ?_⟩
      simp only [h1, if_true, List.append_assoc]
      exact h2.append ⟨rfl, rfl, trivial⟩
  have hp : ∀ tt l i (s : St), s.monitor = true → AllRecorded s.trace →
      (partsLoop c tt i l s).1.monitor = true ∧ AllRecorded (partsLoop c tt i l s).1.trace := by
    intro tt l
    induction l with
    | nil => intro i s h1 h2; exact ⟨h1, h2⟩
    | cons p rest ih =>
      intro i s h1 h2
      have h3 := hpart p tt i (prepare c p s) h1 h2
      have h4 : (if needUnhide p s = true then { trackPart c p tt i (prepare c p s) with hidden := false }
        else trackPart c p tt i (prepare c p s)).monitor = true ∧
        AllRecorded (if needUnhide p s = true then { trackPart c p tt i (prepare c p s) with hidden := false }
        else trackPart c p tt i (prepare c p s)).trace := by
        split
        · exact h3
        · exact h3
      simp only [partsLoop]
      split
      · exact ih _ _ h1 h2
      · split
        · exact h4
        · exact ih _ _ h4.1 h4.2
  have key : ∀ k tt (s : St), s.monitor = true → AllRecorded s.trace →
      (turnsLoop c k tt s).monitor = true ∧ AllRecorded (turnsLoop c k tt s).trace := by
    intro k
    induction k with
    | zero => intro tt s h1 h2; exact ⟨h1, h2⟩
    | succ k ih =>
      intro tt s h1 h2
      have h3 := hp tt c.parts 0 s h1 h2
      simp only [turnsLoop]
      split
      · exact h3
      · exact ih _ _ h3.1 (h3.2.append trivial)
  have := key c.turns 0 s hm (by rw [ht]; trivial)
  exact ⟨this.2, this.1⟩

/-- C187 (records), violated: after a hold the rest of the tracking is not recorded. -/
theorem C187_records_violated : ∃ c : Call, (run c { monitor := true }).monitor = false ∧
    (run c { monitor := true }).trace = [.record 0 0, .track 0 0, .record 0 1, .track 0 1, .track 0 2, .endTurn 0] := by
  refine ⟨{ parts := [{}, { collective := true }, {}], holds := fun _ i => if i = 1 then 1 else 0 }, ?_⟩
  decide

/-- A line with all kinds of parts over two turns. -/
example : (run { parts := [{}, { collective := true, needsHidden := true, needsCpu := true }, {}], turns := 2, onGpu := true, holds := fun _ _ => 1 } { monitor := true }).hidden = false ∧
    (run { parts := [{}, { collective := true, needsHidden := true, needsCpu := true }, {}], turns := 2, onGpu := true, holds := fun _ _ => 0 } { monitor := true }).trace.length = 14 := by decide

end Verif.Session
