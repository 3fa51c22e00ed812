import Verif.LossRef.Model

/-!
# Refinement of the location of losses: properties (C124)
-/

namespace Verif.LossRef

open Classical

variable {α : Type}

/-- Tracking in two steps is tracking in one. -/
structure Flow (f : ℝ → ℝ → α → α) : Prop where
  refl : ∀ a c, f a a c = c
  trans : ∀ a b d c, f b d (f a b c) = f a d c

/-- Two neighbours in a list of positions, the first one starting from `a`. -/
def Steps (ds : ℝ) : ℝ → List ℝ → Prop
  | _, [] => True
  | a, d :: r => a < d ∧ d - a ≤ ds ∧ Steps ds d r

theorem walk_spec (S : Section α) (hf : Flow S.move) {ds L : ℝ} : ∀ (l : List ℝ) (a : ℝ) (c : α), Steps ds a (l ++ [L]) → S.inside a c → ¬S.inside L (S.move a L c) →
    ∃ d, (walk S a c (l ++ [L])).2 = d ∧ a < d ∧ d ≤ L ∧ (walk S a c (l ++ [L])).1 = S.move a d c ∧ ¬S.inside d (S.move a d c)
      ∧ ∃ d', a ≤ d' ∧ d' < d ∧ d - d' ≤ ds ∧ S.inside d' (S.move a d' c)
  | [], a, c, hs, hi, ho => by
    obtain ⟨h1, h2, -⟩ := hs
    rw [List.nil_append, walk, if_neg ho]
    exact ⟨L, rfl, h1, le_rfl, rfl, ho, a, le_rfl, h1, h2, by rw [hf.refl]; exact hi⟩
  | d :: r, a, c, hs, hi, ho => by
    obtain ⟨h1, h2, h3⟩ := hs
    rw [List.cons_append, walk]
    by_cases hd : S.inside d (S.move a d c)
    · rw [if_pos hd]
      obtain ⟨e, g1, g2, g3, g4, g5, e', k1, k2, k3, k4⟩ := walk_spec S hf r d (S.move a d c) h3 hd (by rw [hf.trans]; exact ho)
      rw [hf.trans] at g4 g5 k4
      exact ⟨e, g1, lt_trans h1 g2, g3, g4, g5, e', le_trans h1.le k1, k2, k3, k4⟩
    · rw [if_neg hd]
      have hle : ∀ (l : List ℝ) (b : ℝ), Steps ds b (l ++ [L]) → b ≤ L := by
        intro l
        induction l with
        | nil => intro b hb; exact hb.1.le
        | cons x l ih => intro b hb; exact le_trans hb.1.le (ih x hb.2.2)
      exact ⟨d, rfl, h1, hle r d h3, rfl, hd, a, le_rfl, h1, h2, by rw [hf.refl]; exact hi⟩

theorem steps_linspace {L : ℝ} {n : ℕ} (hL : 0 < L) (hn : 0 < n) {ds : ℝ} (hd : L / n ≤ ds) :
    ∀ (m k : ℕ), k + m + 1 = n → Steps ds (L * (k : ℝ) / n) ((List.range' k m).map (fun j : ℕ => L * ((j : ℝ) + 1) / n) ++ [L])
  | 0, k, h => by
    have hn' : (0 : ℝ) < n := by exact_mod_cast hn
    have hk : (n : ℝ) = k + 1 := by rw [← h]; push_cast; ring
    have e : L - L * (k : ℝ) / n = L / n := by rw [hk]; rw [hk] at hn'; field_simp; ring
    have hp : 0 < L / n := by positivity
    refine ⟨by linarith, by linarith, trivial⟩
  | m + 1, k, h => by
    have hn' : (0 : ℝ) < n := by exact_mod_cast hn
    have e : L * ((k : ℝ) + 1) / n - L * (k : ℝ) / n = L / n := by ring
    have hp : 0 < L / n := by positivity
    have ih := steps_linspace hL hn hd m (k + 1) (by omega)
    rw [List.range'_succ, List.map_cons, List.cons_append]
    refine ⟨by linarith, by linarith, ?_⟩
    push_cast at ih ⊢
    exact ih

theorem steps_grid (S : Section α) {ds : ℝ} (hds : 0 < ds) (h : ds < S.s1 - S.s0) : Steps ds 0 (sVect S ds ++ [S.s1 - S.s0]) := by
  set L := S.s1 - S.s0 with hL
  have hLp : 0 < L := lt_trans hds h
  set n := Nat.ceil (L / ds) with hn
  have h1 : L / ds ≤ n := Nat.le_ceil _
  have h2 : 1 < L / ds := by rw [one_lt_div hds]; exact h
  have hn1 : 1 < n := by
    have : (1 : ℝ) < n := lt_of_lt_of_le h2 h1
    exact_mod_cast this
  have hnp : (0 : ℝ) < n := by exact_mod_cast (by omega : 0 < n)
  have hstep : L / n ≤ ds := by
    rw [div_le_iff₀ hnp, mul_comm]
    rwa [div_le_iff₀ hds] at h1
  have := steps_linspace hLp (by omega : 0 < n) hstep (n - 1) 0 (by omega)
  unfold sVect
  simp only [← hL, ← hn]
  rw [if_neg (by omega), List.range_eq_range']
  simpa using this

/-- **C124, location.**  A particle lost at an aperture is moved along its own trajectory to a place between the previous aperture and this one, where it is outside
of the aperture, and at most `ds` after a place where it was inside; `state` and `at_element` stay. -/
theorem C124_location (S : Section α) (hf : Flow S.move) {ds : ℝ} (hds : 0 < ds) (h : ds < S.s1 - S.s0) (p : Part α) (hs : p.s = S.s1)
    (hout : ¬S.inside (S.s1 - S.s0) p.c) (hin : S.inside 0 (S.move (S.s1 - S.s0) 0 p.c)) :
    ∃ d, 0 < d ∧ d ≤ S.s1 - S.s0 ∧ (refineSingle S ds p).s = S.s0 + d ∧ (refineSingle S ds p).c = S.move (S.s1 - S.s0) d p.c
      ∧ ¬S.inside d (S.move (S.s1 - S.s0) d p.c)
      ∧ (∃ d', 0 ≤ d' ∧ d' < d ∧ d - d' ≤ ds ∧ S.inside d' (S.move (S.s1 - S.s0) d' p.c))
      ∧ (refineSingle S ds p).state = p.state ∧ (refineSingle S ds p).atElement = p.atElement := by
  set L := S.s1 - S.s0 with hL
  set c0 := S.move L 0 p.c with hc0
  have e0 : walk S 0 c0 (grid S ds) = walk S 0 c0 (sVect S ds ++ [L]) := by
    unfold grid
    rw [walk, hf.refl, if_pos hin]
  have ho : ¬S.inside L (S.move 0 L c0) := by rw [hc0, hf.trans, hf.refl]; exact hout
  obtain ⟨d, h1, h2, h3, h4, h5, d', k1, k2, k3, k4⟩ := walk_spec S hf (sVect S ds) 0 c0 (steps_grid S hds h) hin ho
  rw [hc0, hf.trans] at h4 h5 k4
  refine ⟨d, h2, h3, ?_, ?_, h5, ⟨d', k1, k2, k3, k4⟩, rfl, rfl⟩
  · show p.s - (S.s1 - S.s0) + (walk S 0 (S.move (S.s1 - S.s0) 0 p.c) (grid S ds)).2 = _
    rw [← hL, ← hc0, e0, h1, hs]
    linarith
  · show (walk S 0 (S.move (S.s1 - S.s0) 0 p.c) (grid S ds)).1 = _
    rw [← hL, ← hc0, e0, h4]

/-- What should happen to a particle: refined with the part of the line before the aperture at which it was lost. -/
noncomputable def target (ds : ℝ) : List (ℕ × Option (Section α)) → Part α → Part α
  | [], p => p
  | (i, sec) :: r, p =>
    if LostAt i p then
      match sec with
      | none => p
      | some S => if S.s1 - S.s0 ≤ ds then p else refineSingle S ds p
    else target ds r p

theorem target_cons (ds : ℝ) (i : ℕ) (sec : Option (Section α)) (r : List (ℕ × Option (Section α))) (p : Part α) : target ds ((i, sec) :: r) p =
    if LostAt i p then
      match sec with
      | none => p
      | some S => if S.s1 - S.s0 ≤ ds then p else refineSingle S ds p
    else target ds r p := rfl

theorem refine_cons (ds : ℝ) (i : ℕ) (sec : Option (Section α)) (r : List (ℕ × Option (Section α))) (ps : List (Part α)) : refine ds ((i, sec) :: r) ps =
    if ∃ p ∈ ps, LostAt i p then
      match sec with
      | none => refine ds r ps
      | some S =>
        if S.skip then some ps
        else if S.s1 - S.s0 ≤ ds then refine ds r ps
        else if S.canBacktrack then refine ds r (ps.map fun p => if LostAt i p then refineSingle S ds p else p)
        else none
    else refine ds r ps := rfl

theorem target_of_not (ds : ℝ) {p : Part α} : ∀ (l : List (ℕ × Option (Section α))), p.state ≠ 0 ∨ p.atElement ∉ l.map Prod.fst → target ds l p = p
  | [], _ => rfl
  | (i, sec) :: r, h => by
    have hn : ¬LostAt i p := by
      rintro ⟨h1, h2⟩
      rcases h with h | h
      · exact h h1
      · exact h (by rw [h2]; simp)
    rw [target_cons, if_neg hn]
    apply target_of_not ds r
    rcases h with h | h
    · exact Or.inl h
    · exact Or.inr fun h' => h (by rw [List.map_cons]; exact List.mem_cons_of_mem _ h')

theorem target_refined (ds : ℝ) (S : Section α) (i : ℕ) (r : List (ℕ × Option (Section α))) (hi : i ∉ r.map Prod.fst) (p : Part α) (hl : LostAt i p) :
    target ds r (refineSingle S ds p) = refineSingle S ds p :=
  target_of_not ds r (Or.inr (by show p.atElement ∉ _; rw [hl.2]; exact hi))

/-- **C124, all particles.**  When no part of the line before an aperture with losses has to be skipped, or cannot be tracked backwards, every particle is refined
with the part of the line in which it was lost, and all others are left alone. -/
theorem C124_all_partial {ds : ℝ} : ∀ (l : List (ℕ × Option (Section α))) (ps : List (Part α)), (l.map Prod.fst).Nodup →
    (∀ i S, (i, some S) ∈ l → (∃ p ∈ ps, LostAt i p) → S.skip = false ∧ S.canBacktrack = true) → refine ds l ps = some (ps.map (target ds l))
  | [], ps, _, _ => by simp [refine, target]
  | (i, sec) :: r, ps, hn, hb => by
    rw [List.map_cons, List.nodup_cons] at hn
    have hb' : ∀ i S, (i, some S) ∈ r → (∃ p ∈ ps, LostAt i p) → S.skip = false ∧ S.canBacktrack = true :=
      fun i S hS => hb i S (List.mem_cons_of_mem _ hS)
    have hstay : ∀ p : Part α, LostAt i p → target ds r p = p := fun p hp => target_of_not ds r (Or.inr (by rw [hp.2]; exact hn.1))
    rw [refine_cons]
    by_cases hex : ∃ p ∈ ps, LostAt i p
    · rw [if_pos hex]
      cases sec with
      | none =>
        show refine ds r ps = _
        rw [C124_all_partial r ps hn.2 hb']
        congr 1
        apply List.map_congr_left
        intro p _
        by_cases hp : LostAt i p
        · rw [target_cons, if_pos hp]; exact hstay p hp
        · rw [target_cons, if_neg hp]
      | some S =>
        obtain ⟨b1, b2⟩ := hb i S List.mem_cons_self hex
        simp only [b1, b2]
        rw [if_neg (by simp)]
        by_cases hsh : S.s1 - S.s0 ≤ ds
        · rw [if_pos hsh, C124_all_partial r ps hn.2 hb']
          congr 1
          apply List.map_congr_left
          intro p _
          by_cases hp : LostAt i p
          · rw [target_cons, if_pos hp]
            simp only [if_pos hsh]
            exact hstay p hp
          · rw [target_cons, if_neg hp]
        · rw [if_neg hsh, if_pos trivial, C124_all_partial r _ hn.2 ?_, List.map_map]
          · congr 1
            apply List.map_congr_left
            intro p _
            rw [Function.comp_apply]
            by_cases hp : LostAt i p
            · rw [if_pos hp, target_cons, if_pos hp]
              simp only [if_neg hsh]
              exact target_refined ds S i r hn.1 p hp
            · rw [if_neg hp, target_cons, if_neg hp]
          · rintro j T hT ⟨q, hq, hq1⟩
            obtain ⟨p, hp, rfl⟩ := List.mem_map.mp hq
            refine hb' j T hT ⟨p, hp, ?_⟩
            by_cases hlp : LostAt i p
            · rw [if_pos hlp] at hq1
              exact hq1
            · rwa [if_neg hlp] at hq1
    · rw [if_neg hex, C124_all_partial r ps hn.2 hb']
      congr 1
      apply List.map_congr_left
      intro p hp
      rw [target_cons, if_neg fun h => hex ⟨p, hp, h⟩]

/-- Particles which are not lost, or not at one of the apertures, are never changed. -/
theorem C124_others {ds : ℝ} : ∀ (l : List (ℕ × Option (Section α))) (ps qs : List (Part α)), refine ds l ps = some qs →
    qs.length = ps.length ∧ ∀ (k : ℕ) (hk : k < ps.length), (ps[k].state ≠ 0 ∨ ps[k].atElement ∉ l.map Prod.fst) → qs[k]? = some ps[k]
  | [], ps, qs, h => by
    rw [refine] at h
    cases h
    exact ⟨rfl, fun k hk _ => by simp [hk]⟩
  | (i, sec) :: r, ps, qs, h => by
    have sub : ∀ (k : ℕ) (hk : k < ps.length), (ps[k].state ≠ 0 ∨ ps[k].atElement ∉ (((i, sec) :: r).map Prod.fst)) →
        (ps[k].state ≠ 0 ∨ ps[k].atElement ∉ r.map Prod.fst) := fun k hk hh => by
      rcases hh with hh | hh
      · exact Or.inl hh
      · exact Or.inr fun h' => hh (by rw [List.map_cons]; exact List.mem_cons_of_mem _ h')
    have rec1 : refine ds r ps = some qs → qs.length = ps.length ∧ ∀ (k : ℕ) (hk : k < ps.length), (ps[k].state ≠ 0 ∨ ps[k].atElement ∉ (((i, sec) :: r).map Prod.fst)) →
        qs[k]? = some ps[k] := fun h' => by
      obtain ⟨h1, h2⟩ := C124_others r ps qs h'
      exact ⟨h1, fun k hk hh => h2 k hk (sub k hk hh)⟩
    rw [refine_cons] at h
    split at h
    · cases sec with
      | none => exact rec1 h
      | some S =>
        simp only at h
        split at h
        · cases h
          exact ⟨rfl, fun k hk _ => by simp [hk]⟩
        · split at h
          · exact rec1 h
          · split at h
            · obtain ⟨h1, h2⟩ := C124_others r _ qs h
              rw [List.length_map] at h1
              refine ⟨h1, fun k hk hh => ?_⟩
              have hnot : ¬LostAt i ps[k] := by
                rintro ⟨a, b⟩
                rcases hh with hh | hh
                · exact hh a
                · exact hh (by rw [b]; simp)
              have e : (ps.map fun p => if LostAt i p then refineSingle S ds p else p)[k]'(by rw [List.length_map]; exact hk) = ps[k] := by
                rw [List.getElem_map, if_neg hnot]
              have := h2 k (by rw [List.length_map]; exact hk) (by rw [e]; exact sub k hk hh)
              rw [this, e]
            · exact absurd h (by simp)
    · exact rec1 h

/-! ## Where it fails -/

/-- A particle which moves in parallel to the axis, in a pipe which gets narrower: half gap 2 at the first aperture and one tenth at the second, 2 m further. -/
noncomputable def cone (s0 : ℝ) (skip : Bool) : Section ℝ := ⟨s0, s0 + 2, skip, true, fun _ _ x => x, fun d x => x ≤ 2 - 0.95 * d⟩

theorem cone_flow (s0 : ℝ) (b : Bool) : Flow (cone s0 b).move := ⟨fun _ _ => rfl, fun _ _ _ _ => rfl⟩

theorem cone_grid (s0 : ℝ) (b : Bool) : grid (cone s0 b) 1 = [0, 1, 2] := by
  have h : Nat.ceil ((s0 + 2 - s0) / 1 : ℝ) = 2 := by
    rw [show (s0 + 2 - s0) / 1 = ((2 : ℕ) : ℝ) by push_cast; ring, Nat.ceil_natCast]
  unfold grid sVect cone
  simp only [h]
  simp

theorem cone_refine (s0 : ℝ) (b : Bool) (p : Part ℝ) (hp : p.c = 3 / 2) : refineSingle (cone s0 b) 1 p = { p with s := p.s - 1 } := by
  unfold refineSingle
  rw [cone_grid]
  dsimp only
  have e : walk (cone s0 b) 0 ((cone s0 b).move ((cone s0 b).s1 - (cone s0 b).s0) 0 p.c) [0, 1, 2] = (3 / 2, 1) := by
    norm_num [walk, cone, hp]
  rw [e]
  have : (cone s0 b).s1 - (cone s0 b).s0 = 2 := by norm_num [cone]
  rw [this]
  cases p
  simp only at hp ⊢
  subst hp
  congr 1
  ring

/-- **C124, violated: apertures after a part to be skipped.**  Two particles are lost, one behind a collimator (which asks to be skipped) and one, further
downstream, in a part of the line without any.  The function returns at the first one: the second one is not refined, although it is when it is lost alone. -/
theorem C124_skip_violated : ∃ (l : List (ℕ × Option (Section ℝ))) (p q q' : Part ℝ), (l.map Prod.fst).Nodup ∧ q.s ≠ q'.s
    ∧ refine 1 l [q] = some [q'] ∧ refine 1 l [p, q] = some [p, q] := by
  refine ⟨[(0, none), (2, some (cone 0 true)), (4, some (cone 2 false))], ⟨0, 2, 2, 3 / 2⟩, ⟨0, 4, 4, 3 / 2⟩, ⟨0, 4, 3, 3 / 2⟩, by simp, by norm_num, ?_, ?_⟩
  · have h1 : (cone 2 false).skip = false := rfl
    have h2 : (cone 2 false).canBacktrack = true := rfl
    have h3 : ¬(cone 2 false).s1 - (cone 2 false).s0 ≤ 1 := by norm_num [cone]
    simp only [refine_cons, refine, LostAt, h1, h2, if_neg h3]
    norm_num [cone_refine]
  · simp [refine, LostAt, cone]

/-- **C124, violated: refining twice.**  Nothing tells that a particle has been refined.  When the function is called again, for example after more turns, the particle
is tracked backwards from the place of its loss as if it were still at the aperture: here it ends at the first aperture, where it is well inside. -/
theorem C124_twice_violated : ∃ (l : List (ℕ × Option (Section ℝ))) (S : Section ℝ) (p q r : Part ℝ), (4, some S) ∈ l ∧ Flow S.move
    ∧ p.s = S.s1 ∧ ¬S.inside (S.s1 - S.s0) p.c ∧ S.inside 0 (S.move (S.s1 - S.s0) 0 p.c)
    ∧ refine 1 l [p] = some [q] ∧ ¬S.inside (q.s - S.s0) q.c ∧ refine 1 l [q] = some [r] ∧ r.s = S.s0 ∧ S.inside (r.s - S.s0) r.c := by
  have h1 : (cone 0 false).skip = false := rfl
  have h2 : (cone 0 false).canBacktrack = true := rfl
  have h3 : ¬(cone 0 false).s1 - (cone 0 false).s0 ≤ 1 := by norm_num [cone]
  refine ⟨[(2, none), (4, some (cone 0 false))], cone 0 false, ⟨0, 4, 2, 3 / 2⟩, ⟨0, 4, 1, 3 / 2⟩, ⟨0, 4, 0, 3 / 2⟩, by simp, cone_flow _ _, by norm_num [cone],
    by norm_num [cone], by norm_num [cone], ?_, by norm_num [cone], ?_, by norm_num [cone], by norm_num [cone]⟩
  · simp only [refine_cons, refine, LostAt, h1, h2, if_neg h3]
    norm_num [cone_refine]
  · simp only [refine_cons, refine, LostAt, h1, h2, if_neg h3]
    norm_num [cone_refine]

/-- A drift in a pipe of constant radius meets the hypotheses of `C124_location`. -/
example : ∃ (S : Section (ℝ × ℝ)) (p : Part (ℝ × ℝ)), Flow S.move ∧ (1 : ℝ) < S.s1 - S.s0 ∧ p.s = S.s1 ∧ ¬S.inside (S.s1 - S.s0) p.c
    ∧ S.inside 0 (S.move (S.s1 - S.s0) 0 p.c) := by
  refine ⟨⟨0, 3, false, true, fun a b c => (c.1 + (b - a) * c.2, c.2), fun _ c => |c.1| ≤ 1⟩, ⟨0, 4, 3, (2, 1)⟩,
    ⟨fun a c => by ext <;> simp, fun a b d c => by ext <;> simp; ring⟩, by norm_num, rfl, by norm_num, by norm_num⟩

end Verif.LossRef
