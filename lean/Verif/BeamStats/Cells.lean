import Verif.BeamStats.Model
import Mathlib.Algebra.BigOperators.Group.List.Basic
import Mathlib.Data.List.Nodup
import Mathlib.Tactic.FieldSimp
import Mathlib.Tactic.NormNum

/-!
# Lemmas: what the constructor guarantees, and which entry a particle is added to
-/

namespace Verif.BeamStats

variable {K : Type*} [Field K] [LinearOrder K] [IsStrictOrderedRing K] [FloorRing K]

/-! ## The table of slots -/

theorem assign_length (l : List (ℤ × ℕ)) : ∀ t, (assign l t).length = t.length := by
  induction l with
  | nil => intro t; rfl
  | cons a rest ih => intro t; obtain ⟨s, i⟩ := a; rw [assign, ih]; simp

theorem assign_not (l : List (ℤ × ℕ)) : ∀ (t : List ℤ) (k : ℕ), (∀ a ∈ l, a.1.toNat ≠ k) →
    (assign l t)[k]? = t[k]? := by
  induction l with
  | nil => intro t k _; rfl
  | cons a rest ih =>
    intro t k h
    obtain ⟨s, i⟩ := a
    rw [assign, ih _ _ (fun b hb => h b (by simp [hb])), List.getElem?_set_ne]
    exact h (s, i) (by simp)

theorem assign_mem (l : List (ℤ × ℕ)) : ∀ (t : List ℤ), (l.map (fun a => a.1.toNat)).Nodup →
    (∀ a ∈ l, a.1.toNat < t.length) → ∀ a ∈ l, (assign l t)[a.1.toNat]? = some (a.2 : ℤ) := by
  induction l with
  | nil => intro t _ _ a ha; simp at ha
  | cons b rest ih =>
    intro t hn hl a ha
    obtain ⟨s, i⟩ := b
    rw [List.map_cons, List.nodup_cons] at hn
    rw [assign]
    rcases List.mem_cons.1 ha with e | e
    · subst e
      rw [assign_not]
      · have := hl (s, i) (by simp)
        simp [List.getElem?_set_self this]
      · intro c hc e
        exact hn.1 (List.mem_map.2 ⟨c, hc, e⟩)
    · exact ih _ hn.2 (fun c hc => by rw [List.length_set]; exact hl c (by simp [hc])) a e

theorem le_foldl_max (l : List ℤ) : ∀ a, a ≤ l.foldl max a ∧ ∀ s ∈ l, s ≤ l.foldl max a := by
  induction l with
  | nil => intro a; simp
  | cons b rest ih =>
    intro a
    obtain ⟨h1, h2⟩ := ih (max a b)
    refine ⟨le_trans (le_max_left _ _) h1, ?_⟩
    intro s hs
    rcases List.mem_cons.1 hs with e | e
    · subst e; exact le_trans (le_max_right _ _) h1
    · exact h2 s e

theorem le_maxSlot (l : List ℤ) (s : ℤ) (h : s ∈ l) : s ≤ maxSlot l :=
  (le_foldl_max l _).2 s h

theorem zipIdx_fst_nodup (l : List ℤ) (hn : l.Nodup) (hp : ∀ s ∈ l, 0 ≤ s) (k : ℕ) :
    ((l.zipIdx k).map (fun a => a.1.toNat)).Nodup := by
  have e : (l.zipIdx k).map (fun a => a.1.toNat) = l.map Int.toNat := by
    induction l generalizing k with
    | nil => rfl
    | cons a l ih =>
      rw [List.zipIdx_cons, List.map_cons, List.map_cons,
        ih (List.nodup_cons.1 hn).2 (fun s hs => hp s (by simp [hs]))]
  rw [e]
  refine (List.nodup_map_iff_inj_on hn).2 (fun a ha b hb h => by have := hp a ha; have := hp b hb; omega)

/-- What the table of slots says. -/
theorem lookup_spec (sel tab : List ℤ) (hn : sel.Nodup) (h : lookup sel = .ok tab) :
    (∀ s ∈ sel, 0 ≤ s) ∧
      ∀ (slot i : ℤ), (0 ≤ slot ∧ slot < tab.length ∧ tab.getD slot.toNat (-1) = i ∧ 0 ≤ i) ↔
        (0 ≤ i ∧ sel[i.toNat]? = some slot) := by
  unfold lookup at h
  split at h
  · rename_i e
    subst e
    obtain rfl : tab = [] := (Except.ok.inj h).symm
    refine ⟨by simp, fun slot i => ?_⟩
    simp
    intro a b; omega
  · split at h
    · simp at h
    · split at h
      · simp at h
      · rename_i h1 h2 h3
        have hp : ∀ s ∈ sel, 0 ≤ s := fun s hs => by
          by_contra hc; exact h3 ⟨s, hs, by omega⟩
        have et := Except.ok.inj h
        refine ⟨hp, fun slot i => ?_⟩
        have hlen : tab.length = (maxSlot sel + 1).toNat := by
          rw [← et, assign_length, List.length_replicate]
        have hmem : ∀ (k : ℕ) (s : ℤ), sel[k]? = some s → tab[s.toNat]? = some (k : ℤ) := by
          intro k s hk
          rw [← et]
          refine assign_mem sel.zipIdx _ (zipIdx_fst_nodup sel hn hp 0) ?_ (s, k) ?_
          · intro a ha
            have : a.1 ∈ sel := by
              obtain ⟨b, c⟩ := a
              exact List.fst_mem_of_mem_zipIdx ha
            have := le_maxSlot sel _ this
            have := hp _ ‹a.1 ∈ sel›
            rw [List.length_replicate]; omega
          · rw [List.mem_zipIdx_iff_getElem?]; exact hk
        constructor
        · rintro ⟨h0, hl, hg, hi⟩
          refine ⟨hi, ?_⟩
          by_cases hs : slot ∈ sel
          · obtain ⟨k, hk⟩ := List.mem_iff_getElem?.1 hs
            have := hmem k slot hk
            rw [List.getD_eq_getElem?_getD, this] at hg
            simp at hg
            rw [← hg]; simpa using hk
          · exfalso
            have : tab[slot.toNat]? = (List.replicate (maxSlot sel + 1).toNat (-1 : ℤ))[slot.toNat]? := by
              rw [← et]
              refine assign_not _ _ _ ?_
              intro a ha e
              have hm : a.1 ∈ sel := by
                obtain ⟨b, c⟩ := a
                exact List.fst_mem_of_mem_zipIdx ha
              have := hp _ hm
              have : a.1 = slot := by omega
              exact hs (this ▸ hm)
            rw [List.getD_eq_getElem?_getD, this, List.getElem?_replicate] at hg
            split at hg <;> simp at hg <;> omega
        · rintro ⟨hi, hs⟩
          have hm : slot ∈ sel := List.mem_iff_getElem?.2 ⟨_, hs⟩
          have h1 := hp _ hm
          have h2 := le_maxSlot sel _ hm
          have h3 := hmem _ _ hs
          refine ⟨h1, by rw [hlen]; omega, ?_, hi⟩
          rw [List.getD_eq_getElem?_getD, h3]
          simp; omega

/-! ## What the constructor guarantees -/

/-- What the constructor guarantees about the fields. -/
structure Good (c : Conf K) : Prop where
  every : 0 < c.every
  records : c.nRecords = turnCount c.start c.stop c.every
  nodup : c.selected.Nodup
  spacing : 0 ≤ c.spacing
  bunches : c.mode = .bunch ∨ c.mode = .slice → c.nSelected = c.selected.length ∧
    (∀ (slot i : ℤ), (0 ≤ slot ∧ slot < c.slotTo.length ∧ c.slotTo.getD slot.toNat (-1) = i ∧ 0 ≤ i)
      ↔ (0 ≤ i ∧ c.selected[i.toNat]? = some slot)) ∧ (c.spacing = 0 → c.selected = [0])
  slices : c.mode = .slice → 0 < c.nSlices ∧ 0 < c.dzeta
  coast : c.mode = .coasting → 0 < c.nSlices ∧ c.nSelected = 1 ∧ c.selected = [0]
  beam : c.mode = .beam → c.selected = []

theorem slots_spec (inp : Input K) (sel : List ℤ) (h : slots inp = .ok sel) :
    sel.Nodup ∧ sel = inp.selected.getD (filledSlots inp) ∧
      (∀ sp, inp.spacing = some sp → 0 < sp) ∧ (inp.spacing = none → sel = [0]) := by
  unfold slots at h
  split at h
  · simp at h
  · dsimp only at h
    split at h
    · simp at h
    · split at h
      · simp at h
      · split at h
        · simp at h
        · split at h
          · simp at h
          · rename_i h1 h2 h3 h4 h5
            split at h
            · split at h
              · simp at h
              · split at h
                · simp at h
                · rename_i hsp _ hz
                  have e := Except.ok.inj h
                  push Not at hz
                  exact ⟨e ▸ not_not.1 h4, e.symm, by simp [hsp], fun _ => e ▸ hz.2⟩
            · rename_i sp hsp
              split at h
              · simp at h
              · rename_i hz
                have e := Except.ok.inj h
                refine ⟨e ▸ not_not.1 h4, e.symm, ?_, by simp [hsp]⟩
                intro sp' hsp'
                rw [hsp] at hsp'
                obtain rfl := Option.some.inj hsp'
                exact not_le.1 hz

/-- What the fields are, by the arguments. -/
structure Fields (inp : Input K) (c : Conf K) : Prop where
  start : c.start = inp.start
  stop : c.stop = inp.stop.getD (inp.start + 1)
  every : c.every = inp.every
  spacing : c.spacing = inp.spacing.getD 0
  ids : idBounds inp.idRange = .ok (c.idStart, c.idStop)
  mode : c.mode = if inp.coasting then .coasting else if inp.zetaRange.isSome then .slice
    else if bunchInput inp then .bunch else .beam
  selected : c.mode = .bunch ∨ c.mode = .slice → c.selected = inp.selected.getD (filledSlots inp)
  slices : c.mode = .slice ∨ c.mode = .coasting → inp.numSlices = some c.nSlices
  range : c.mode = .slice → ∃ b, inp.zetaRange = some (c.zMin, b) ∧
    c.dzeta = (b - c.zMin) / (c.nSlices : K)
  centre : c.mode = .bunch → inp.spacing.isSome → c.zMin = -(1 / 2) * c.spacing
  positive : inp.spacing.isSome → 0 < c.spacing

theorem build_spec (inp : Input K) (c : Conf K) (h : build inp = .ok c) : Good c ∧ Fields inp c := by
  unfold build at h
  split at h
  · simp at h
  · split at h
    · simp at h
    · split at h
      · simp at h
      · dsimp only at h
        split at h
        · simp at h
        · split at h
          · simp at h
          · split at h
            · simp at h
            · rename_i h1 h2 h3 h4 _ ids ide hid h5
              have hev : 0 < inp.every := not_le.1 h4
              split at h
              · rename_i hco
                split at h
                · simp at h
                · rename_i hk
                  have hns : ∃ k, inp.numSlices = some k := by
                    cases e : inp.numSlices with
                    | none => exact absurd ⟨hco, e⟩ h1
                    | some k => exact ⟨k, rfl⟩
                  obtain ⟨k, hns⟩ := hns
                  have hsp : inp.spacing = none := by
                    cases e : inp.spacing with
                    | none => rfl
                    | some s => exact absurd ⟨hco, by simp [bunchInput, e]⟩ h5
                  obtain rfl := Except.ok.inj h
                  rw [hns] at hk
                  simp only [Option.getD_some, not_le] at hk
                  refine ⟨⟨hev, rfl, by simp, by simp [hsp], by simp, by simp, ?_, by simp⟩,
                    ⟨rfl, rfl, rfl, rfl, hid, by simp [hco], by simp, ?_, by simp, by simp,
                      by simp [hsp]⟩⟩
                  · intro _; simp [hns, hk]
                  · intro _; simp [hns]
              · rename_i hco
                split at h
                · rename_i hm
                  split at h
                  · simp at h
                  · rename_i sel hsel
                    obtain ⟨s1, s2, s3, s4⟩ := slots_spec inp sel hsel
                    split at h
                    · simp at h
                    · rename_i tab htab
                      obtain ⟨t1, t2⟩ := lookup_spec sel tab s1 htab
                      have hsp0 : 0 ≤ inp.spacing.getD 0 := by
                        cases e : inp.spacing with
                        | none => simp
                        | some s => simpa using (s3 s e).le
                      have hspz : inp.spacing.getD 0 = 0 → sel = [0] := by
                        cases e : inp.spacing with
                        | none => intro _; exact s4 e
                        | some s => intro h0; exact absurd h0 (ne_of_gt (s3 s e))
                      have hpos : inp.spacing.isSome → 0 < inp.spacing.getD 0 := by
                        cases e : inp.spacing with
                        | none => simp
                        | some s => intro _; exact s3 s e
                      split at h
                      · rename_i a b hz
                        split at h
                        · simp at h
                        · split at h
                          · simp at h
                          · rename_i hk hd
                            have hns : ∃ k, inp.numSlices = some k := by
                              cases e : inp.numSlices with
                              | none => exact absurd ⟨hco, by simp [hz, e]⟩ h3
                              | some k => exact ⟨k, rfl⟩
                            obtain ⟨k, hns⟩ := hns
                            obtain rfl := Except.ok.inj h
                            refine ⟨⟨hev, rfl, s1, hsp0, fun _ => ⟨rfl, t2, hspz⟩,
                              fun _ => ⟨not_le.1 hk, not_le.1 hd⟩, by simp, by simp⟩,
                              ⟨rfl, rfl, rfl, rfl, hid, by simp [hco, hz], fun _ => s2, ?_, ?_,
                                by simp, hpos⟩⟩
                            · intro _; simp [hns]
                            · intro _; exact ⟨b, hz, rfl⟩
                      · rename_i hz
                        obtain rfl := Except.ok.inj h
                        refine ⟨⟨hev, rfl, s1, hsp0, fun _ => ⟨rfl, t2, hspz⟩, by simp, by simp,
                          by simp⟩,
                          ⟨rfl, rfl, rfl, rfl, hid, ?_, fun _ => s2, by simp, by simp, ?_, hpos⟩⟩
                        · have : bunchInput inp = true := by simpa [hz] using hm
                          simp [hco, hz, this]
                        · intro _ hs; simp [hs]
                · rename_i hm
                  have hz : inp.zetaRange = none := by
                    cases e : inp.zetaRange with
                    | none => rfl
                    | some a => exact absurd (Or.inl (by simp [e])) hm
                  have hb : bunchInput inp = false := by
                    cases e : bunchInput inp with
                    | false => rfl
                    | true => exact absurd (Or.inr e) hm
                  have hsp : inp.spacing = none := by
                    cases e : inp.spacing with
                    | none => rfl
                    | some s => simp [bunchInput, e] at hb
                  obtain rfl := Except.ok.inj h
                  refine ⟨⟨hev, rfl, by simp, by simp [hsp], by simp, by simp, by simp, by simp⟩,
                    ⟨rfl, rfl, rfl, rfl, hid, by simp [hco, hz, hb], by simp, by simp, by simp,
                      by simp, by simp [hsp]⟩⟩

/-! ## Records -/

theorem lt_turnCount (start stop every r : ℤ) (he : 0 < every) (h0 : 0 ≤ r) :
    r < turnCount start stop every ↔ start + r * every < stop := by
  unfold turnCount
  rw [lt_max_iff]
  constructor
  · rintro (h | h)
    · omega
    · have : r + 1 ≤ (stop - start + every - 1) / every := h
      rw [Int.le_ediv_iff_mul_le he] at this
      nlinarith
  · intro h
    right
    have : r + 1 ≤ (stop - start + every - 1) / every := by
      rw [Int.le_ediv_iff_mul_le he]
      nlinarith
    omega

theorem atTurn_iff (c : Conf K) (g : Good c) (eff s r i : ℤ) (z z' : K) :
    atTurn c eff s z = some (r, i, z') ↔
      (0 ≤ r ∧ r < c.nRecords ∧ eff = c.start + r * c.every ∧ flat c z r s = some i ∧ z' = z) := by
  have he := g.every
  unfold atTurn
  dsimp only
  constructor
  · intro h
    split at h
    · rename_i hc
      obtain ⟨h1, h2, h3⟩ := hc
      split at h
      · rename_i hr
        have e : eff - c.start = (eff - c.start).tdiv c.every * c.every := by
          have := Int.tmod_add_mul_tdiv (eff - c.start) c.every
          rw [h3] at this
          linarith
        rw [Option.map_eq_some_iff] at h
        obtain ⟨j, hj, hq⟩ := h
        simp only [Prod.mk.injEq] at hq
        obtain ⟨q1, q2, q3⟩ := hq
        subst q1 q2
        exact ⟨hr.1, hr.2, by linarith, hj, q3.symm⟩
      · simp at h
    · simp at h
  · rintro ⟨h0, h1, h2, h3, h4⟩
    have h5 : c.start + r * c.every < c.stop := by
      rw [g.records] at h1
      exact (lt_turnCount _ _ _ _ he h0).1 h1
    have e : eff - c.start = r * c.every := by linarith
    have hm : (eff - c.start).tmod c.every = 0 := by rw [e]; exact Int.mul_tmod_left r c.every
    have hd : (eff - c.start).tdiv c.every = r := by
      rw [e]; exact Int.mul_tdiv_cancel r (by omega)
    have : c.start ≤ eff := by nlinarith
    rw [if_pos ⟨this, by linarith, hm⟩, hd, if_pos ⟨h0, h1⟩, h3]
    simp [h4]

/-! ## Slots and slices -/

/-- The slot found is the one whose window holds the particle. -/
theorem chosen_iff (c : Conf K) (g : Good c) (hb : c.mode = .bunch ∨ c.mode = .slice)
    (hs : c.spacing ≠ 0) (zeta : K) (slot i : ℤ) :
    chosen c zeta = some (slot, i) ↔ (0 ≤ i ∧ c.selected[i.toNat]? = some slot ∧
      c.zMin - (slot : K) * c.spacing ≤ zeta ∧ zeta < c.zMin - (slot : K) * c.spacing + c.spacing) := by
  have hp : 0 < c.spacing := lt_of_le_of_ne g.spacing (Ne.symm hs)
  obtain ⟨-, t, -⟩ := g.bunches hb
  have key : ∀ k : ℤ, -⌊(zeta - c.zMin) / c.spacing⌋ = k ↔
      (c.zMin - (k : K) * c.spacing ≤ zeta ∧
        zeta < c.zMin - (k : K) * c.spacing + c.spacing) := by
    intro k
    rw [neg_eq_iff_eq_neg, Int.floor_eq_iff, le_div_iff₀ hp, div_lt_iff₀ hp]
    push_cast
    constructor
    · rintro ⟨a, b⟩; constructor <;> nlinarith
    · rintro ⟨a, b⟩; constructor <;> nlinarith
  unfold chosen
  rw [if_pos hs]
  dsimp only
  constructor
  · intro h
    split at h
    · rename_i hr
      split at h
      · simp at h
      · rename_i hi
        simp only [Option.some.injEq, Prod.mk.injEq] at h
        obtain ⟨e1, e2⟩ := h
        rw [e1] at e2 hr
        have := (t slot i).1 ⟨hr.1, hr.2, e2, by rw [e1] at hi; omega⟩
        exact ⟨this.1, this.2, (key slot).1 e1⟩
    · simp at h
  · rintro ⟨h0, h1, h2, h3⟩
    have e1 := (key slot).2 ⟨h2, h3⟩
    obtain ⟨a, b, d, _⟩ := (t slot i).2 ⟨h0, h1⟩
    rw [e1, if_pos ⟨a, b⟩, d, if_neg (by omega)]

theorem chosen_zero (c : Conf K) (g : Good c) (hb : c.mode = .bunch ∨ c.mode = .slice)
    (hs : c.spacing = 0) (zeta : K) : chosen c zeta = some (0, 0) := by
  obtain ⟨n, -, z⟩ := g.bunches hb
  have := z hs
  unfold chosen
  rw [if_neg (by simp [hs]), if_pos (by rw [n, this]; rfl), this]
  rfl

theorem floor_div_iff (a d : K) (hd : 0 < d) (s : ℤ) :
    ⌊a / d⌋ = s ↔ ((s : K) * d ≤ a ∧ a < ((s : K) + 1) * d) := by
  rw [Int.floor_eq_iff, le_div_iff₀ hd, div_lt_iff₀ hd]

/-! ## Flat indices -/

theorem flat_inj (n r b r' b' : ℤ) (h0 : 0 ≤ b) (h1 : b < n) (h0' : 0 ≤ b')
    (h1' : b' < n) (h : r * n + b = r' * n + b') : r = r' ∧ b = b' := by
  have e : (r - r') * n = b' - b := by linarith
  have hz : r - r' = 0 := by
    by_contra hne
    rcases lt_or_gt_of_ne hne with hlt | hgt
    · have : r - r' ≤ -1 := by omega
      nlinarith
    · have : 1 ≤ r - r' := by omega
      nlinarith
  have : r = r' := by omega
  subst this
  exact ⟨rfl, by linarith⟩

/-! ## The sums -/

/-- What one particle adds to entry `i` of the array of a moment. -/
noncomputable def share (c : Conf K) (L : K) (m : Moment) (i : ℤ) (p : Part K) : K :=
  match cell c L p with
  | none => 0
  | some (_, j, z) => if i = j then p.weight * product p z m else 0

theorem pass_sum (c : Conf K) (kept : Moment → Bool) (L : K) (s : Store K) (p : Part K) (m : Moment)
    (hk : kept m = true) (i : ℤ) : (pass c kept L s p).sum m i = s.sum m i + share c L m i p := by
  unfold pass share
  rcases cell c L p with _ | ⟨r, j, z⟩
  · simp
  · dsimp only
    by_cases e : i = j
    · rw [if_pos ⟨hk, e⟩, if_pos e]
    · rw [if_neg (fun h => e h.2), if_neg e, add_zero]

theorem track_sum (c : Conf K) (kept : Moment → Bool) (L : K) (m : Moment) (hk : kept m = true)
    (i : ℤ) (ps : List (Part K)) : ∀ s : Store K,
    (track c kept L s ps).sum m i = s.sum m i + (ps.map (share c L m i)).sum := by
  induction ps with
  | nil => intro s; simp [track]
  | cons p ps ih =>
    intro s
    have := ih (pass c kept L s p)
    unfold track at this ⊢
    rw [List.foldl_cons, this, pass_sum c kept L s p m hk, List.map_cons, List.sum_cons, add_assoc]

theorem track_touched (c : Conf K) (kept : Moment → Bool) (L : K) (r : ℤ) (ps : List (Part K)) :
    ∀ s : Store K, (track c kept L s ps).touched r = true ↔
      (s.touched r = true ∨ ∃ p ∈ ps, ∃ i z, cell c L p = some (r, i, z)) := by
  induction ps with
  | nil => intro s; simp [track]
  | cons p ps ih =>
    intro s
    have := ih (pass c kept L s p)
    unfold track at this ⊢
    rw [List.foldl_cons, this]
    have hp : (pass c kept L s p).touched r = true ↔
        (s.touched r = true ∨ ∃ i z, cell c L p = some (r, i, z)) := by
      unfold pass
      rcases cell c L p with _ | ⟨r', j, z⟩
      · simp
      · dsimp only
        by_cases e : r = r'
        · subst e; simp
        · simp [e, Ne.symm e]
    rw [hp]
    simp only [List.mem_cons, exists_eq_or_imp]
    exact or_assoc

end Verif.BeamStats
