import Verif.BeamStats.Cells

/-!
# C172: every entry of the beam statistics monitor holds the weighted sum over exactly the
particles which belong to it
-/

namespace Verif.BeamStats

variable {K : Type*} [Field K] [LinearOrder K] [IsStrictOrderedRing K] [FloorRing K]

/-- Specification: the particle is to be recorded: it is alive and, if a range of particle
numbers is given, its number is in it. -/
def Seen (inp : Input K) (p : Part K) : Prop :=
  0 < p.state ∧ ∀ a b, inp.idRange = some (a, b) → a ≤ p.id ∧ p.id < b

open Classical in
/-- Specification: sum of `f` over the particles with property `P`. -/
noncomputable def total (P : Part K → Prop) (f : Part K → K) (ps : List (Part K)) : K :=
  ((ps.filter (fun p => decide (P p))).map f).sum

/-- Specification: the quantity times the weight. -/
def weighted (m : Moment) (z : Part K → K) (p : Part K) : K :=
  p.weight * match m with
    | .one => 1
    | .bg => p.bg
    | .first a => if a = .zeta then z p else p.q a
    | .second a b => (if a = .zeta then z p else p.q a) * (if b = .zeta then z p else p.q b)

theorem weighted_eq (m : Moment) (z : Part K → K) (p : Part K) :
    weighted m z p = p.weight * product p (z p) m := by
  cases m <;> rfl

theorem total_cons (P : Part K → Prop) (f : Part K → K) (p : Part K) (ps : List (Part K)) [Decidable (P p)] :
    total P f (p :: ps) = (if P p then f p else 0) + total P f ps := by
  classical
  unfold total
  by_cases h : P p
  · simp [h]
  · simp [h]

theorem sum_share (c : Conf K) (L : K) (m : Moment) (i : ℤ) (P : Part K → Prop) (z : Part K → K)
    (h1 : ∀ p, (∃ r w, cell c L p = some (r, i, w)) ↔ P p)
    (h2 : ∀ p r w, cell c L p = some (r, i, w) → w = z p) (ps : List (Part K)) :
    (ps.map (share c L m i)).sum = total P (weighted m z) ps := by
  classical
  induction ps with
  | nil => simp [total]
  | cons p ps ih =>
    rw [List.map_cons, List.sum_cons, ih, total_cons]
    congr 1
    have a := h1 p
    have b := h2 p
    unfold share
    rcases hc : cell c L p with _ | ⟨r, j, w⟩
    · rw [hc] at a
      rw [if_neg (fun h => by obtain ⟨_, _, h⟩ := a.2 h; simp at h)]
    · dsimp only
      rw [hc] at a b
      by_cases e : i = j
      · subst e
        rw [if_pos rfl, if_pos (a.1 ⟨r, w, rfl⟩), b r w rfl, weighted_eq]
      · rw [if_neg e, if_neg]
        intro h
        obtain ⟨_, _, h⟩ := a.2 h
        simp only [Option.some.injEq, Prod.mk.injEq] at h
        exact e h.2.1.symm

theorem ids_iff (inp : Input K) (c : Conf K) (f : Fields inp c) (id : ℤ) :
    idPasses c id ↔ ∀ a b, inp.idRange = some (a, b) → a ≤ id ∧ id < b := by
  have h := f.ids
  unfold idPasses
  rcases e : inp.idRange with _ | ⟨a, b⟩
  · rw [e] at h
    simp only [idBounds, Except.ok.injEq, Prod.mk.injEq] at h
    simp; omega
  · rw [e] at h
    simp only [idBounds] at h
    split at h
    · simp at h
    · split at h
      · simp at h
      · simp only [Except.ok.injEq, Prod.mk.injEq] at h
        obtain ⟨h1, h2⟩ := h
        subst h1 h2
        constructor
        · intro hh a' b' q
          simp only [Option.some.injEq, Prod.mk.injEq] at q
          obtain ⟨q1, q2⟩ := q
          subst q1 q2
          omega
        · intro hh
          have := hh _ _ rfl
          omega

theorem cell_iff (inp : Input K) (c : Conf K) (g : Good c) (f : Fields inp c) (hm : c.mode ≠ .coasting)
    (L : K) (p : Part K) (r i : ℤ) (z : K) : cell c L p = some (r, i, z) ↔
      (Seen inp p ∧ 0 ≤ r ∧ r < c.nRecords ∧ p.turn = inp.start + r * inp.every ∧
        flat c (p.q .zeta) r 0 = some i ∧ z = p.q .zeta) := by
  have e : cell c L p = if 0 < p.state then if idPasses c p.id then
      atTurn c p.turn 0 (p.q .zeta) else none else none := by
    unfold cell
    cases h : c.mode <;> simp_all
  rw [e]
  unfold Seen
  rw [← f.start, ← f.every, ← ids_iff inp c f]
  by_cases h1 : 0 < p.state
  · by_cases h2 : idPasses c p.id
    · rw [if_pos h1, if_pos h2, atTurn_iff c g]
      simp only [h1, h2, and_self, true_and]
    · rw [if_pos h1, if_neg h2]
      simp [h2]
  · rw [if_neg h1]
    simp [h1]

theorem records_iff (inp : Input K) (c : Conf K) (g : Good c) (f : Fields inp c) (r : ℤ) :
    (0 ≤ r ∧ r < c.nRecords) ↔ (0 ≤ r ∧ inp.start + r * inp.every < inp.stop.getD (inp.start + 1)) := by
  constructor
  · rintro ⟨a, b⟩
    rw [g.records, lt_turnCount _ _ _ _ g.every a, f.start, f.stop, f.every] at b
    exact ⟨a, b⟩
  · rintro ⟨a, b⟩
    rw [g.records, lt_turnCount _ _ _ _ g.every a, f.start, f.stop, f.every]
    exact ⟨a, b⟩

theorem idx_unique (c : Conf K) (g : Good c) (i i' : ℕ) (slot : ℤ) (h : c.selected[i]? = some slot)
    (h' : c.selected[i']? = some slot) : i = i' := by
  obtain ⟨a, e⟩ := List.getElem?_eq_some_iff.1 h
  obtain ⟨a', e'⟩ := List.getElem?_eq_some_iff.1 h'
  exact (List.Nodup.getElem_inj_iff g.nodup).1 (e.trans e'.symm)

/-- Specification: `zeta` is in slice `s` of the window from `a` to `b` around the slot. -/
def InSlice (inp : Input K) (a b : K) (n s slot : ℤ) (zeta : K) : Prop :=
  a + (s : K) * ((b - a) / (n : K)) ≤ zeta + (slot : K) * inp.spacing.getD 0 ∧
    zeta + (slot : K) * inp.spacing.getD 0 < a + ((s : K) + 1) * ((b - a) / (n : K))

/-- Which entry a particle goes to in slice mode. -/
theorem slice_cell (inp : Input K) (c : Conf K) (h : build inp = .ok c) (hc : inp.coasting = false)
    (a b : K) (hz : inp.zetaRange = some (a, b)) (n : ℤ) (hn : inp.numSlices = some n)
    (L : K) (r s : ℤ) (hr0 : 0 ≤ r)
    (hr : inp.start + r * inp.every < inp.stop.getD (inp.start + 1)) (j : ℕ) (slot : ℤ)
    (hj : c.selected[j]? = some slot) (hs0 : 0 ≤ s) (hs : s < n) (p : Part K) :
    (∃ r' w, cell c L p = some (r', (r * c.selected.length + j) * n + s, w)) ↔
      (Seen inp p ∧ p.turn = inp.start + r * inp.every ∧ InSlice inp a b n s slot (p.q .zeta) ∧
        (inp.spacing.isSome → p.q .zeta + (slot : K) * inp.spacing.getD 0 < a + inp.spacing.getD 0)) := by
  obtain ⟨g, f⟩ := build_spec inp c h
  have hm : c.mode = .slice := by rw [f.mode]; simp [hc, hz]
  obtain ⟨b', hz', hd⟩ := f.range hm
  have hns : c.nSlices = n := by
    have := f.slices (Or.inl hm)
    rw [hn] at this
    exact (Option.some.inj this).symm
  rw [hz] at hz'
  rw [hns] at hd
  simp only [Option.some.injEq, Prod.mk.injEq] at hz'
  obtain ⟨za, zb⟩ := hz'
  subst zb
  rw [← za] at hd
  obtain ⟨hsn, hsd⟩ := g.slices hm
  obtain ⟨hsel, -, hsz⟩ := g.bunches (Or.inr hm)
  have hsp := f.spacing
  have hjl : (j : ℤ) < c.selected.length := by
    obtain ⟨x, -⟩ := List.getElem?_eq_some_iff.1 hj
    exact_mod_cast x
  have hrr := (records_iff inp c g f r).2 ⟨hr0, hr⟩
  -- the flat index of the slot and the slice
  have hflat : ∀ (r' : ℤ) (zeta : K), 0 ≤ r' →
      (flat c zeta r' 0 = some ((r * c.selected.length + j) * n + s) ↔
        (r' = r ∧ InSlice inp a b n s slot zeta ∧
          (inp.spacing.isSome → zeta + (slot : K) * inp.spacing.getD 0 < a + inp.spacing.getD 0))) := by
    intro r' zeta _
    have body : ∀ (slot' i : ℤ), (let s' := ⌊(zeta - (c.zMin - (slot' : K) * c.spacing)) / c.dzeta⌋
        if s' < 0 ∨ c.nSlices ≤ s' then none else some ((r' * c.nSelected + i) * c.nSlices + s'))
          = some ((r * c.selected.length + j) * n + s) → 0 ≤ i → i < c.selected.length →
            r' = r ∧ i = j ∧ ⌊(zeta - (c.zMin - (slot' : K) * c.spacing)) / c.dzeta⌋ = s := by
      intro slot' i hb hi0 hi
      dsimp only at hb
      split at hb
      · simp at hb
      · rename_i hq
        push Not at hq
        rw [hns] at hb hq
        rw [hsel] at hb
        have e := Option.some.inj hb
        obtain ⟨e1, e2⟩ := flat_inj n _ _ _ _ hq.1 hq.2 hs0 hs e
        obtain ⟨e3, e4⟩ := flat_inj _ _ _ _ _ hi0 hi (by omega) hjl e1
        exact ⟨e3, e4, e2⟩
    have hfl : ∀ slot' : ℤ, ⌊(zeta - (c.zMin - (slot' : K) * c.spacing)) / c.dzeta⌋ = s ↔
        InSlice inp a b n s slot' zeta := by
      intro slot'
      rw [floor_div_iff _ _ hsd, hd, ← za, hsp]
      unfold InSlice
      constructor
      · rintro ⟨x, y⟩; constructor <;> linarith
      · rintro ⟨x, y⟩; constructor <;> linarith
    unfold flat
    rw [hm]
    dsimp only
    constructor
    · intro hb
      rcases hch : chosen c zeta with _ | ⟨slot', i⟩
      · rw [hch] at hb; simp at hb
      · rw [hch] at hb
        dsimp only at hb
        by_cases hz0 : c.spacing = 0
        · rw [chosen_zero c g (Or.inr hm) hz0] at hch
          simp only [Option.some.injEq, Prod.mk.injEq] at hch
          obtain ⟨q1, q2⟩ := hch
          subst q1 q2
          have hl : (0 : ℤ) < c.selected.length := by rw [hsz hz0]; simp
          obtain ⟨b1, b2, b3⟩ := body 0 0 hb (le_refl _) hl
          have : slot = 0 := by
            have : j = 0 := by omega
            rw [this, hsz hz0] at hj
            simpa using hj.symm
          subst this
          refine ⟨b1, (hfl 0).1 b3, ?_⟩
          intro hsome
          exact absurd hz0 (ne_of_gt (f.positive hsome))
        · obtain ⟨x1, x2, x3, x4⟩ := (chosen_iff c g (Or.inr hm) hz0 _ _ _).1 hch
          have hil : i < c.selected.length := by
            obtain ⟨y, -⟩ := List.getElem?_eq_some_iff.1 x2
            omega
          obtain ⟨b1, b2, b3⟩ := body slot' i hb x1 hil
          have : slot' = slot := by
            rw [b2] at x2
            simp only [Int.toNat_natCast] at x2
            rw [hj] at x2
            exact (Option.some.inj x2).symm
          subst this
          refine ⟨b1, (hfl slot').1 b3, fun _ => ?_⟩
          rw [← hsp, za]; linarith
    · rintro ⟨b1, b2, b3⟩
      subst b1
      have hch : chosen c zeta = some (slot, (j : ℤ)) := by
        by_cases hz0 : c.spacing = 0
        · rw [chosen_zero c g (Or.inr hm) hz0]
          have : j = 0 := by rw [hsz hz0] at hjl; simp at hjl; omega
          subst this
          rw [hsz hz0] at hj
          simp at hj
          simp [hj]
        · rw [chosen_iff c g (Or.inr hm) hz0]
          refine ⟨by omega, by simpa using hj, ?_⟩
          have hsome : inp.spacing.isSome := by
            cases e : inp.spacing with
            | none => rw [hsp, e] at hz0; simp at hz0
            | some _ => rfl
          have b4 := b3 hsome
          have b5 := b2.1
          rw [← hsp, za] at b4 b5
          have : 0 ≤ (s : K) * ((b - c.zMin) / (n : K)) := by
            rw [← za, ← hd]
            exact mul_nonneg (by exact_mod_cast hs0) hsd.le
          constructor <;> linarith
      rw [hch]
      dsimp only
      rw [(hfl slot).2 b2, if_neg (by rw [hns]; omega), hsel, hns]
  constructor
  · rintro ⟨r', w, hcell⟩
    rw [cell_iff inp c g f (by rw [hm]; simp)] at hcell
    obtain ⟨x1, x2, x3, x4, x5, x6⟩ := hcell
    obtain ⟨y1, y2, y3⟩ := (hflat r' _ x2).1 x5
    subst y1
    exact ⟨x1, x4, y2, y3⟩
  · rintro ⟨x1, x2, x3, x4⟩
    refine ⟨r, p.q .zeta, ?_⟩
    rw [cell_iff inp c g f (by rw [hm]; simp)]
    exact ⟨x1, hrr.1, hrr.2, x2, (hflat r _ hr0).2 ⟨rfl, x3, x4⟩, rfl⟩

/-- The recorded zeta is the zeta of the particle, except for coasting beams. -/
theorem cell_zeta (inp : Input K) (c : Conf K) (h : build inp = .ok c) (hc : inp.coasting = false)
    (L : K) (p : Part K) (r i : ℤ) (w : K) (e : cell c L p = some (r, i, w)) : w = p.q .zeta := by
  obtain ⟨g, f⟩ := build_spec inp c h
  have hm : c.mode ≠ .coasting := by rw [f.mode]; simp [hc]; split_ifs <;> simp
  exact ((cell_iff inp c g f hm L p r i w).1 e).2.2.2.2.2

/-- C172 (slices): with `zeta_range = (a, b)` and `num_slices = n`, after any particles have
passed, entry `[r, j, s]` of every stored sum holds the weighted sum over exactly the particles
which are alive, whose number is in the range asked for, whose turn is the r-th recorded one,
and whose zeta is in slice `s` of the window of the j-th selected slot — and, which is not
documented, which are less than one bunch spacing above the lower end of that window. -/
theorem C172_slice (inp : Input K) (c : Conf K) (h : build inp = .ok c) (hc : inp.coasting = false)
    (a b : K) (hz : inp.zetaRange = some (a, b)) (n : ℤ) (hn : inp.numSlices = some n)
    (L : K) (kept : Moment → Bool) (m : Moment) (hk : kept m = true) (ps : List (Part K))
    (r s : ℤ) (hr0 : 0 ≤ r) (hr : inp.start + r * inp.every < inp.stop.getD (inp.start + 1))
    (j : ℕ) (slot : ℤ) (hj : c.selected[j]? = some slot) (hs0 : 0 ≤ s) (hs : s < n) :
    (track c kept L .empty ps).sum m ((r * c.selected.length + j) * n + s) =
      total (fun p => Seen inp p ∧ p.turn = inp.start + r * inp.every ∧
        InSlice inp a b n s slot (p.q .zeta) ∧
        (inp.spacing.isSome → p.q .zeta + (slot : K) * inp.spacing.getD 0 < a + inp.spacing.getD 0))
        (weighted m (fun p => p.q .zeta)) ps := by
  rw [track_sum c kept L m hk, sum_share c L m _ _ (fun p => p.q .zeta)
    (slice_cell inp c h hc a b hz n hn L r s hr0 hr j slot hj hs0 hs)
    (fun p r w e => cell_zeta inp c h hc L p r _ w e)]
  simp [Store.empty]

/-- C172 (slices, as documented), if the window is not longer than the bunch spacing. -/
theorem C172_slice_partial (inp : Input K) (c : Conf K) (h : build inp = .ok c)
    (hc : inp.coasting = false)
    (a b : K) (hz : inp.zetaRange = some (a, b)) (n : ℤ) (hn : inp.numSlices = some n)
    (hw : ∀ sp, inp.spacing = some sp → b - a ≤ sp)
    (L : K) (kept : Moment → Bool) (m : Moment) (hk : kept m = true) (ps : List (Part K))
    (r s : ℤ) (hr0 : 0 ≤ r) (hr : inp.start + r * inp.every < inp.stop.getD (inp.start + 1))
    (j : ℕ) (slot : ℤ) (hj : c.selected[j]? = some slot) (hs0 : 0 ≤ s) (hs : s < n) :
    (track c kept L .empty ps).sum m ((r * c.selected.length + j) * n + s) =
      total (fun p => Seen inp p ∧ p.turn = inp.start + r * inp.every ∧
        InSlice inp a b n s slot (p.q .zeta)) (weighted m (fun p => p.q .zeta)) ps := by
  rw [C172_slice inp c h hc a b hz n hn L kept m hk ps r s hr0 hr j slot hj hs0 hs]
  congr 1
  funext p
  have hsd : 0 < (b - a) / (n : K) := by
    obtain ⟨g, f⟩ := build_spec inp c h
    have hm : c.mode = .slice := by rw [f.mode]; simp [hc, hz]
    obtain ⟨b', hz', hd⟩ := f.range hm
    have := f.slices (Or.inl hm)
    rw [hn] at this
    rw [hz] at hz'
    simp only [Option.some.injEq, Prod.mk.injEq] at hz' this
    obtain ⟨rfl, rfl⟩ := hz'
    rw [this, ← hd]
    exact (g.slices hm).2
  have hn0 : (0 : K) < n := by
    have : (0 : ℤ) < n := by omega
    exact_mod_cast this
  have hle : a + ((s : K) + 1) * ((b - a) / (n : K)) ≤ b := by
    have h1 : ((s : K) + 1) ≤ n := by exact_mod_cast hs
    have h2 : (n : K) * ((b - a) / (n : K)) = b - a := by field_simp
    have := mul_le_mul_of_nonneg_right h1 hsd.le
    linarith
  refine propext ⟨fun ⟨x, y, z, _⟩ => ⟨x, y, z⟩, fun ⟨x, y, z⟩ => ⟨x, y, z, fun hsome => ?_⟩⟩
  obtain ⟨sp, hsp⟩ := Option.isSome_iff_exists.1 hsome
  have := hw sp hsp
  have hq := z.2
  rw [hsp] at hq ⊢
  simp only [Option.getD_some] at hq ⊢
  linarith

/-- A witness: a window of one bunch which is twice as long as the bunch spacing. -/
abbrev wide : Input ℚ := { zetaRange := some (-1, 1), numSlices := some 4, spacing := some 1 }

/-- A particle of weight 1 with the given zeta in turn 0. -/
abbrev probe (z : ℚ) : Part ℚ := ⟨1, 0, 0, 1, 0, fun a => if a = .zeta then z else 0⟩

/-- C172 (slices) fails as documented when the window is longer than the bunch spacing: the
monitor is built, the particle at zeta = 0.6 is in the last slice of slot 0, and it is not
counted anywhere. -/
theorem C172_wide_violated : ∃ c, build wide = .ok c ∧ c.selected = [0] ∧
    InSlice wide (-1) 1 4 3 0 (3 / 5) ∧ cell c 100 (probe (3 / 5)) = none ∧
    (track c (fun _ => true) 100 .empty [probe (3 / 5)]).sum .one 3 = 0 := by
  refine ⟨⟨0, 1, 1, .slice, 1, 1, 4, -1, 1 / 2, 1, -1, -1, [0], [0]⟩, ?_, rfl, ?_, ?_, ?_⟩
  · decide +kernel
  · unfold InSlice; norm_num
  · decide +kernel
  · decide +kernel

/-- Which entry a particle goes to in bunch mode. -/
theorem bunch_cell (inp : Input K) (c : Conf K) (h : build inp = .ok c) (hc : inp.coasting = false)
    (hz : inp.zetaRange = none) (hb : bunchInput inp = true)
    (L : K) (r : ℤ) (hr0 : 0 ≤ r)
    (hr : inp.start + r * inp.every < inp.stop.getD (inp.start + 1)) (j : ℕ) (slot : ℤ)
    (hj : c.selected[j]? = some slot) (p : Part K) :
    (∃ r' w, cell c L p = some (r', r * c.selected.length + j, w)) ↔
      (Seen inp p ∧ p.turn = inp.start + r * inp.every ∧ ∀ sp, inp.spacing = some sp →
        -(sp / 2) ≤ p.q .zeta + (slot : K) * sp ∧ p.q .zeta + (slot : K) * sp < sp / 2) := by
  obtain ⟨g, f⟩ := build_spec inp c h
  have hm : c.mode = .bunch := by rw [f.mode]; simp [hc, hz, hb]
  obtain ⟨hsel, -, hsz⟩ := g.bunches (Or.inl hm)
  have hsp := f.spacing
  have hjl : (j : ℤ) < c.selected.length := by
    obtain ⟨x, -⟩ := List.getElem?_eq_some_iff.1 hj
    exact_mod_cast x
  have hrr := (records_iff inp c g f r).2 ⟨hr0, hr⟩
  have hwin : ∀ (sp zeta : K), inp.spacing = some sp → ∀ slot' : ℤ,
      ((c.zMin - (slot' : K) * c.spacing ≤ zeta ∧
        zeta < c.zMin - (slot' : K) * c.spacing + c.spacing) ↔
      (-(sp / 2) ≤ zeta + (slot' : K) * sp ∧ zeta + (slot' : K) * sp < sp / 2)) := by
    intro sp zeta e slot'
    have e1 := f.centre hm (by simp [e])
    have e2 : c.spacing = sp := by rw [hsp, e]; rfl
    rw [e1, e2]
    constructor
    · rintro ⟨x, y⟩; constructor <;> linarith
    · rintro ⟨x, y⟩; constructor <;> linarith
  have hflat : ∀ (r' : ℤ) (zeta : K), flat c zeta r' 0 = some (r * c.selected.length + j) ↔
        (r' = r ∧ ∀ sp, inp.spacing = some sp →
          -(sp / 2) ≤ zeta + (slot : K) * sp ∧ zeta + (slot : K) * sp < sp / 2) := by
    intro r' zeta
    have e : flat c zeta r' 0 = (chosen c zeta).map (fun a => r' * c.nSelected + a.2) := by
      unfold flat; rw [hm]
    rw [e, Option.map_eq_some_iff]
    rcases hs : inp.spacing with _ | sp
    · have hz0 : c.spacing = 0 := by rw [hsp, hs]; rfl
      have hl := hsz hz0
      have hj0 : j = 0 := by rw [hl] at hjl; simp at hjl; omega
      rw [chosen_zero c g (Or.inl hm) hz0]
      constructor
      · rintro ⟨a, ha, hq⟩
        obtain rfl := Option.some.inj ha
        rw [hsel, hl, hj0] at hq
        simp at hq
        exact ⟨hq, by simp⟩
      · rintro ⟨rfl, -⟩
        exact ⟨(0, 0), rfl, by rw [hsel, hj0]; rfl⟩
    · have hz0 : c.spacing ≠ 0 := ne_of_gt (f.positive (by simp [hs]))
      constructor
      · rintro ⟨⟨slot', i⟩, ha, hq⟩
        obtain ⟨x1, x2, x3⟩ := (chosen_iff c g (Or.inl hm) hz0 _ _ _).1 ha
        have hil : i < c.selected.length := by
          obtain ⟨y, -⟩ := List.getElem?_eq_some_iff.1 x2
          omega
        dsimp only at hq
        rw [hsel] at hq
        obtain ⟨q1, q2⟩ := flat_inj _ _ _ _ _ x1 hil (by omega) hjl hq
        subst q1 q2
        simp only [Int.toNat_natCast] at x2
        rw [hj] at x2
        obtain rfl := Option.some.inj x2
        refine ⟨rfl, fun sp' e' => ?_⟩
        obtain rfl := Option.some.inj e'
        exact (hwin _ _ hs slot).1 x3
      · rintro ⟨rfl, hw⟩
        refine ⟨(slot, j), (chosen_iff c g (Or.inl hm) hz0 _ _ _).2
          ⟨by omega, by simpa using hj, (hwin sp _ hs slot).2 (hw sp rfl)⟩, by rw [hsel]⟩
  constructor
  · rintro ⟨r', w, hcell⟩
    rw [cell_iff inp c g f (by rw [hm]; simp)] at hcell
    obtain ⟨x1, x2, x3, x4, x5, x6⟩ := hcell
    obtain ⟨rfl, y2⟩ := (hflat r' _).1 x5
    exact ⟨x1, x4, y2⟩
  · rintro ⟨x1, x2, x3⟩
    refine ⟨r, p.q .zeta, ?_⟩
    rw [cell_iff inp c g f (by rw [hm]; simp)]
    exact ⟨x1, hrr.1, hrr.2, x2, (hflat r _).2 ⟨rfl, x3⟩, rfl⟩

/-- C172 (bunches): without slices but with any argument about bunches, entry `[r, j]` holds the
weighted sum over exactly the particles which are alive, whose number is in the range asked for,
whose turn is the r-th recorded one, and which are closer than half a bunch spacing to the place
of the j-th selected slot (all of them if no spacing is given). -/
theorem C172_bunch (inp : Input K) (c : Conf K) (h : build inp = .ok c) (hc : inp.coasting = false)
    (hz : inp.zetaRange = none) (hb : bunchInput inp = true)
    (L : K) (kept : Moment → Bool) (m : Moment) (hk : kept m = true) (ps : List (Part K))
    (r : ℤ) (hr0 : 0 ≤ r) (hr : inp.start + r * inp.every < inp.stop.getD (inp.start + 1))
    (j : ℕ) (slot : ℤ) (hj : c.selected[j]? = some slot) :
    (track c kept L .empty ps).sum m (r * c.selected.length + j) =
      total (fun p => Seen inp p ∧ p.turn = inp.start + r * inp.every ∧
        ∀ sp, inp.spacing = some sp →
          -(sp / 2) ≤ p.q .zeta + (slot : K) * sp ∧ p.q .zeta + (slot : K) * sp < sp / 2)
        (weighted m (fun p => p.q .zeta)) ps := by
  rw [track_sum c kept L m hk, sum_share c L m _ _ (fun p => p.q .zeta)
    (bunch_cell inp c h hc hz hb L r hr0 hr j slot hj)
    (fun p r w e => cell_zeta inp c h hc L p r _ w e)]
  simp [Store.empty]

/-- C172 (beam): without slices and bunches, entry `[r]` holds the weighted sum over exactly the
particles which are alive, whose number is in the range asked for and whose turn is the r-th
recorded one. -/
theorem C172_beam (inp : Input K) (c : Conf K) (h : build inp = .ok c) (hc : inp.coasting = false)
    (hz : inp.zetaRange = none) (hb : bunchInput inp = false)
    (L : K) (kept : Moment → Bool) (m : Moment) (hk : kept m = true) (ps : List (Part K))
    (r : ℤ) (hr0 : 0 ≤ r) (hr : inp.start + r * inp.every < inp.stop.getD (inp.start + 1)) :
    (track c kept L .empty ps).sum m r =
      total (fun p => Seen inp p ∧ p.turn = inp.start + r * inp.every)
        (weighted m (fun p => p.q .zeta)) ps := by
  obtain ⟨g, f⟩ := build_spec inp c h
  have hm : c.mode = .beam := by rw [f.mode]; simp [hc, hz, hb]
  have hrr := (records_iff inp c g f r).2 ⟨hr0, hr⟩
  have e : ∀ z r', flat c z r' 0 = some r' := by intro z r'; unfold flat; rw [hm]
  rw [track_sum c kept L m hk, sum_share c L m _
    (fun p => Seen inp p ∧ p.turn = inp.start + r * inp.every) (fun p => p.q .zeta) (fun p => ?_)
    (fun p r w e => cell_zeta inp c h hc L p r _ w e)]
  · simp [Store.empty]
  · constructor
    · rintro ⟨r', w, hcell⟩
      rw [cell_iff inp c g f (by rw [hm]; simp), e] at hcell
      obtain ⟨x1, x2, x3, x4, x5, x6⟩ := hcell
      obtain rfl := Option.some.inj x5
      exact ⟨x1, x4⟩
    · rintro ⟨x1, x2⟩
      refine ⟨r, p.q .zeta, ?_⟩
      rw [cell_iff inp c g f (by rw [hm]; simp), e]
      exact ⟨x1, hrr.1, hrr.2, x2, rfl, rfl⟩

/-- C172 (selected slots): the slots on the bunch axis are the ones given by `selected_slots`,
in that order, and all filled ones if that is not given. -/
theorem C172_slots (inp : Input K) (c : Conf K) (h : build inp = .ok c) (hc : inp.coasting = false)
    (hb : inp.zetaRange.isSome ∨ bunchInput inp = true) :
    (∀ l, inp.selected = some l → c.selected = l) ∧
    (inp.selected = none → ∀ l, inp.filled = some l → inp.scheme = none → c.selected = l) ∧
    (inp.selected = none → inp.filled = none → ∀ l, inp.scheme = some l →
      ∀ k : ℤ, k ∈ c.selected ↔ 0 ≤ k ∧ ∃ v, l[k.toNat]? = some v ∧ v ≠ 0) := by
  obtain ⟨g, f⟩ := build_spec inp c h
  have hm : c.mode = .bunch ∨ c.mode = .slice := by
    rw [f.mode, hc]
    by_cases hz : inp.zetaRange.isSome = true
    · simp [hz]
    · rcases hb with hb | hb
      · exact absurd hb hz
      · simp [hz, hb]
  have e := f.selected hm
  refine ⟨fun l hl => by rw [e, hl]; rfl, fun h0 l hl hs => by rw [e, h0]; simp [filledSlots, hl, hs],
    fun h0 hf l hl k => ?_⟩
  rw [e, h0]
  simp only [Option.getD_none, filledSlots, hl, nonzeroAt, List.mem_map, List.mem_filter]
  constructor
  · rintro ⟨⟨v, i⟩, ⟨h1, h2⟩, rfl⟩
    rw [List.mem_zipIdx_iff_getElem?] at h1
    exact ⟨by omega, v, by simpa using h1, by simpa using h2⟩
  · rintro ⟨h1, v, h2, h3⟩
    refine ⟨(v, k.toNat), ⟨?_, by simpa using h3⟩, by simp; omega⟩
    rw [List.mem_zipIdx_iff_getElem?]; exact h2

/-- C172 (order): the sums do not depend on the order in which the particles pass. -/
theorem C172_order (c : Conf K) (L : K) (kept : Moment → Bool) (m : Moment) (hk : kept m = true)
    (s : Store K) (ps qs : List (Part K)) (hp : ps.Perm qs) (i : ℤ) :
    (track c kept L s ps).sum m i = (track c kept L s qs).sum m i ∧
      ∀ r, ((track c kept L s ps).touched r = true ↔ (track c kept L s qs).touched r = true) := by
  refine ⟨?_, fun r => ?_⟩
  · rw [track_sum c kept L m hk, track_sum c kept L m hk, (hp.map _).sum_eq]
  · rw [track_touched, track_touched]
    simp only [hp.mem_iff]

/-- C172 (several passages): particles which pass later are added to what is there. -/
theorem C172_later (c : Conf K) (L : K) (kept : Moment → Bool) (m : Moment) (hk : kept m = true)
    (ps qs : List (Part K)) (i : ℤ) :
    (track c kept L (track c kept L .empty ps) qs).sum m i =
      (track c kept L .empty ps).sum m i + (track c kept L .empty qs).sum m i := by
  rw [track_sum c kept L m hk i qs, track_sum c kept L m hk i qs]
  simp [Store.empty]

/-- Two of three filled slots, in reverse order, every second turn. -/
abbrev train : Input ℚ :=
  { stop := some 10
    every := 2
    zetaRange := some (-1, 1)
    numSlices := some 4
    spacing := some 5
    filled := some [0, 2, 3]
    selected := some [3, 0] }

example : ∃ c, build train = .ok c ∧ c.selected = [3, 0] ∧ c.nRecords = 5 ∧
    cell c 100 ⟨1, 6, 7, 2, 0, fun a => if a = .zeta then -(29 / 2) else 0⟩
      = some (3, (3 * 2 + 0) * 4 + 3, -(29 / 2)) ∧
    cell c 100 ⟨1, 6, 7, 2, 0, fun a => if a = .zeta then -(1 / 4) else 0⟩
      = some (3, (3 * 2 + 1) * 4 + 1, -(1 / 4)) ∧
    cell c 100 ⟨1, 6, 7, 2, 0, fun a => if a = .zeta then -10 else 0⟩ = none := by
  refine ⟨⟨0, 10, 2, .slice, 5, 2, 4, -1, 1 / 2, 5, -1, -1, [3, 0], [1, -1, -1, 0]⟩, ?_, rfl, rfl,
    ?_, ?_, ?_⟩ <;> decide +kernel

example : ∃ c, build ({ numBunches := some 2, spacing := some 5 } : Input ℚ) = .ok c ∧
    cell c 100 (probe (-3)) = some (0, 1, -3) := by
  refine ⟨⟨0, 1, 1, .bunch, 1, 2, 1, -(5 / 2), 0, 5, -1, -1, [0, 1], [0, 1]⟩, ?_, ?_⟩ <;>
    decide +kernel

end Verif.BeamStats
