import Verif.BeamStats.Props
import Mathlib.Algebra.BigOperators.Group.Finset.Basic
import Mathlib.Algebra.BigOperators.Intervals

/-!
# C173: coasting beams; C174: coarser levels; C175: places of slices

Model of the helper methods `slice_index`, `record_index`, `zeta_centers`,
`_longitudinal_centers` and `_moments_at_level`.
-/

namespace Verif.BeamStats

variable {K : Type*} [Field K] [LinearOrder K] [IsStrictOrderedRing K] [FloorRing K]

/-! ## Model -/

/-- `slice_index(zeta, line_length=L)` of a coasting monitor:
beam_stats_monitor.py:923-936. -/
def sliceIndexCoasting (n : ℤ) (L zeta : K) : ℤ :=
  let f := -zeta / L
  let f' := f - (⌊f + 1 / 2⌋ : K)
  let i := ⌊(f' + 1 / 2) * (n : K)⌋
  if i = n then 0 else i

/-- `slice_index(zeta, slot=slot)` of a monitor with slices; `none` is the exception:
beam_stats_monitor.py:937-950. -/
def sliceIndex (c : Conf K) (zeta : K) (slot : Option ℤ) : Option ℤ :=
  let go (slot : ℤ) : Option ℤ :=
    if slot ∈ c.selected then
      let local_ := zeta + (slot : K) * c.spacing
      let i := ⌊(local_ - c.zMin) / c.dzeta⌋
      if i < 0 ∨ c.nSlices ≤ i then none else some i
    else none
  match slot with
  | some s => go s
  | none => if c.selected.length ≠ 1 then none else go (c.selected.headD 0)

/-- `_longitudinal_centers` of a coasting monitor: beam_stats_monitor.py:1226-1230. -/
def centreCoasting (n : ℤ) (L : K) (s : ℤ) : K := -(((s : K) + 1 / 2) / (n : K) - 1 / 2) * L

/-- `zeta_centers[j, s]`: beam_stats_monitor.py:605-609. -/
def centre (c : Conf K) (slot s : ℤ) : K :=
  c.zMin + ((s : K) + 1 / 2) * c.dzeta - (slot : K) * c.spacing

/-- `record_index(turn)`; `none` is the exception: beam_stats_monitor.py:905-909, 1249-1257. -/
def recordIndex (c : Conf K) (turn : ℤ) : Option ℤ :=
  (((List.range c.nRecords.toNat).map (fun i : ℕ => (i : ℤ))).find?
    (fun r => c.start + r * c.every = turn))

/-- Sum over the axis of slices: beam_stats_monitor.py:1047-1048. -/
def bunchLevel (c : Conf K) (a : ℤ → K) (r j : ℤ) : K :=
  ∑ s ∈ Finset.range c.nSlices.toNat, a ((r * c.nSelected + j) * c.nSlices + (s : ℤ))

/-- Sum over the axes of slots and slices: beam_stats_monitor.py:1049-1050. -/
def beamLevel (c : Conf K) (a : ℤ → K) (r : ℤ) : K :=
  ∑ j ∈ Finset.range c.nSelected.toNat, ∑ s ∈ Finset.range c.nSlices.toNat,
    a ((r * c.nSelected + (j : ℤ)) * c.nSlices + (s : ℤ))

/-- Sum over the axis of slots in bunch mode: beam_stats_monitor.py:1051-1052. -/
def beamOfBunches (c : Conf K) (a : ℤ → K) (r : ℤ) : K :=
  ∑ j ∈ Finset.range c.nSelected.toNat, a (r * c.nSelected + (j : ℤ))

/-! ## Coasting beams -/

/-- Where a particle of a coasting beam is recorded: the phase `turn - zeta / L` decides. -/
theorem periodic_iff (n : ℤ) (hn : 0 < n) (L : K) (hL : 0 < L) (turn eff s : ℤ) (zeta z : K) :
    periodic n L turn zeta = some (eff, s, z) ↔ (0 ≤ s ∧ s < n ∧
      (eff : K) - 1 / 2 + (s : K) / (n : K) ≤ (turn : K) - zeta / L ∧
      (turn : K) - zeta / L < (eff : K) - 1 / 2 + ((s : K) + 1) / (n : K) ∧
      z = zeta + ((eff : K) - (turn : K)) * L) := by
  have hn' : (0 : K) < n := by exact_mod_cast hn
  have hz : ∀ e : K, -((turn : K) - zeta / L - e) * L = zeta + (e - (turn : K)) * L := by
    intro e; field_simp; ring
  have hfl : ∀ (u : K), (⌊(u + 1 / 2) * (n : K)⌋ = s ↔
      (-(1 / 2) + (s : K) / n ≤ u ∧ u < -(1 / 2) + ((s : K) + 1) / n)) := by
    intro u
    rw [Int.floor_eq_iff]
    have h1 : (s : K) / n ≤ u + 1 / 2 ↔ (s : K) ≤ (u + 1 / 2) * n := div_le_iff₀ hn'
    have h2 : u + 1 / 2 < ((s : K) + 1) / n ↔ (u + 1 / 2) * n < (s : K) + 1 := lt_div_iff₀ hn'
    rw [← h1, ← h2]
    constructor
    · rintro ⟨a, b⟩; constructor <;> linarith
    · rintro ⟨a, b⟩; constructor <;> linarith
  unfold periodic
  rw [if_neg (not_le.2 hL)]
  dsimp only
  constructor
  · intro h
    split at h
    · simp at h
    · rename_i hq
      push Not at hq
      simp only [Option.some.injEq, Prod.mk.injEq] at h
      obtain ⟨h1, h2, h3⟩ := h
      rw [h1] at h2 h3 hq
      rw [h2] at hq
      have := (hfl _).1 h2
      rw [hz] at h3
      exact ⟨hq.1, hq.2, by linarith, by linarith, h3.symm⟩
  · rintro ⟨h0, h1, h2, h3, h4⟩
    have hs0 : (0 : K) ≤ (s : K) / n := div_nonneg (by exact_mod_cast h0) hn'.le
    have hs1 : ((s : K) + 1) / n ≤ 1 := by
      rw [div_le_one hn']; exact_mod_cast h1
    have he : ⌊(turn : K) - zeta / L + 1 / 2⌋ = eff := by
      rw [Int.floor_eq_iff]; constructor <;> linarith
    rw [he, (hfl _).2 ⟨by linarith, by linarith⟩, if_neg (by omega), hz, h4]

/-- Every position is in some slice of some turn: none is rejected. -/
theorem periodic_some (n : ℤ) (hn : 0 < n) (L : K) (hL : 0 < L) (turn : ℤ) (zeta : K) :
    ∃ eff s z, periodic n L turn zeta = some (eff, s, z) := by
  have hn' : (0 : K) < n := by exact_mod_cast hn
  unfold periodic
  rw [if_neg (not_le.2 hL)]
  dsimp only
  set u := (turn : K) - zeta / L
  have h1 := Int.floor_le (u + 1 / 2)
  have h2 := Int.lt_floor_add_one (u + 1 / 2)
  rw [if_neg]
  · exact ⟨_, _, _, rfl⟩
  · rw [not_or, not_lt, not_le]
    constructor
    · rw [Int.floor_nonneg]
      exact mul_nonneg (by linarith) hn'.le
    · rw [Int.floor_lt]
      have : (u - (⌊u + 1 / 2⌋ : K) + 1 / 2) < 1 := by linarith
      calc (u - (⌊u + 1 / 2⌋ : K) + 1 / 2) * n < 1 * n := mul_lt_mul_of_pos_right this hn'
        _ = n := one_mul _

theorem coasting_cell (inp : Input K) (c : Conf K) (h : build inp = .ok c) (hc : inp.coasting = true)
    (n : ℤ) (hn : inp.numSlices = some n) (L : K) (hL : 0 < L) (r s : ℤ) (hr0 : 0 ≤ r)
    (hr : inp.start + r * inp.every < inp.stop.getD (inp.start + 1)) (hs0 : 0 ≤ s) (hs : s < n)
    (p : Part K) (w : K) (r' : ℤ) : cell c L p = some (r', r * n + s, w) ↔
      (r' = r ∧ Seen inp p ∧
        ((inp.start + r * inp.every : ℤ) : K) - 1 / 2 + (s : K) / (n : K) ≤ (p.turn : K) - p.q .zeta / L ∧
        (p.turn : K) - p.q .zeta / L
          < ((inp.start + r * inp.every : ℤ) : K) - 1 / 2 + ((s : K) + 1) / (n : K) ∧
        w = p.q .zeta + (((inp.start + r * inp.every : ℤ) : K) - (p.turn : K)) * L) := by
  obtain ⟨g, f⟩ := build_spec inp c h
  have hm : c.mode = .coasting := by rw [f.mode]; simp [hc]
  obtain ⟨hk, hsel, -⟩ := g.coast hm
  have hns : c.nSlices = n := by
    have := f.slices (Or.inr hm)
    rw [hn] at this
    exact (Option.some.inj this).symm
  rw [hns] at hk
  have hrr := (records_iff inp c g f r).2 ⟨hr0, hr⟩
  have e : cell c L p = if 0 < p.state then if idPasses c p.id then
      (match periodic n L p.turn (p.q .zeta) with
        | none => none
        | some (eff, s, z) => atTurn c eff s z) else none else none := by
    unfold cell
    rw [hm, hns]
    rfl
  have hfl : ∀ z r s, flat c z r s = some (r * n + s) := by
    intro z r s
    unfold flat; rw [hm, hsel, hns]; simp
  rw [e]
  unfold Seen
  rw [← ids_iff inp c f]
  by_cases h1 : 0 < p.state
  · by_cases h2 : idPasses c p.id
    · rw [if_pos h1, if_pos h2]
      simp only [h1, h2, and_self, true_and]
      constructor
      · intro hq
        rcases hp : periodic n L p.turn (p.q .zeta) with _ | ⟨eff, s', z⟩
        · rw [hp] at hq; simp at hq
        · rw [hp] at hq
          dsimp only at hq
          rw [atTurn_iff c g, hfl] at hq
          obtain ⟨q1, q2, q3, q4, q5⟩ := hq
          obtain ⟨p1, p2, p3, p4, p5⟩ := (periodic_iff n hk L hL _ _ _ _ _).1 hp
          obtain ⟨e1, e2⟩ := flat_inj n _ _ _ _ p1 p2 hs0 hs (Option.some.inj q4)
          subst e1 e2
          rw [f.start, f.every] at q3
          subst q3 q5
          exact ⟨rfl, p3, p4, p5⟩
      · rintro ⟨rfl, a1, a2, a3⟩
        rw [(periodic_iff n hk L hL _ _ _ _ _).2 ⟨hs0, hs, a1, a2, rfl⟩]
        dsimp only
        rw [atTurn_iff c g, hfl, f.start, f.every]
        exact ⟨hrr.1, hrr.2, rfl, rfl, a3⟩
    · rw [if_pos h1, if_neg h2]
      simp [h2]
  · rw [if_neg h1]
    simp [h1]

/-- C173 (entries): with `coasting=True` and `num_slices = n`, entry `[r, s]` holds the weighted
sum over exactly the particles which are alive, whose number is in the range asked for, and whose
phase `turn - zeta / line_length` is in the s-th of the `n` equal parts of the turn centred on the
r-th recorded turn.  The zeta used in the sums is the distance to that turn. -/
theorem C173_coasting (inp : Input K) (c : Conf K) (h : build inp = .ok c) (hc : inp.coasting = true)
    (n : ℤ) (hn : inp.numSlices = some n) (L : K) (hL : 0 < L) (kept : Moment → Bool) (m : Moment)
    (hk : kept m = true) (ps : List (Part K)) (r s : ℤ) (hr0 : 0 ≤ r)
    (hr : inp.start + r * inp.every < inp.stop.getD (inp.start + 1)) (hs0 : 0 ≤ s) (hs : s < n) :
    (track c kept L .empty ps).sum m (r * n + s) =
      total (fun p => Seen inp p ∧
        ((inp.start + r * inp.every : ℤ) : K) - 1 / 2 + (s : K) / (n : K) ≤ (p.turn : K) - p.q .zeta / L ∧
        (p.turn : K) - p.q .zeta / L
          < ((inp.start + r * inp.every : ℤ) : K) - 1 / 2 + ((s : K) + 1) / (n : K))
        (weighted m (fun p => p.q .zeta + (((inp.start + r * inp.every : ℤ) : K) - (p.turn : K)) * L))
        ps := by
  rw [track_sum c kept L m hk, sum_share c L m (r * n + s) (fun p => Seen inp p ∧
        ((inp.start + r * inp.every : ℤ) : K) - 1 / 2 + (s : K) / (n : K) ≤ (p.turn : K) - p.q .zeta / L ∧
        (p.turn : K) - p.q .zeta / L
          < ((inp.start + r * inp.every : ℤ) : K) - 1 / 2 + ((s : K) + 1) / (n : K))
    (fun p => p.q .zeta + (((inp.start + r * inp.every : ℤ) : K) - (p.turn : K)) * L)
    (fun p => ?_) (fun p r' w e => ?_)]
  · simp [Store.empty]
  · constructor
    · rintro ⟨r', w, e⟩
      obtain ⟨-, a, b, d, -⟩ := (coasting_cell inp c h hc n hn L hL r s hr0 hr hs0 hs p w r').1 e
      exact ⟨a, b, d⟩
    · rintro ⟨a, b, d⟩
      exact ⟨r, _, (coasting_cell inp c h hc n hn L hL r s hr0 hr hs0 hs p _ r).2 ⟨rfl, a, b, d, rfl⟩⟩
  · exact ((coasting_cell inp c h hc n hn L hL r s hr0 hr hs0 hs p w r').1 e).2.2.2.2

/-- C173 (complete): no position is left out, and the recorded zeta is at most half a turn away. -/
theorem C173_complete (n : ℤ) (hn : 0 < n) (L : K) (hL : 0 < L) (turn : ℤ) (zeta : K) :
    ∃ eff s z, periodic n L turn zeta = some (eff, s, z) ∧ 0 ≤ s ∧ s < n ∧
      -(L / 2) < z ∧ z ≤ L / 2 := by
  obtain ⟨eff, s, z, h⟩ := periodic_some n hn L hL turn zeta
  obtain ⟨h0, h1, h2, h3, h4⟩ := (periodic_iff n hn L hL _ _ _ _ _).1 h
  have hn' : (0 : K) < n := by exact_mod_cast hn
  have hs0 : (0 : K) ≤ (s : K) / n := div_nonneg (by exact_mod_cast h0) hn'.le
  have hs1 : ((s : K) + 1) / n ≤ 1 := by
    rw [div_le_one hn']; exact_mod_cast h1
  have e : z = ((eff : K) - ((turn : K) - zeta / L)) * L := by rw [h4]; field_simp; ring
  refine ⟨eff, s, z, h, h0, h1, ?_, ?_⟩
  · have : -(1 / 2) < (eff : K) - ((turn : K) - zeta / L) := by linarith
    have := mul_lt_mul_of_pos_right this hL
    rw [e]; linarith
  · have : (eff : K) - ((turn : K) - zeta / L) ≤ 1 / 2 := by linarith
    have := mul_le_mul_of_nonneg_right this hL.le
    rw [e]; linarith

/-! ## Places of slices -/

theorem sliceIndexCoasting_lt (n : ℤ) (hn : 0 < n) (f : K) :
    ⌊(f - (⌊f + 1 / 2⌋ : K) + 1 / 2) * (n : K)⌋ < n := by
  have hn' : (0 : K) < n := by exact_mod_cast hn
  rw [Int.floor_lt]
  have h2 := Int.lt_floor_add_one (f + 1 / 2)
  have : f - (⌊f + 1 / 2⌋ : K) + 1 / 2 < 1 := by linarith
  calc (f - (⌊f + 1 / 2⌋ : K) + 1 / 2) * n < 1 * n := mul_lt_mul_of_pos_right this hn'
    _ = n := one_mul _

/-- C175 (coasting): `slice_index` gives the slice in which a particle at that zeta is recorded,
in whatever turn it is. -/
theorem C175_coasting (n : ℤ) (hn : 0 < n) (L : K) (hL : 0 < L) (turn eff s : ℤ) (zeta z : K)
    (h : periodic n L turn zeta = some (eff, s, z)) : sliceIndexCoasting n L zeta = s := by
  unfold periodic at h
  rw [if_neg (not_le.2 hL)] at h
  dsimp only at h
  split at h
  · simp at h
  · simp only [Option.some.injEq, Prod.mk.injEq] at h
    unfold sliceIndexCoasting
    dsimp only
    have e : (turn : K) - zeta / L + 1 / 2 = -zeta / L + 1 / 2 + (turn : K) := by ring
    have e2 : (turn : K) - zeta / L - (⌊(turn : K) - zeta / L + 1 / 2⌋ : K) =
        -zeta / L - (⌊-zeta / L + 1 / 2⌋ : K) := by
      rw [e, Int.floor_add_intCast]
      push_cast
      ring
    rw [← e2, if_neg]
    · exact h.2.1
    · rw [e2]
      exact ne_of_lt (sliceIndexCoasting_lt n hn _)

/-- C175 (centres, coasting): the centre which is reported for a slice is in that slice, in the
middle of it. -/
theorem C175_coasting_centre (n : ℤ) (hn : 0 < n) (L : K) (hL : 0 < L) (turn s : ℤ) (hs0 : 0 ≤ s)
    (hs : s < n) : periodic n L turn (centreCoasting n L s)
      = some (turn, s, centreCoasting n L s) ∧
      (turn : K) - centreCoasting n L s / L
        = ((((turn : K) - 1 / 2 + (s : K) / (n : K)) + ((turn : K) - 1 / 2 + ((s : K) + 1) / (n : K))) / 2) := by
  have hn' : (0 : K) < n := by exact_mod_cast hn
  have e : (turn : K) - centreCoasting n L s / L = (turn : K) - 1 / 2 + ((s : K) + 1 / 2) / (n : K) := by
    unfold centreCoasting; field_simp; ring
  refine ⟨?_, ?_⟩
  · rw [periodic_iff n hn L hL, e]
    refine ⟨hs0, hs, ?_, ?_, by ring⟩
    · have : (s : K) / n ≤ ((s : K) + 1 / 2) / n := by
        apply div_le_div_of_nonneg_right _ hn'.le; linarith
      linarith
    · have : ((s : K) + 1 / 2) / n < ((s : K) + 1) / n := by
        apply div_lt_div_of_pos_right _ hn'; linarith
      linarith
  · rw [e]; field_simp; ring

/-- C175 (slices): `slice_index(zeta, slot)` answers `s` exactly when zeta is in slice `s` of the
window of that slot, and refuses everything else. -/
theorem C175_slice (inp : Input K) (c : Conf K) (h : build inp = .ok c) (hc : inp.coasting = false)
    (a b : K) (hz : inp.zetaRange = some (a, b)) (n : ℤ) (hn : inp.numSlices = some n)
    (zeta : K) (slot : ℤ) (s : ℤ) :
    sliceIndex c zeta (some slot) = some s ↔
      (slot ∈ c.selected ∧ 0 ≤ s ∧ s < n ∧ InSlice inp a b n s slot zeta) := by
  obtain ⟨g, f⟩ := build_spec inp c h
  have hm : c.mode = .slice := by rw [f.mode]; simp [hc, hz]
  obtain ⟨b', hz', hd⟩ := f.range hm
  have hns : c.nSlices = n := by
    have := f.slices (Or.inl hm)
    rw [hn] at this
    exact (Option.some.inj this).symm
  rw [hz] at hz'
  rw [hns] at hd
  simp only [Option.some.injEq, Prod.mk.injEq] at hz'
  obtain ⟨za, zb⟩ := hz'
  subst zb
  rw [← za] at hd
  have hsd := (g.slices hm).2
  have hfl : ⌊(zeta + (slot : K) * c.spacing - c.zMin) / c.dzeta⌋ = s ↔ InSlice inp a b n s slot zeta := by
    rw [floor_div_iff _ _ hsd, hd, ← za, f.spacing]
    unfold InSlice
    constructor
    · rintro ⟨x, y⟩; constructor <;> linarith
    · rintro ⟨x, y⟩; constructor <;> linarith
  unfold sliceIndex
  dsimp only
  rw [hns]
  by_cases hs : slot ∈ c.selected
  · rw [if_pos hs]
    constructor
    · intro hq
      split at hq
      · simp at hq
      · rename_i hr
        have e := Option.some.inj hq
        rw [e] at hr
        exact ⟨hs, by omega, by omega, hfl.1 e⟩
    · rintro ⟨-, h0, h1, h2⟩
      rw [hfl.2 h2, if_neg (by omega)]
  · rw [if_neg hs]
    simp [hs]

/-- C175 (centres): the centre reported for a slice of a selected slot is in that slice. -/
theorem C175_centre (inp : Input K) (c : Conf K) (h : build inp = .ok c) (hc : inp.coasting = false)
    (a b : K) (hz : inp.zetaRange = some (a, b)) (n : ℤ) (hn : inp.numSlices = some n)
    (slot : ℤ) (hslot : slot ∈ c.selected) (s : ℤ) (hs0 : 0 ≤ s) (hs : s < n) :
    sliceIndex c (centre c slot s) (some slot) = some s := by
  rw [C175_slice inp c h hc a b hz n hn]
  refine ⟨hslot, hs0, hs, ?_⟩
  obtain ⟨g, f⟩ := build_spec inp c h
  have hm : c.mode = .slice := by rw [f.mode]; simp [hc, hz]
  obtain ⟨b', hz', hd⟩ := f.range hm
  have hns := f.slices (Or.inl hm)
  rw [hn] at hns
  rw [hz] at hz'
  simp only [Option.some.injEq, Prod.mk.injEq] at hz' hns
  obtain ⟨rfl, rfl⟩ := hz'
  have hsd := (g.slices hm).2
  subst hns
  unfold InSlice centre
  rw [← hd, ← f.spacing]
  constructor <;> linarith

/-- C175 (records): `record_index` answers `r` exactly for the r-th recorded turn. -/
theorem C175_record (inp : Input K) (c : Conf K) (h : build inp = .ok c) (turn r : ℤ) :
    recordIndex c turn = some r ↔ (0 ≤ r ∧ turn = inp.start + r * inp.every ∧
      turn < inp.stop.getD (inp.start + 1)) := by
  obtain ⟨g, f⟩ := build_spec inp c h
  have he := g.every
  have key : ∀ x : ℤ, x ∈ (List.range c.nRecords.toNat).map (fun i : ℕ => (i : ℤ)) ↔
      (0 ≤ x ∧ x < c.nRecords) := by
    intro x
    simp only [List.mem_map, List.mem_range]
    constructor
    · rintro ⟨k, hk, rfl⟩
      omega
    · rintro ⟨h0, h1⟩
      refine ⟨x.toNat, by omega, ?_⟩
      omega
  unfold recordIndex
  constructor
  · intro hq
    have h1 := List.find?_some hq
    have h2 := (records_iff inp c g f r).1 ((key r).1 (List.mem_of_find?_eq_some hq))
    simp only [decide_eq_true_eq] at h1
    rw [f.start, f.every] at h1
    exact ⟨h2.1, h1.symm, by rw [← h1]; exact h2.2⟩
  · rintro ⟨h0, h1, h2⟩
    rw [h1] at h2
    have hr := (key r).2 ((records_iff inp c g f r).2 ⟨h0, h2⟩)
    rcases hq : ((List.range c.nRecords.toNat).map (fun i : ℕ => (i : ℤ))).find?
        (fun r => decide (c.start + r * c.every = turn)) with _ | r'
    · rw [List.find?_eq_none] at hq
      have := hq r hr
      simp only [decide_eq_true_eq] at this
      rw [f.start, f.every] at this
      exact absurd h1.symm this
    · have h3 := List.find?_some hq
      simp only [decide_eq_true_eq] at h3
      rw [h1, ← f.start, ← f.every] at h3
      have : r' = r := by
        have : (r' - r) * c.every = 0 := by linarith
        rcases mul_eq_zero.1 this with q | q
        · omega
        · omega
      rw [this]

/-! ## Coarser levels -/

/-- Totals over pairwise exclusive properties add up to the total over their union. -/
theorem total_union (N : ℕ) (P : ℕ → Part K → Prop) (f : Part K → K)
    (hd : ∀ i j p, P i p → P j p → i = j) (ps : List (Part K)) :
    ∑ i ∈ Finset.range N, total (P i) f ps = total (fun p => ∃ i, i < N ∧ P i p) f ps := by
  classical
  induction ps with
  | nil => simp [total]
  | cons p ps ih =>
    simp only [total_cons, Finset.sum_add_distrib, ih]
    congr 1
    by_cases h : ∃ i, i < N ∧ P i p
    · rw [if_pos h]
      obtain ⟨i, hi, hp⟩ := h
      rw [Finset.sum_eq_single i]
      · rw [if_pos hp]
      · intro j _ hj
        rw [if_neg (fun hq => hj (hd j i p hq hp))]
      · intro hq; exact absurd (Finset.mem_range.2 hi) hq
    · rw [if_neg h]
      refine Finset.sum_eq_zero (fun i hi => ?_)
      rw [if_neg (fun hp => h ⟨i, Finset.mem_range.1 hi, hp⟩)]

theorem total_congr (P Q : Part K → Prop) (h : ∀ p, P p ↔ Q p) (f : Part K → K) (ps : List (Part K)) :
    total P f ps = total Q f ps := by
  have : P = Q := funext (fun p => propext (h p))
  rw [this]

/-- Slices of a window are exclusive and fill the window. -/
theorem slices_fill (a d : K) (hd : 0 < d) (n : ℤ) (hn : 0 < n) (x : K) :
    (∃ s : ℕ, s < n.toNat ∧ a + ((s : ℤ) : K) * d ≤ x ∧ x < a + (((s : ℤ) : K) + 1) * d) ↔
      (a ≤ x ∧ x < a + (n : K) * d) := by
  constructor
  · rintro ⟨s, h1, h2, h3⟩
    have h0 : (0 : K) ≤ ((s : ℤ) : K) * d := mul_nonneg (by exact_mod_cast Nat.zero_le s) hd.le
    have h4 : (((s : ℤ) : K) + 1) ≤ n := by
      have : (s : ℤ) + 1 ≤ n := by omega
      exact_mod_cast this
    have := mul_le_mul_of_nonneg_right h4 hd.le
    constructor <;> linarith
  · rintro ⟨h1, h2⟩
    have h0 : 0 ≤ ⌊(x - a) / d⌋ := Int.floor_nonneg.2 (div_nonneg (by linarith) hd.le)
    have h3 : ⌊(x - a) / d⌋ < n := by
      rw [Int.floor_lt, div_lt_iff₀ hd]; linarith
    obtain ⟨q1, q2⟩ := (floor_div_iff (x - a) d hd _).1 rfl
    refine ⟨⌊(x - a) / d⌋.toNat, by omega, ?_⟩
    rw [Int.toNat_of_nonneg h0]
    constructor <;> linarith

theorem slices_exclusive (a d : K) (hd : 0 < d) (s s' : ℕ) (x : K)
    (h : a + ((s : ℤ) : K) * d ≤ x ∧ x < a + (((s : ℤ) : K) + 1) * d)
    (h' : a + ((s' : ℤ) : K) * d ≤ x ∧ x < a + (((s' : ℤ) : K) + 1) * d) : s = s' := by
  have e := (floor_div_iff (x - a) d hd (s : ℤ)).2 ⟨by linarith [h.1], by linarith [h.2]⟩
  have e' := (floor_div_iff (x - a) d hd (s' : ℤ)).2 ⟨by linarith [h'.1], by linarith [h'.2]⟩
  rw [e] at e'
  exact_mod_cast e'

/-- C174 (bunches of a monitor with slices): at level "bunch" the sums are those over all particles
of the turn in the window of the slot, if the window is not longer than the bunch spacing. -/
theorem C174_bunch_partial (inp : Input K) (c : Conf K) (h : build inp = .ok c)
    (hc : inp.coasting = false)
    (a b : K) (hz : inp.zetaRange = some (a, b)) (hw : ∀ sp, inp.spacing = some sp → b - a ≤ sp)
    (L : K) (kept : Moment → Bool) (m : Moment) (hk : kept m = true) (ps : List (Part K))
    (r : ℤ) (hr0 : 0 ≤ r) (hr : inp.start + r * inp.every < inp.stop.getD (inp.start + 1))
    (j : ℕ) (slot : ℤ) (hj : c.selected[j]? = some slot) :
    bunchLevel c ((track c kept L .empty ps).sum m) r j =
      total (fun p => Seen inp p ∧ p.turn = inp.start + r * inp.every ∧
        a ≤ p.q .zeta + (slot : K) * inp.spacing.getD 0 ∧
        p.q .zeta + (slot : K) * inp.spacing.getD 0 < b) (weighted m (fun p => p.q .zeta)) ps := by
  obtain ⟨g, f⟩ := build_spec inp c h
  have hm : c.mode = .slice := by rw [f.mode]; simp [hc, hz]
  obtain ⟨b', hz', hd⟩ := f.range hm
  have hn := f.slices (Or.inl hm)
  rw [hz] at hz'
  simp only [Option.some.injEq, Prod.mk.injEq] at hz'
  obtain ⟨rfl, rfl⟩ := hz'
  obtain ⟨hns, hsd⟩ := g.slices hm
  obtain ⟨hsel, -, -⟩ := g.bunches (Or.inr hm)
  have hn' : (0 : K) < c.nSlices := by exact_mod_cast hns
  unfold bunchLevel
  rw [Finset.sum_congr rfl (g := fun s : ℕ => total (fun p => Seen inp p ∧
      p.turn = inp.start + r * inp.every ∧ InSlice inp c.zMin b c.nSlices (s : ℤ) slot (p.q .zeta))
      (weighted m (fun p => p.q .zeta)) ps)]
  · rw [total_union c.nSlices.toNat (fun s p => Seen inp p ∧
      p.turn = inp.start + r * inp.every ∧ InSlice inp c.zMin b c.nSlices (s : ℤ) slot (p.q .zeta))]
    · apply total_congr
      intro p
      have e : b = c.zMin + (c.nSlices : K) * ((b - c.zMin) / (c.nSlices : K)) := by field_simp; ring
      have := slices_fill c.zMin _ hsd c.nSlices hns (p.q .zeta + (slot : K) * inp.spacing.getD 0)
      rw [hd, ← e] at this
      rw [← this]
      unfold InSlice
      constructor
      · rintro ⟨s, x1, x2, x3, x4⟩; exact ⟨x2, x3, s, x1, x4⟩
      · rintro ⟨x2, x3, s, x1, x4⟩; exact ⟨s, x1, x2, x3, x4⟩
    · rintro s s' p ⟨-, -, x⟩ ⟨-, -, y⟩
      unfold InSlice at x y
      rw [← hd] at x y
      exact slices_exclusive c.zMin c.dzeta hsd s s' _ x y
  · intro s hs
    have := Finset.mem_range.1 hs
    rw [hsel]
    exact C172_slice_partial inp c h hc c.zMin b hz c.nSlices hn hw L kept m hk ps r s hr0 hr j slot hj
      (by omega) (by omega)

/-- C174 (whole beam of a monitor with slices): at level "beam" the sums are those over all
particles of the turn which are in the window of any selected slot, if the window is not longer
than the bunch spacing. -/
theorem C174_beam_partial (inp : Input K) (c : Conf K) (h : build inp = .ok c)
    (hc : inp.coasting = false)
    (a b : K) (hz : inp.zetaRange = some (a, b)) (hw : ∀ sp, inp.spacing = some sp → b - a ≤ sp)
    (L : K) (kept : Moment → Bool) (m : Moment) (hk : kept m = true) (ps : List (Part K))
    (r : ℤ) (hr0 : 0 ≤ r) (hr : inp.start + r * inp.every < inp.stop.getD (inp.start + 1)) :
    beamLevel c ((track c kept L .empty ps).sum m) r =
      total (fun p => Seen inp p ∧ p.turn = inp.start + r * inp.every ∧ ∃ slot ∈ c.selected,
        a ≤ p.q .zeta + (slot : K) * inp.spacing.getD 0 ∧
        p.q .zeta + (slot : K) * inp.spacing.getD 0 < b) (weighted m (fun p => p.q .zeta)) ps := by
  obtain ⟨g, f⟩ := build_spec inp c h
  have hm : c.mode = .slice := by rw [f.mode]; simp [hc, hz]
  obtain ⟨hsel, -, hsz⟩ := g.bunches (Or.inr hm)
  have hin : ∀ j ∈ Finset.range c.nSelected.toNat, j < c.selected.length := by
    intro j hj
    have := Finset.mem_range.1 hj
    omega
  unfold beamLevel
  rw [Finset.sum_congr rfl (g := fun j : ℕ => total (fun p => ∃ slot : ℤ, c.selected[j]? = some slot ∧
      Seen inp p ∧ p.turn = inp.start + r * inp.every ∧
        a ≤ p.q .zeta + (slot : K) * inp.spacing.getD 0 ∧
        p.q .zeta + (slot : K) * inp.spacing.getD 0 < b) (weighted m (fun p => p.q .zeta)) ps)]
  · rw [total_union c.nSelected.toNat (fun j p => ∃ slot : ℤ, c.selected[j]? = some slot ∧
      Seen inp p ∧ p.turn = inp.start + r * inp.every ∧
        a ≤ p.q .zeta + (slot : K) * inp.spacing.getD 0 ∧
        p.q .zeta + (slot : K) * inp.spacing.getD 0 < b)]
    · apply total_congr
      intro p
      constructor
      · rintro ⟨j, -, slot, x1, x2, x3, x4⟩
        exact ⟨x2, x3, slot, List.mem_iff_getElem?.2 ⟨j, x1⟩, x4⟩
      · rintro ⟨x2, x3, slot, x1, x4⟩
        obtain ⟨j, hj⟩ := List.mem_iff_getElem?.1 x1
        obtain ⟨hl, -⟩ := List.getElem?_eq_some_iff.1 hj
        exact ⟨j, by omega, slot, hj, x2, x3, x4⟩
    · rintro j j' p ⟨slot, x1, -, -, x2, x3⟩ ⟨slot', y1, -, -, y2, y3⟩
      rcases hs : inp.spacing with _ | sp
      · have : c.selected = [0] := hsz (by rw [f.spacing, hs]; rfl)
        have : c.selected.length = 1 := by rw [this]; rfl
        obtain ⟨hl, -⟩ := List.getElem?_eq_some_iff.1 x1
        obtain ⟨hl', -⟩ := List.getElem?_eq_some_iff.1 y1
        omega
      · have hpos : 0 < sp := by
          have := f.positive (by simp [hs])
          rw [f.spacing, hs] at this
          exact this
        have hwid := hw sp hs
        rw [hs] at x2 x3 y2 y3
        simp only [Option.getD_some] at x2 x3 y2 y3
        have e : slot = slot' := by
          have h1 : ((slot - slot' : ℤ) : K) * sp < 1 * sp := by push_cast; linarith
          have h2 : ((slot' - slot : ℤ) : K) * sp < 1 * sp := by push_cast; linarith
          have h3 : ((slot - slot' : ℤ) : K) < 1 := lt_of_mul_lt_mul_right h1 hpos.le
          have h4 : ((slot' - slot : ℤ) : K) < 1 := lt_of_mul_lt_mul_right h2 hpos.le
          have h5 : slot - slot' < 1 := by exact_mod_cast h3
          have h6 : slot' - slot < 1 := by exact_mod_cast h4
          omega
        subst e
        exact idx_unique c g j j' slot x1 y1
  · intro j hj
    have hl := hin j hj
    have hjs : c.selected[j]? = some c.selected[j] := List.getElem?_eq_getElem hl
    have := C174_bunch_partial inp c h hc a b hz hw L kept m hk ps r hr0 hr j _ hjs
    unfold bunchLevel at this
    rw [this]
    apply total_congr
    intro p
    rw [hjs]
    constructor
    · intro x; exact ⟨_, rfl, x⟩
    · rintro ⟨slot, e, x⟩
      obtain rfl := Option.some.inj e
      exact x

/-- C174 (whole beam of a monitor with bunches): at level "beam" the sums are those over all
particles of the turn which are closer than half a spacing to any selected slot. -/
theorem C174_bunches (inp : Input K) (c : Conf K) (h : build inp = .ok c) (hc : inp.coasting = false)
    (hz : inp.zetaRange = none) (hb : bunchInput inp = true)
    (L : K) (kept : Moment → Bool) (m : Moment) (hk : kept m = true) (ps : List (Part K))
    (r : ℤ) (hr0 : 0 ≤ r) (hr : inp.start + r * inp.every < inp.stop.getD (inp.start + 1)) :
    beamOfBunches c ((track c kept L .empty ps).sum m) r =
      total (fun p => Seen inp p ∧ p.turn = inp.start + r * inp.every ∧ ∃ slot ∈ c.selected,
        ∀ sp, inp.spacing = some sp →
          -(sp / 2) ≤ p.q .zeta + (slot : K) * sp ∧ p.q .zeta + (slot : K) * sp < sp / 2)
        (weighted m (fun p => p.q .zeta)) ps := by
  obtain ⟨g, f⟩ := build_spec inp c h
  have hm : c.mode = .bunch := by rw [f.mode]; simp [hc, hz, hb]
  obtain ⟨hsel, -, hsz⟩ := g.bunches (Or.inl hm)
  unfold beamOfBunches
  rw [Finset.sum_congr rfl (g := fun j : ℕ => total (fun p => ∃ slot : ℤ, c.selected[j]? = some slot ∧
      Seen inp p ∧ p.turn = inp.start + r * inp.every ∧ ∀ sp, inp.spacing = some sp →
          -(sp / 2) ≤ p.q .zeta + (slot : K) * sp ∧ p.q .zeta + (slot : K) * sp < sp / 2)
      (weighted m (fun p => p.q .zeta)) ps)]
  · rw [total_union c.nSelected.toNat (fun j p => ∃ slot : ℤ, c.selected[j]? = some slot ∧
      Seen inp p ∧ p.turn = inp.start + r * inp.every ∧ ∀ sp, inp.spacing = some sp →
          -(sp / 2) ≤ p.q .zeta + (slot : K) * sp ∧ p.q .zeta + (slot : K) * sp < sp / 2)]
    · apply total_congr
      intro p
      constructor
      · rintro ⟨j, -, slot, x1, x2, x3, x4⟩
        exact ⟨x2, x3, slot, List.mem_iff_getElem?.2 ⟨j, x1⟩, x4⟩
      · rintro ⟨x2, x3, slot, x1, x4⟩
        obtain ⟨j, hj⟩ := List.mem_iff_getElem?.1 x1
        obtain ⟨hl, -⟩ := List.getElem?_eq_some_iff.1 hj
        exact ⟨j, by omega, slot, hj, x2, x3, x4⟩
    · rintro j j' p ⟨slot, x1, -, -, x2⟩ ⟨slot', y1, -, -, y2⟩
      rcases hs : inp.spacing with _ | sp
      · have : c.selected = [0] := hsz (by rw [f.spacing, hs]; rfl)
        have : c.selected.length = 1 := by rw [this]; rfl
        obtain ⟨hl, -⟩ := List.getElem?_eq_some_iff.1 x1
        obtain ⟨hl', -⟩ := List.getElem?_eq_some_iff.1 y1
        omega
      · have hpos : 0 < sp := by
          have := f.positive (by simp [hs])
          rw [f.spacing, hs] at this
          exact this
        obtain ⟨x2, x3⟩ := x2 sp hs
        obtain ⟨y2, y3⟩ := y2 sp hs
        have e : slot = slot' := by
          have h1 : ((slot - slot' : ℤ) : K) * sp < 1 * sp := by push_cast; linarith
          have h2 : ((slot' - slot : ℤ) : K) * sp < 1 * sp := by push_cast; linarith
          have h3 : ((slot - slot' : ℤ) : K) < 1 := lt_of_mul_lt_mul_right h1 hpos.le
          have h4 : ((slot' - slot : ℤ) : K) < 1 := lt_of_mul_lt_mul_right h2 hpos.le
          have h5 : slot - slot' < 1 := by exact_mod_cast h3
          have h6 : slot' - slot < 1 := by exact_mod_cast h4
          omega
        subst e
        exact idx_unique c g j j' slot x1 y1
  · intro j hj
    have hl : j < c.selected.length := by
      have := Finset.mem_range.1 hj
      omega
    have hjs : c.selected[j]? = some c.selected[j] := List.getElem?_eq_getElem hl
    have := C172_bunch inp c h hc hz hb L kept m hk ps r hr0 hr j _ hjs
    rw [hsel, this]
    apply total_congr
    intro p
    rw [hjs]
    constructor
    · intro x; exact ⟨_, rfl, x⟩
    · rintro ⟨slot, e, x⟩
      obtain rfl := Option.some.inj e
      exact x

/-- C174 (whole coasting beam): at level "beam" the sums are those over all particles whose
phase is within half a turn of the recorded turn. -/
theorem C174_coasting (inp : Input K) (c : Conf K) (h : build inp = .ok c) (hc : inp.coasting = true)
    (L : K) (hL : 0 < L) (kept : Moment → Bool) (m : Moment)
    (hk : kept m = true) (ps : List (Part K)) (r : ℤ) (hr0 : 0 ≤ r)
    (hr : inp.start + r * inp.every < inp.stop.getD (inp.start + 1)) :
    beamLevel c ((track c kept L .empty ps).sum m) r =
      total (fun p => Seen inp p ∧
        ((inp.start + r * inp.every : ℤ) : K) - 1 / 2 ≤ (p.turn : K) - p.q .zeta / L ∧
        (p.turn : K) - p.q .zeta / L < ((inp.start + r * inp.every : ℤ) : K) + 1 / 2)
        (weighted m (fun p => p.q .zeta + (((inp.start + r * inp.every : ℤ) : K) - (p.turn : K)) * L))
        ps := by
  obtain ⟨g, f⟩ := build_spec inp c h
  have hm : c.mode = .coasting := by rw [f.mode]; simp [hc]
  obtain ⟨hns, hsel, -⟩ := g.coast hm
  have hn := f.slices (Or.inr hm)
  have hn' : (0 : K) < c.nSlices := by exact_mod_cast hns
  have hd : (0 : K) < 1 / (c.nSlices : K) := by positivity
  set t : K := ((inp.start + r * inp.every : ℤ) : K) with ht
  have conv : ∀ (s : ℕ) (x : K), (t - 1 / 2 + ((s : ℤ) : K) / (c.nSlices : K) ≤ x ∧
      x < t - 1 / 2 + (((s : ℤ) : K) + 1) / (c.nSlices : K)) ↔
      (t - 1 / 2 + ((s : ℤ) : K) * (1 / (c.nSlices : K)) ≤ x ∧
        x < t - 1 / 2 + (((s : ℤ) : K) + 1) * (1 / (c.nSlices : K))) := by
    intro s x
    rw [mul_one_div, mul_one_div]
  unfold beamLevel
  rw [hsel]
  simp only [Int.toNat_one, Finset.range_one, Finset.sum_singleton, Nat.cast_zero, add_zero, mul_one]
  rw [Finset.sum_congr rfl (g := fun s : ℕ => total (fun p => Seen inp p ∧
        t - 1 / 2 + ((s : ℤ) : K) / (c.nSlices : K) ≤ (p.turn : K) - p.q .zeta / L ∧
        (p.turn : K) - p.q .zeta / L < t - 1 / 2 + (((s : ℤ) : K) + 1) / (c.nSlices : K))
        (weighted m (fun p => p.q .zeta + (t - (p.turn : K)) * L)) ps)]
  · rw [total_union c.nSlices.toNat (fun s p => Seen inp p ∧
        t - 1 / 2 + ((s : ℤ) : K) / (c.nSlices : K) ≤ (p.turn : K) - p.q .zeta / L ∧
        (p.turn : K) - p.q .zeta / L < t - 1 / 2 + (((s : ℤ) : K) + 1) / (c.nSlices : K))]
    · apply total_congr
      intro p
      have := slices_fill (t - 1 / 2) _ hd c.nSlices hns ((p.turn : K) - p.q .zeta / L)
      have e : t - 1 / 2 + (c.nSlices : K) * (1 / (c.nSlices : K)) = t + 1 / 2 := by field_simp; ring
      rw [e] at this
      rw [← this]
      constructor
      · rintro ⟨s, x1, x2, x3⟩; exact ⟨x2, s, x1, (conv s _).1 x3⟩
      · rintro ⟨x2, s, x1, x3⟩; exact ⟨s, x1, x2, (conv s _).2 x3⟩
    · rintro s s' p ⟨-, x⟩ ⟨-, y⟩
      exact slices_exclusive (t - 1 / 2) _ hd s s' _ ((conv s _).1 x) ((conv s' _).1 y)
  · intro s hs
    have := Finset.mem_range.1 hs
    exact C173_coasting inp c h hc c.nSlices hn L hL kept m hk ps r s hr0 hr (by omega) (by omega)

/-- A coasting monitor with four slices. -/
abbrev coast : Input ℚ :=
  { stop := some 3
    numSlices := some 4
    coasting := true }

example : ∃ c, build coast = .ok c ∧ c.nRecords = 3 ∧
    cell c 100 (probe 70) = none ∧
    cell c 100 (probe (-30)) = some (0, 3, -30) ∧
    cell c 100 (probe (-70)) = some (1, 4, 30) ∧
    sliceIndexCoasting 4 100 (-70 : ℚ) = 0 := by
  refine ⟨⟨0, 3, 1, .coasting, 3, 1, 4, 0, 1 / 4, 0, -1, -1, [0], [0]⟩, ?_, rfl, ?_, ?_, ?_, ?_⟩ <;>
    decide +kernel

end Verif.BeamStats
