import Verif.BeamStats.Coasting
import Mathlib.Algebra.Order.BigOperators.Group.List

/-!
# C172 (inside the arrays) and C178: profiles

Model of the histograms of the beam statistics monitor.
-/

namespace Verif.BeamStats

variable {K : Type*} [Field K] [LinearOrder K] [IsStrictOrderedRing K] [FloorRing K]

/-- `flat_size`, the product of the shape: beam_stats_monitor.py:429-470, 477. -/
def flatSize (c : Conf K) : ℤ :=
  match c.mode with
  | .beam => c.nRecords
  | .bunch => c.nRecords * c.nSelected
  | .slice => c.nRecords * c.nSelected * c.nSlices
  | .coasting => c.nRecords * c.nSelected * c.nSlices

theorem flat_bound (n r b N : ℤ) (hr0 : 0 ≤ r) (hr : r < N) (hb0 : 0 ≤ b) (hb : b < n) :
    0 ≤ r * n + b ∧ r * n + b < N * n := by
  constructor
  · have := mul_nonneg hr0 (by omega : 0 ≤ n); omega
  · have : (r + 1) * n ≤ N * n := mul_le_mul_of_nonneg_right (by omega) (by omega)
    nlinarith

theorem chosen_bound (c : Conf K) (g : Good c) (hb : c.mode = .bunch ∨ c.mode = .slice) (zeta : K)
    (slot i : ℤ) (h : chosen c zeta = some (slot, i)) : 0 ≤ i ∧ i < c.nSelected := by
  obtain ⟨hsel, -, hsz⟩ := g.bunches hb
  by_cases hs : c.spacing = 0
  · rw [chosen_zero c g hb hs] at h
    simp only [Option.some.injEq, Prod.mk.injEq] at h
    rw [← h.2, hsel, hsz hs]
    simp
  · obtain ⟨h0, h1, -⟩ := (chosen_iff c g hb hs _ _ _).1 h
    obtain ⟨hl, -⟩ := List.getElem?_eq_some_iff.1 h1
    rw [hsel]
    omega

/-- C172 (inside): whatever the particle and whatever arguments the monitor was built with, the
entry which is written is inside the arrays. -/
theorem C172_inside (inp : Input K) (c : Conf K) (h : build inp = .ok c) (L : K) (p : Part K) (r i : ℤ)
    (z : K) (hc : cell c L p = some (r, i, z)) :
    0 ≤ r ∧ r < c.nRecords ∧ 0 ≤ i ∧ i < flatSize c := by
  obtain ⟨g, f⟩ := build_spec inp c h
  have main : ∀ eff s z', atTurn c eff s z' = some (r, i, z) →
      (c.mode = .coasting → 0 ≤ s ∧ s < c.nSlices) → 0 ≤ r ∧ r < c.nRecords ∧ 0 ≤ i ∧ i < flatSize c := by
    intro eff s z' ha hs
    rw [atTurn_iff c g] at ha
    obtain ⟨h0, h1, -, h2, -⟩ := ha
    refine ⟨h0, h1, ?_⟩
    unfold flat at h2
    unfold flatSize
    cases hm : c.mode with
    | beam =>
      rw [hm] at h2
      obtain rfl := Option.some.inj h2
      exact ⟨h0, h1⟩
    | coasting =>
      rw [hm] at h2
      obtain rfl := Option.some.inj h2
      obtain ⟨q1, q2⟩ := hs hm
      obtain ⟨-, q3, -⟩ := g.coast hm
      dsimp only
      rw [q3, mul_one, mul_one]
      exact flat_bound c.nSlices r s c.nRecords h0 h1 q1 q2
    | bunch =>
      rw [hm] at h2
      dsimp only at h2 ⊢
      rw [Option.map_eq_some_iff] at h2
      obtain ⟨⟨slot, k⟩, q1, rfl⟩ := h2
      obtain ⟨b1, b2⟩ := chosen_bound c g (Or.inl hm) _ _ _ q1
      exact flat_bound c.nSelected r k c.nRecords h0 h1 b1 b2
    | slice =>
      rw [hm] at h2
      dsimp only at h2 ⊢
      rcases q1 : chosen c z' with _ | ⟨slot, k⟩
      · rw [q1] at h2; simp at h2
      · rw [q1] at h2
        dsimp only at h2
        split at h2
        · simp at h2
        · rename_i hq
          obtain rfl := Option.some.inj h2
          obtain ⟨b1, b2⟩ := chosen_bound c g (Or.inr hm) _ _ _ q1
          obtain ⟨b3, b4⟩ := flat_bound c.nSelected r k c.nRecords h0 h1 b1 b2
          push Not at hq
          exact flat_bound c.nSlices _ _ _ b3 b4 hq.1 hq.2
  unfold cell at hc
  split at hc
  · split at hc
    · split at hc
      · rename_i hm
        split at hc
        · simp at hc
        · rename_i eff s z' hp
          refine main eff s z' hc (fun _ => ?_)
          unfold periodic at hp
          split at hp
          · simp at hp
          · dsimp only at hp
            split at hp
            · simp at hp
            · rename_i hq
              simp only [Option.some.injEq, Prod.mk.injEq] at hp
              rw [hp.2.1] at hq
              omega
      · rename_i hm
        exact main _ _ _ hc (fun e => absurd e hm)
    · simp at hc
  · simp at hc

/-! ## Model of the profiles -/

/-- One profile: coordinate, range and number of bins: beam_stats_monitor.py:1364-1415. -/
structure Profile (K : Type*) where
  coord : Coord
  lo : K
  hi : K
  bins : ℤ

/-- What `_validate_profiles` guarantees: beam_stats_monitor.py:1400-1410. -/
def Profile.Valid (q : Profile K) : Prop := q.lo < q.hi ∧ 0 < q.bins ∧ (rank7 q.coord = true)
where
  /-- `coord in _COORDS`: beam_stats_monitor.py:1333-1338. -/
  rank7 : Coord → Bool
    | .charge => false
    | .mass => false
    | _ => true

/-- `bin_width`: beam_stats_monitor.py:511-515. -/
def Profile.width (q : Profile K) : K := (q.hi - q.lo) / (q.bins : K)

/-- The profiles with their offsets; `F` is the number of entries: beam_stats_monitor.py:490-495. -/
def withOffsets (F : ℤ) : ℤ → List (Profile K) → List (Profile K × ℤ)
  | _, [] => []
  | o, q :: rest => (q, o) :: withOffsets F (o + F * q.bins) rest

/-- The bin of a value: beam_stats_monitor.h:394-401. -/
def binOf (q : Profile K) (v : K) : Option ℤ :=
  let b := ⌊(v - q.lo) / q.width⌋
  if 0 ≤ b ∧ b < q.bins then some b else none

/-- One turn of the loop over profiles: beam_stats_monitor.h:373-410. -/
def addOne (i : ℤ) (z : K) (p : Part K) (a : ℤ → K) (e : Profile K × ℤ) : ℤ → K :=
  match binOf e.1 (coordOf p z e.1.coord) with
  | none => a
  | some b => fun k => if k = e.2 + i * e.1.bins + b then a k + p.weight else a k

/-- What a particle adds to the histograms: beam_stats_monitor.h:372-411. -/
def passProfiles (c : Conf K) (qs : List (Profile K)) (L : K) (a : ℤ → K) (p : Part K) : ℤ → K :=
  match cell c L p with
  | none => a
  | some (_, i, z) => (withOffsets (flatSize c) 0 qs).foldl (addOne i z p) a

/-- All particles. -/
def trackProfiles (c : Conf K) (qs : List (Profile K)) (L : K) (ps : List (Part K)) : ℤ → K :=
  ps.foldl (passProfiles c qs L) (fun _ => 0)

/-- The offset of the k-th profile as used by `_profile_counts`: beam_stats_monitor.py:1062-1071. -/
def offsetOf (F : ℤ) (qs : List (Profile K)) (k : ℕ) : ℤ := ((qs.take k).map (fun q => F * q.bins)).sum

/-- `profile_bin_edges[coord][b]`: beam_stats_monitor.py:722-733. -/
def edge (q : Profile K) (b : ℤ) : K := q.lo + q.width * (b : K)

/-! ## Lemmas -/

theorem binOf_iff (q : Profile K) (hq : q.Valid) (v : K) (b : ℤ) :
    binOf q v = some b ↔ (0 ≤ b ∧ b < q.bins ∧ edge q b ≤ v ∧ v < edge q (b + 1)) := by
  have hb : (0 : K) < q.bins := by exact_mod_cast hq.2.1
  have hw : 0 < q.width := div_pos (by linarith [hq.1]) hb
  have key : ∀ b : ℤ, ⌊(v - q.lo) / q.width⌋ = b ↔ (edge q b ≤ v ∧ v < edge q (b + 1)) := by
    intro b
    rw [floor_div_iff _ _ hw]
    unfold edge
    push_cast
    constructor
    · rintro ⟨x, y⟩; constructor <;> linarith
    · rintro ⟨x, y⟩; constructor <;> linarith
  unfold binOf
  dsimp only
  constructor
  · intro h
    split at h
    · rename_i hr
      have e := Option.some.inj h
      rw [e] at hr
      exact ⟨hr.1, hr.2, (key b).1 e⟩
    · simp at h
  · rintro ⟨h0, h1, h2⟩
    rw [(key b).2 h2, if_pos ⟨h0, h1⟩]

/-- Entries before the first offset are not touched. -/
theorem fold_before (F i : ℤ) (hi0 : 0 ≤ i) (hi : i < F) (z : K) (p : Part K) (qs : List (Profile K)) :
    ∀ (o : ℤ) (a : ℤ → K), (∀ q ∈ qs, q.Valid) → ∀ x, x < o →
      (withOffsets F o qs).foldl (addOne i z p) a x = a x := by
  induction qs with
  | nil => intro o a _ x _; rfl
  | cons q qs ih =>
    intro o a hv x hx
    have hq := hv q (by simp)
    have hF : 0 ≤ F * q.bins := mul_nonneg (by omega) hq.2.1.le
    rw [withOffsets, List.foldl_cons, ih _ _ (fun q hq => hv q (by simp [hq])) x (by omega)]
    unfold addOne
    rcases hb : binOf q (coordOf p z q.coord) with _ | b
    · simp [hb]
    · simp only [hb]
      obtain ⟨h0, h1, -⟩ := (binOf_iff q hq _ _).1 hb
      rw [if_neg]
      have := flat_bound q.bins i b F hi0 hi h0 h1
      omega

/-- What is added to one bin of one profile. -/
theorem fold_at (F i : ℤ) (hi0 : 0 ≤ i) (hi : i < F) (z : K) (p : Part K) (qs : List (Profile K)) :
    ∀ (o : ℤ) (a : ℤ → K), (∀ q ∈ qs, q.Valid) → ∀ (k : ℕ) (q : Profile K), qs[k]? = some q →
      ∀ (i' b : ℤ), 0 ≤ i' → i' < F → 0 ≤ b → b < q.bins →
      (withOffsets F o qs).foldl (addOne i z p) a (o + offsetOf F qs k + i' * q.bins + b) =
        a (o + offsetOf F qs k + i' * q.bins + b) +
          (if i = i' ∧ binOf q (coordOf p z q.coord) = some b then p.weight else 0) := by
  induction qs with
  | nil => intro o a _ k q hq; simp at hq
  | cons q0 qs ih =>
    intro o a hv k q hk i' b hi0' hi' hb0 hb
    have hq0 := hv q0 (by simp)
    have hv' : ∀ q ∈ qs, q.Valid := fun q hq => hv q (by simp [hq])
    rw [withOffsets, List.foldl_cons]
    cases k with
    | zero =>
      simp only [List.getElem?_cons_zero, Option.some.injEq] at hk
      subst hk
      have hblock := flat_bound q0.bins i' b F hi0' hi' hb0 hb
      have e0 : offsetOf F (q0 :: qs) 0 = 0 := by simp [offsetOf]
      rw [e0, add_zero, fold_before F i hi0 hi z p qs _ _ hv' _ (by omega)]
      unfold addOne
      dsimp only
      rcases hbin : binOf q0 (coordOf p z q0.coord) with _ | b'
      · simp
      · obtain ⟨h0, h1, -⟩ := (binOf_iff q0 hq0 _ _).1 hbin
        dsimp only
        by_cases e : i = i' ∧ b' = b
        · obtain ⟨rfl, rfl⟩ := e
          rw [if_pos rfl, if_pos ⟨rfl, rfl⟩]
        · rw [if_neg, if_neg, add_zero]
          · rintro ⟨e1, e2⟩
            exact e ⟨e1, Option.some.inj e2⟩
          · intro e1
            have := flat_inj q0.bins i' b i b' hb0 hb h0 h1 (by omega)
            exact e ⟨this.1.symm, this.2.symm⟩
    | succ k =>
      simp only [List.getElem?_cons_succ] at hk
      have e0 : o + offsetOf F (q0 :: qs) (k + 1) = (o + F * q0.bins) + offsetOf F qs k := by
        simp [offsetOf]; ring
      rw [e0, ih _ _ hv' k q hk i' b hi0' hi' hb0 hb]
      congr 1
      unfold addOne
      dsimp only
      rcases hbin : binOf q0 (coordOf p z q0.coord) with _ | b'
      · rfl
      · obtain ⟨h0, h1, -⟩ := (binOf_iff q0 hq0 _ _).1 hbin
        dsimp only
        rw [if_neg]
        have h2 := flat_bound q0.bins i b' F hi0 hi h0 h1
        have hq := hv' q (List.mem_iff_getElem?.2 ⟨k, hk⟩)
        have h3 := flat_bound q.bins i' b F hi0' hi' hb0 hb
        have h4 : 0 ≤ offsetOf F qs k := by
          unfold offsetOf
          apply List.sum_nonneg
          intro x hx
          obtain ⟨q', hq', rfl⟩ := List.mem_map.1 hx
          exact mul_nonneg (by omega) (hv' q' (List.mem_of_mem_take hq')).2.1.le
        omega

/-! ## C178 -/

/-- C178 (bins): bin `b` of entry `i` of the profile of a coordinate holds the total weight of
exactly the particles recorded in that entry whose coordinate is between the b-th and the next
bin edge, whatever other profiles are recorded. -/
theorem C178_bins (inp : Input K) (c : Conf K) (h : build inp = .ok c) (qs : List (Profile K))
    (hv : ∀ q ∈ qs, q.Valid) (L : K) (ps : List (Part K)) (k : ℕ) (q : Profile K) (hk : qs[k]? = some q)
    (i b : ℤ) (hi0 : 0 ≤ i) (hi : i < flatSize c) (hb0 : 0 ≤ b) (hb : b < q.bins) :
    trackProfiles c qs L ps (offsetOf (flatSize c) qs k + i * q.bins + b) =
      total (fun p => ∃ r z, cell c L p = some (r, i, z) ∧
        edge q b ≤ coordOf p z q.coord ∧ coordOf p z q.coord < edge q (b + 1)) (fun p => p.weight) ps := by
  classical
  have hq := hv q (List.mem_iff_getElem?.2 ⟨k, hk⟩)
  suffices hs : ∀ a : ℤ → K, ps.foldl (passProfiles c qs L) a (offsetOf (flatSize c) qs k + i * q.bins + b) =
      a (offsetOf (flatSize c) qs k + i * q.bins + b) + total (fun p => ∃ r z, cell c L p = some (r, i, z) ∧
        edge q b ≤ coordOf p z q.coord ∧ coordOf p z q.coord < edge q (b + 1)) (fun p => p.weight) ps by
    unfold trackProfiles
    rw [hs]
    simp
  induction ps with
  | nil => intro a; simp [total]
  | cons p ps ih =>
    intro a
    rw [List.foldl_cons, ih, total_cons, ← add_assoc]
    congr 1
    unfold passProfiles
    rcases hc : cell c L p with _ | ⟨r, j, z⟩
    · simp
    · obtain ⟨-, -, j0, j1⟩ := C172_inside inp c h L p r j z hc
      dsimp only
      have := fold_at (flatSize c) j j0 j1 z p qs 0 a hv k q hk i b hi0 hi hb0 hb
      rw [zero_add] at this
      rw [this]
      congr 1
      refine if_congr ?_ rfl rfl
      rw [binOf_iff q hq]
      constructor
      · rintro ⟨rfl, -, -, e⟩
        exact ⟨r, z, rfl, e⟩
      · rintro ⟨r', z', e, e2⟩
        simp only [Option.some.injEq, Prod.mk.injEq] at e
        obtain ⟨rfl, rfl, rfl⟩ := e
        exact ⟨rfl, hb0, hb, e2⟩

/-- C178 (edges): the edges go from the lower to the upper end of the range which was asked for. -/
theorem C178_edges (q : Profile K) (hq : q.Valid) : edge q 0 = q.lo ∧ edge q q.bins = q.hi := by
  have hb : (0 : K) < q.bins := by exact_mod_cast hq.2.1
  constructor
  · simp [edge]
  · unfold edge Profile.width; field_simp; ring

/-- C178 (sum): the bins of an entry add up to the weight of the particles of that entry whose
coordinate is in the range. -/
theorem C178_sum (inp : Input K) (c : Conf K) (h : build inp = .ok c) (qs : List (Profile K))
    (hv : ∀ q ∈ qs, q.Valid) (L : K) (ps : List (Part K)) (k : ℕ) (q : Profile K) (hk : qs[k]? = some q)
    (i : ℤ) (hi0 : 0 ≤ i) (hi : i < flatSize c) :
    ∑ b ∈ Finset.range q.bins.toNat,
        trackProfiles c qs L ps (offsetOf (flatSize c) qs k + i * q.bins + (b : ℤ)) =
      total (fun p => ∃ r z, cell c L p = some (r, i, z) ∧
        q.lo ≤ coordOf p z q.coord ∧ coordOf p z q.coord < q.hi) (fun p => p.weight) ps := by
  have hq := hv q (List.mem_iff_getElem?.2 ⟨k, hk⟩)
  have hb : (0 : K) < q.bins := by exact_mod_cast hq.2.1
  have hw : 0 < q.width := div_pos (by linarith [hq.1]) hb
  have conv : ∀ (s : ℕ) (x : K), (edge q (s : ℤ) ≤ x ∧ x < edge q ((s : ℤ) + 1)) ↔
      (q.lo + ((s : ℤ) : K) * q.width ≤ x ∧ x < q.lo + (((s : ℤ) : K) + 1) * q.width) := by
    intro s x
    unfold edge
    push_cast
    rw [mul_comm q.width, mul_comm q.width]
  rw [Finset.sum_congr rfl (g := fun b : ℕ => total (fun p => ∃ r z, cell c L p = some (r, i, z) ∧
        edge q (b : ℤ) ≤ coordOf p z q.coord ∧ coordOf p z q.coord < edge q ((b : ℤ) + 1))
        (fun p => p.weight) ps)]
  · rw [total_union q.bins.toNat (fun b p => ∃ r z, cell c L p = some (r, i, z) ∧
        edge q (b : ℤ) ≤ coordOf p z q.coord ∧ coordOf p z q.coord < edge q ((b : ℤ) + 1))]
    · apply total_congr
      intro p
      have e : q.hi = q.lo + (q.bins : K) * q.width := by
        have := (C178_edges q hq).2
        unfold edge at this
        rw [mul_comm]; exact this.symm
      constructor
      · rintro ⟨b, hb, r, z, h1, h2⟩
        refine ⟨r, z, h1, ?_⟩
        rw [e]
        exact (slices_fill q.lo q.width hw q.bins hq.2.1 _).1 ⟨b, hb, (conv b _).1 h2⟩
      · rintro ⟨r, z, h1, h2⟩
        rw [e] at h2
        obtain ⟨b, hb, h3⟩ := (slices_fill q.lo q.width hw q.bins hq.2.1 _).2 h2
        exact ⟨b, hb, r, z, h1, (conv b _).2 h3⟩
    · rintro b b' p ⟨r, z, h1, h2⟩ ⟨r', z', h1', h2'⟩
      rw [h1] at h1'
      simp only [Option.some.injEq, Prod.mk.injEq] at h1'
      obtain ⟨-, -, rfl⟩ := h1'
      exact slices_exclusive q.lo q.width hw b b' _ ((conv b _).1 h2) ((conv b' _).1 h2')
  · intro b hb'
    have := Finset.mem_range.1 hb'
    exact C178_bins inp c h qs hv L ps k q hk i b hi0 hi (by omega) (by omega)

example : ∃ c, build ({ stop := some 2 } : Input ℚ) = .ok c ∧ flatSize c = 2 ∧
    (⟨.x, 0, 1, 4⟩ : Profile ℚ).Valid ∧
    trackProfiles c [⟨.y, 0, 1, 3⟩, ⟨.x, 0, 1, 4⟩] 100
      [⟨1, 1, 0, 2, 0, fun _ => 3 / 10⟩] (6 + 1 * 4 + 1) = 2 := by
  refine ⟨⟨0, 2, 1, .beam, 2, 0, 0, 0, 0, 0, -1, -1, [], []⟩, by decide +kernel, by decide +kernel, ?_,
    by decide +kernel⟩
  unfold Profile.Valid
  norm_num [Profile.Valid.rank7]

end Verif.BeamStats
