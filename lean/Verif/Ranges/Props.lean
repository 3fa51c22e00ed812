import Verif.Ranges.Lemmas
import Verif.Ranges.Spec
import Mathlib.Tactic.Push
import Mathlib.Tactic.NormNum

/-!
# Twiss over ranges (C103, C104)
-/

namespace Verif.Ranges

variable {Opt : Type}

theorem shows_walk (L : Lat Opt) (a m : ℕ) (w : Val Opt) :
    Shows L (L.walk a m w) a m (vals L a w) :=
  ⟨walk_eq L m a w, fun _ _ => rfl⟩

theorem name_mem {L : Lat Opt} {k : ℕ} (h : k < L.n) : L.name k ∈ L.names := by
  have : k < L.names.length := h
  simp [Lat.name, Nat.mod_eq_of_lt h, this]

theorem name_mem' {L : Lat Opt} (h : 0 < L.n) (k : ℕ) : L.name k ∈ L.names := by
  have e : L.name k = L.name (k % L.n) := name_congr L (by simp)
  rw [e]; exact name_mem (Nat.mod_lt _ h)

theorem name_eq {L : Lat Opt} {k : ℕ} (h : k < L.names.length) : L.name k = L.names[k] := by
  have : k < L.n := h
  simp [Lat.name, Nat.mod_eq_of_lt this, h]

theorem name_inj {L : Lat Opt} (hw : WellFormed L) {k k' : ℕ} (h : k < L.n) (h' : k' < L.n)
    (e : L.name k = L.name k') : k = k' := by
  rw [name_eq h, name_eq h'] at e
  exact (List.Nodup.getElem_inj_iff hw.nodup).mp e

theorem name_ne {L : Lat Opt} (hw : WellFormed L) {k k' : ℕ} (h : k < k') (h' : k' < k + L.n) :
    L.name k ≠ L.name k' := by
  intro e
  have hn : 0 < L.n := by omega
  have e1 : L.name (k % L.n) = L.name (k' % L.n) := by
    rw [name_congr L (k := k % L.n) (k' := k) (by simp),
      name_congr L (k := k' % L.n) (k' := k') (by simp), e]
  have e2 := name_inj hw (Nat.mod_lt k hn) (Nat.mod_lt k' hn) e1
  have e3 : (k' - k) % L.n = 0 := Nat.sub_mod_eq_zero_of_mod_eq e2.symm
  rw [Nat.mod_eq_of_lt (by omega)] at e3
  omega

theorem name_noend {L : Lat Opt} (hw : WellFormed L) (hn : 0 < L.n) (k : ℕ) :
    L.name k ≠ "_end_point" := fun e => hw.noend (e ▸ name_mem' hn k)

theorem idx_name {L : Lat Opt} (hw : WellFormed L) {k : ℕ} (h : k < L.n) :
    L.idx (L.name k) = some k := by
  have h' : k < L.names.length := h
  rw [Lat.idx, if_pos (name_mem h), name_eq h', List.Nodup.idxOf_getElem hw.nodup]

theorem next_marker {L : Lat Opt} (hw : WellFormed L) {k : ℕ} (hk : k < L.n)
    (h : L.marker k = true) (v : Val Opt) : L.next k v = v := by
  obtain ⟨h1, h2, h3, h4⟩ := hw.thin k h
  apply Val.ext' <;> simp [Lat.next, Nat.mod_eq_of_lt hk, h1, h2, h3, h4]

theorem vals_opt (L : Lat Opt) (k : ℕ) {v v' : Val Opt} (h : v.opt = v'.opt) (i : ℕ) :
    (vals L k v i).opt = (vals L k v' i).opt := by
  induction i with
  | zero => exact h
  | succ i ih => simp only [vals, Lat.next, ih]

theorem next_inj (L : Lat Opt) (k : ℕ) {v v' : Val Opt} (h : L.next k v = L.next k v') : v = v' := by
  have h1 : v.opt = v'.opt := (L.step (k % L.n)).injective (congrArg Val.opt h)
  have h2 := congrArg Val.mu h
  have h3 := congrArg Val.muz h
  have h4 := congrArg Val.s h
  simp only [Lat.next, h1, add_left_inj] at h2 h3 h4
  exact Val.ext' h1 h2 h3 h4

theorem vals_inj (L : Lat Opt) (k : ℕ) {v v' : Val Opt} (i : ℕ) (h : vals L k v i = vals L k v' i) :
    v = v' := by
  induction i with
  | zero => exact h
  | succ i ih => exact ih (next_inj L _ h)

theorem sh_zero (v : Val Opt) : (⟨v.opt, 0, v.muz, 0⟩ : Val Opt) = v.sh (-v.mu) 0 (-v.s) := by
  simp [Val.sh]

/-- A table over a range with the optics at its last element, a marker. -/
theorem base_backward_marker {L : Lat Opt} (hw : WellFormed L) {a b : ℕ} (init : Init Opt)
    (hab : a < b) (hb : b < L.n) (h : init.elem = L.name b) (hm : L.marker b = true)
    (hs : init.val.s = L.sLoc b) :
    ∃ w, base L a b init = some (L.walk a (b - a + 1) w) ∧ vals L a w (b - a) = init.val := by
  have hne : init.elem ≠ L.name a := by
    rw [h]; exact (name_ne hw hab (by omega)).symm
  obtain ⟨w, hw1, hw2⟩ := base_backward L init hab.le hb hne h
  have e : b + 1 - a = b - a + 1 := by omega
  rw [e] at hw1 hw2
  refine ⟨w, hw1, ?_⟩
  have h3 : vals L a w (b - a + 1) = L.next b (vals L a w (b - a)) := by
    show L.next (a + (b - a)) _ = _
    rw [show a + (b - a) = b by omega]
  rw [next_marker hw hb hm] at h3
  rw [← h3, hw2, ← hs]

theorem base_forward' {L : Lat Opt} {a b : ℕ} (init : Init Opt) (hab : a ≤ b)
    (h : init.elem = L.name a) (hs : init.val.s = L.sLoc a) :
    base L a b init = some (L.walk a (b - a + 1) init.val) := by
  rw [base_forward L init hab h, ← hs, show b + 1 - a = b - a + 1 by omega]

/-- Putting together the two sides of a marker inside a range. -/
theorem combine_sides {L : Lat Opt} (hw : WellFormed L) {a i b : ℕ} (init : Init Opt) (hai : a ≤ i)
    (hib : i ≤ b) (hb : b < L.n) (h : init.elem = L.name i) (hm : L.marker i = true)
    (w : Val Opt) (hv : vals L a w (i - a) = init.val) :
    ∃ w', combine (L.walk a (i - a + 1) w) (L.walk i (b - i + 1) init.val) init
      = some (L.walk a (b - a + 1) w') ∧ vals L a w' (i - a) = init.val := by
  have hn : 0 < L.n := by omega
  rcases Nat.eq_or_lt_of_le hai with rfl | hlt
  · simp only [Nat.sub_self, vals] at hv
    obtain ⟨x, c, hc⟩ := concat_single L (k := a) (m2 := b - a + 1) w init.val (by omega)
    obtain ⟨w', h1, h2, _⟩ := shiftTo_walk L (k := a) (m := b - a + 1) (j := 0)
      (init.val.sh x 0 c) init (by omega) (by intro i hi; omega) h rfl
    refine ⟨w', ?_, by simpa using h2⟩
    simp only [combine, Nat.sub_self, Nat.zero_add, hc, Option.bind_some, h1]
  · have hi : a + (i - a) = i := by omega
    have hc := concat_overlap L (k := a) (m1 := i - a) (m2 := b - i + 1) w init.val (by omega)
      (by omega) (name_noend hw hn _) (by rw [hv]) (by rw [hv]) (by
        show L.next (a + (i - a)) _ = _
        rw [hi, next_marker hw (by omega) hm])
    rw [hi, show i - a + (b - i + 1) = b - a + 1 by omega] at hc
    obtain ⟨w', h1, h2, _⟩ := shiftTo_walk L (k := a) (m := b - a + 1) (j := i - a)
      ⟨w.opt, 0, w.muz, 0⟩ init (by omega)
      (by intro j hj; exact name_ne hw (by omega) (by omega)) (by rw [hi]; exact h) (by
        rw [← hv]; exact vals_opt L a (v := ⟨w.opt, 0, w.muz, 0⟩) (v' := w) rfl _)
    refine ⟨w', ?_, h2⟩
    simp only [combine, hc, Option.bind_some, h1]

/-- Putting together the parts before and after the end of the line. -/
theorem join {L : Lat Opt} (hw : WellFormed L) {a b j : ℕ} (init : Init Opt) (hba : b < a)
    (ha : a < L.n) (v v' : Val Opt) (ho : v'.opt = (vals L a v (L.n - a)).opt)
    (hz : v'.muz = (vals L a v (L.n - a)).muz) (hj : j < b + L.n - a + 1)
    (hn : init.elem = L.name (a + j)) (hjo : (vals L a v j).opt = init.val.opt) :
    ∃ w, ((concat (L.walk a (L.n - a) v) (L.walk 0 (b + 1) v')).bind fun r => shiftTo r init)
      = some (L.walk a (b + L.n - a + 1) w) ∧ vals L a w j = init.val := by
  have hc := concat_disjoint L (k := a) (k' := 0) (m1 := L.n - a) (m2 := b + 1) v v' (by omega)
    (by omega) (by rw [show a + (L.n - a) = L.n by omega]; simp) (fun i hi => by
      rw [name_congr L (k := 0) (k' := L.n) (by simp)]
      exact name_ne hw (by omega) (by omega)) (name_noend hw (by omega) 0) ho hz
  rw [show L.n - a + (b + 1) = b + L.n - a + 1 by omega] at hc
  obtain ⟨w, h1, h2, _⟩ := shiftTo_walk L (k := a) (m := b + L.n - a + 1) (j := j)
    ⟨v.opt, 0, v.muz, 0⟩ init hj
    (by intro i hi; exact name_ne hw (by omega) (by omega)) hn (by
      rw [← hjo]; exact vals_opt L a (v := ⟨v.opt, 0, v.muz, 0⟩) (v' := v) rfl _)
  exact ⟨w, by simp only [hc, Option.bind_some, h1], h2⟩

/-- The part before the end of the line, from values at the end of the line. -/
theorem first_part {L : Lat Opt} (hw : WellFormed L) {a : ℕ} (ha : a < L.n)
    (bi : Init Opt) (he : bi.elem = L.name (L.n - 1)) (hlast : a + 1 = L.n → L.marker a = true) :
    ∃ v, base L a (L.n - 1) bi = some (L.walk a (L.n - a) v)
      ∧ (vals L a v (L.n - a)).opt = bi.val.opt ∧ (vals L a v (L.n - a)).muz = bi.val.muz := by
  rcases Nat.eq_or_lt_of_le (show a + 1 ≤ L.n from ha) with h1 | h1
  · have hm := hlast h1
    have : L.n - 1 = a := by omega
    rw [this] at he ⊢
    rw [base_forward L bi le_rfl he]
    refine ⟨_, by rw [show a + 1 - a = L.n - a by omega], ?_⟩
    rw [show L.n - a = 0 + 1 by omega]
    simp only [vals, Nat.add_zero, next_marker hw ha hm, and_self]
  · obtain ⟨v, h2, h3⟩ := base_backward L (a := a) (b := L.n - 1) bi (by omega) (by omega) (by
      rw [he]; exact (name_ne hw (by omega) (by omega)).symm) he
    rw [show L.n - 1 + 1 - a = L.n - a by omega] at h2 h3
    exact ⟨v, h2, by rw [h3], by rw [h3]⟩

/-- **C103 (partial).**  A twiss over a range, with the optics given at an element of the range, gives the one
table over the elements from `start` to `end` — going on over the end of the line if necessary — in
which optics, phases and `s` follow through the elements and take the given values at the entrance of
the given element.  Missing: the given element has to be `start` or a marker (`C103_end_violated`,
`C103_wrap_violated`; inside a range without the end of the line the program checks it), and the last
element of the line a marker if it is the `start` and the optics is given beyond the end of the line
(`C103_last_violated`). -/
theorem C103_range_partial {L : Lat Opt} (hw : WellFormed L) {a b i : ℕ} (ha : a < L.n) (hb : b < L.n)
    (hi : i < L.n) (hin : span L a i ≤ span L a b) (init : Init Opt) (he : init.elem = L.name i)
    (hs : init.val.s = L.sLoc i) (hm : i = a ∨ L.marker i = true)
    (hlast : i < a → a + 1 = L.n → L.marker a = true) :
    ∃ t v, openTwiss L (L.name a) (L.name b) init = some t ∧ Shows L t a (span L a b + 1) v
      ∧ v (span L a i) = init.val := by
  suffices h : ∃ w, openTwiss L (L.name a) (L.name b) init = some (L.walk a (span L a b + 1) w)
      ∧ vals L a w (span L a i) = init.val by
    obtain ⟨w, h1, h2⟩ := h
    exact ⟨_, vals L a w, h1, shows_walk L _ _ w, h2⟩
  have hn : 0 < L.n := by omega
  have hne : ∀ {x y : ℕ}, x < L.n → y < L.n → x ≠ y → L.name x ≠ L.name y :=
    fun hx hy h e => h (name_inj hw hx hy e)
  simp only [openTwiss, idx_name hw ha, idx_name hw hb, he, idx_name hw hi]
  by_cases hab : a ≤ b
  · -- not over the end of the line
    have hai : a ≤ i := by
      by_contra h
      simp only [span, if_pos hab, if_neg h] at hin; omega
    have hib : i ≤ b := by simp only [span, if_pos hab, if_pos hai] at hin; omega
    simp only [span, if_pos hab, if_pos hai, if_neg (Nat.not_lt.mpr hab)]
    by_cases h1 : i = a
    · subst h1
      simp only [true_or, if_true, Nat.sub_self]
      exact ⟨_, base_forward' init hab he hs, rfl⟩
    · have hm' : L.marker i = true := hm.resolve_left h1
      by_cases h2 : i = b
      · subst h2
        simp only [or_true, if_true]
        exact base_backward_marker hw init (by omega) hi he hm' hs
      · rw [if_neg (by
          push Not
          exact ⟨hne hi ha h1, hne hi hb h2⟩)]
        obtain ⟨w, hw1, hw2⟩ := base_backward_marker hw (a := a) (b := i) init (by omega) hi he hm' hs
        obtain ⟨w', h3, h4⟩ := combine_sides hw init hai hib hb he hm' w hw2
        refine ⟨w', ?_, h4⟩
        simp only [inside, hm', if_true, hai, hib, and_self, hw1, base_forward' init hib he hs,
          Option.bind_some, h3]
  · -- over the end of the line
    have hba : b < a := by omega
    simp only [span, if_neg hab]
    rw [if_pos hba]
    by_cases hai : a ≤ i
    · rw [if_pos hai]
      have hai' : a + (i - a) = i := by omega
      have hl : L.n - 1 - i + 1 = L.n - i := by omega
      -- the table from the init to the end of the line
      have hend : ∀ (k : ℕ) (v : Val Opt), rowOf (L.walk k (L.n - k) v) "_end_point"
          = some ⟨"_end_point", vals L k v (L.n - k)⟩ :=
        fun k v => rowOf_end L v (fun j _ => name_noend hw hn _)
      have hb0 : ∀ bi : Init Opt, bi.elem = L.name 0 → base L 0 b bi
          = some (L.walk 0 (b + 1) ⟨bi.val.opt, bi.val.mu, bi.val.muz, L.sLoc 0⟩) :=
        fun bi h => base_forward L bi (Nat.zero_le b) h
      by_cases h1 : i = a
      · subst h1
        have h2 : ¬ (i ≠ i ∧ i ≠ b) := by simp
        simp only [wrapped]
        rw [if_neg h2]
        simp only [le_refl, if_true, Nat.sub_self]
        rw [base_forward' init (show i ≤ L.n - 1 by omega) he hs, hl]
        simp only [Option.bind_some, initAt, hend, Option.map_some, hb0]
        exact join hw init hba ha init.val _ rfl rfl (by omega) he rfl
      · have hm' : L.marker i = true := hm.resolve_left h1
        have h2 : i ≠ a ∧ i ≠ b := ⟨h1, by omega⟩
        obtain ⟨w, hw1, hw2⟩ := base_backward_marker hw (a := a) (b := i) init (by omega) hi he hm' hs
        obtain ⟨w', h3, h4⟩ := combine_sides hw (b := L.n - 1) init hai (by omega) (by omega) he hm' w hw2
        simp only [wrapped]
        rw [if_pos h2, if_pos hai]
        rw [base_forward' init (show i ≤ L.n - 1 by omega) he hs]
        simp only [hw1, Option.bind_some, h3, initAt]
        rw [hl]
        simp only [hend, Option.map_some, Option.bind_some, hb0]
        rw [show L.n - 1 - a + 1 = L.n - a by omega]
        have hv : vals L i init.val (L.n - i) = vals L a w' (L.n - a) := by
          rw [← h4]
          have := vals_add L a w' (i - a) (L.n - i)
          rw [hai', show i - a + (L.n - i) = L.n - a by omega] at this
          exact this
        refine join hw init hba ha w' _ ?_ ?_ (by omega) (by rw [hai']; exact he) (by rw [h4])
        · rw [hv]
        · rw [hv]
    · rw [if_neg hai]
      have hia : i ≠ a := by omega
      have hm' : L.marker i = true := hm.resolve_left hia
      have hib : i ≤ b := by
        simp only [span, if_neg hab, if_neg hai] at hin; omega
      have hlast' := hlast (by omega)
      -- the table from the start of the line to the init
      have hsecond : ∃ w2, base L 0 i init = some (L.walk 0 (i + 1) w2) ∧ vals L 0 w2 i = init.val := by
        rcases Nat.eq_zero_or_pos i with rfl | hp
        · exact ⟨_, base_forward' init le_rfl he hs, rfl⟩
        · exact base_backward_marker hw init hp hi he hm' hs
      have hrow0 : ∀ (m : ℕ) (w : Val Opt), rowOf (L.walk 0 (m + 1) w) (L.name 0)
          = some ⟨L.name 0, w⟩ := fun m w =>
        rowOf_walk L (k := 0) (j := 0) w (by omega) (by intro i hi; omega)
      obtain ⟨w2, hw1, hw2⟩ := hsecond
      have hjoin : ∀ w', vals L 0 w' i = init.val →
          ∃ w, (((base L a (L.n - 1) ⟨L.name (L.n - 1), w'⟩).map fun t1 =>
              (t1, L.walk 0 (b + 1) w')).bind fun t => (concat t.1 t.2).bind fun r => shiftTo r init)
            = some (L.walk a (b + L.n - a + 1) w) ∧ vals L a w (i + L.n - a) = init.val := by
        intro w' h4
        obtain ⟨v, h5, h6, h7⟩ := first_part hw ha ⟨L.name (L.n - 1), w'⟩ rfl hlast'
        have e : a + (i + L.n - a) = i + L.n := by omega
        obtain ⟨w, h8, h9⟩ := join hw (j := i + L.n - a) init hba ha v w' h6.symm h7.symm (by omega)
          (by rw [e, he]; exact name_congr L (by simp)) (by
            have h10 := vals_add L a v (L.n - a) i
            rw [show a + (L.n - a) = L.n by omega, show L.n - a + i = i + L.n - a by omega] at h10
            rw [← h10, vals_congr L (k := L.n) (k' := 0) (by simp),
              vals_opt L 0 (v := vals L a v (L.n - a)) (v' := w') h6, h4])
        refine ⟨w, ?_, h9⟩
        simp only [h5, Option.map_some, Option.bind_some, h8]
      by_cases h2 : i = b
      · subst h2
        have h3 : ¬ (i ≠ a ∧ i ≠ i) := by simp
        simp only [wrapped]
        rw [if_neg h3, if_neg hai]
        simp only [hw1, Option.bind_some, initAt, hrow0, Option.map_some]
        exact hjoin w2 hw2
      · obtain ⟨w', h3, h4⟩ := combine_sides hw (a := 0) (i := i) (b := b) init (by omega) hib hb he hm'
          w2 hw2
        simp only [Nat.sub_zero] at h3 h4
        have e : w2 = w' := vals_inj L 0 i (hw2.trans h4.symm)
        simp only [wrapped]
        rw [if_pos ⟨hia, h2⟩, if_neg hai]
        simp only [hw1, Option.bind_some, base_forward' init hib he hs, h3, initAt, hrow0,
          Option.map_some]
        rw [e]
        exact hjoin w' h4

end Verif.Ranges
