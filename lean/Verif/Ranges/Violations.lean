import Verif.Ranges.Turns
import Mathlib.Logic.Equiv.Bool

/-!
# Ranges of the periodic table; ranges where the table is not what it says
-/

namespace Verif.Ranges

variable {Opt : Type}

theorem vals_period (L : Lat Opt) {v : Val Opt} (hp : (vals L 0 v L.n).opt = v.opt) (k : ℕ) :
    (vals L 0 v k).opt = (vals L 0 v (k % L.n)).opt := by
  rcases Nat.eq_zero_or_pos L.n with h0 | hn
  · simp [h0]
  · induction k using Nat.strong_induction_on with
    | _ k ih =>
      by_cases h : k < L.n
      · rw [Nat.mod_eq_of_lt h]
      · have e : k = L.n + (k - L.n) := by omega
        have h1 := vals_add L 0 v L.n (k - L.n)
        rw [← e, Nat.zero_add, vals_congr L (k := L.n) (k' := 0) (by simp)] at h1
        rw [← h1, vals_opt L 0 hp, ih (k - L.n) (by omega),
          Nat.mod_eq_sub_mod (a := k) (by omega)]

/-- **C103.**  A twiss over a range with the optics of the full periodic table at its start
(`init='full_periodic'`) shows at every element of the range, also beyond the end of the line, the
optics of the full periodic table. -/
theorem C103_full_periodic {L : Lat Opt} (hw : WellFormed L) {a b : ℕ} (ha : a < L.n) (hb : b < L.n)
    {full : List (Row Opt)} (hf : PeriodicTable L full) :
    ∃ init t, initAt full (L.name a) (L.name a) = some init
      ∧ openTwiss L (L.name a) (L.name b) init = some t
      ∧ ∀ i ≤ span L a b, ∃ r r', t[i]? = some r ∧ rowOf full (L.name (a + i)) = some r'
        ∧ r.name = L.name (a + i) ∧ r.val.opt = r'.val.opt := by
  obtain ⟨v, hs, hp, -, -, hs0⟩ := hf
  obtain ⟨hfull, hv⟩ := shows_eq hs
  rw [hv L.n le_rfl] at hp
  subst hfull
  have hrow : ∀ k < L.n, rowOf (L.walk 0 L.n (v 0)) (L.name k) = some ⟨L.name k, vals L 0 (v 0) k⟩ := by
    intro k hk
    have := rowOf_walk L (k := 0) (j := k) (v 0) hk (fun i hi => by
      simpa using name_ne hw hi (by omega))
    simpa using this
  have hss : (vals L 0 (v 0) a).s = L.sLoc a := by
    rw [vals_s L 0 (v 0) a (by omega), hs0]; simp [Lat.sLoc]
  obtain ⟨t, u, h1, h2, h3⟩ := C103_range_partial hw ha hb ha (by simp [span]) ⟨L.name a, vals L 0 (v 0) a⟩ rfl
    hss (Or.inl rfl) (by intro h; omega)
  refine ⟨⟨L.name a, vals L 0 (v 0) a⟩, t, by simp [initAt, hrow a ha], h1, ?_⟩
  intro i hi
  obtain ⟨h4, -⟩ := shows_eq h2
  have hu0 : u 0 = vals L 0 (v 0) a := by simpa [span] using h3
  have hn : 0 < L.n := by omega
  refine ⟨⟨L.name (a + i), vals L a (u 0) i⟩, ⟨L.name ((a + i) % L.n), vals L 0 (v 0) ((a + i) % L.n)⟩, ?_, ?_, rfl, ?_⟩
  · rw [h4]; exact walk_get L (u 0) (by omega)
  · rw [← hrow _ (Nat.mod_lt _ hn)]
    rw [name_congr L (k := a + i) (k' := (a + i) % L.n) (by simp)]
  · show (vals L a (u 0) i).opt = (vals L 0 (v 0) ((a + i) % L.n)).opt
    have h5 := vals_add L 0 (v 0) a i
    rw [Nat.zero_add] at h5
    rw [hu0, h5]
    exact vals_period L hp (a + i)

/-- A line with a periodic table which is not constant. -/
example : ∃ (L : Lat Bool) (t : List (Row Bool)), WellFormed L ∧ 1 < L.n ∧ PeriodicTable L t ∧
    (t.map fun r => r.val.opt) = [true, false, true] := by
  let L : Lat Bool :=
    { names := ["a", "b"]
      step := fun _ => Equiv.boolNot
      adv := fun _ _ => 1
      advz := fun _ _ => 0
      len := fun _ => 1
      marker := fun _ => false }
  have hw : WellFormed L := ⟨by decide, by decide, by intro k h; cases h⟩
  exact ⟨L, L.walk 0 2 ⟨true, 0, 0, 0⟩, hw, by decide, ⟨_, shows_walk L 0 2 _, rfl, rfl, rfl, rfl⟩, rfl⟩

/-- Optics given at the `end` of a range, which is not its start: the table shows the values given
for the entrance of `end` at its exit, with the `s` of its entrance. -/
theorem C103_end {L : Lat Opt} (hw : WellFormed L) {a b : ℕ} (hab : a < b) (hb : b < L.n)
    (init : Init Opt) (he : init.elem = L.name b) :
    ∃ t v, openTwiss L (L.name a) (L.name b) init = some t ∧ Shows L t a (b - a + 1) v
      ∧ v (b - a + 1) = ⟨init.val.opt, init.val.mu, init.val.muz, L.sLoc b⟩ := by
  have hne : init.elem ≠ L.name a := by
    rw [he]; exact (name_ne hw hab (by omega)).symm
  obtain ⟨w, h1, h2⟩ := base_backward L init hab.le hb hne he
  rw [show b + 1 - a = b - a + 1 by omega] at h1 h2
  refine ⟨_, vals L a w, ?_, shows_walk L _ _ w, h2⟩
  simp only [openTwiss, he, idx_name hw (show a < L.n by omega), idx_name hw hb]
  rw [if_neg (by omega)]
  simp only [or_true, if_true, h1]

/-- Optics given inside a range without the end of the line, not at a marker: exception. -/
theorem C103_error {L : Lat Opt} (hw : WellFormed L) {a b i : ℕ} (hab : a ≤ b) (hb : b < L.n)
    (hi : i < L.n) (h1 : i ≠ a) (h2 : i ≠ b) (init : Init Opt) (he : init.elem = L.name i)
    (hm : L.marker i = false) : openTwiss L (L.name a) (L.name b) init = none := by
  simp only [openTwiss, he, idx_name hw (show a < L.n by omega), idx_name hw hb, idx_name hw hi]
  rw [if_neg (by omega), if_neg (by
    push Not
    exact ⟨fun e => h1 (name_inj hw hi (by omega) e), fun e => h2 (name_inj hw hi hb e)⟩)]
  simp [inside, hm]

/-- A line of four thick elements; the optics is a number to which each element adds one. -/
abbrev four : Lat ℤ where
  names := ["a", "b", "c", "d"]
  step := fun _ => Equiv.addRight 1
  adv := fun _ _ => 0
  advz := fun _ _ => 1
  len := fun _ => 1
  marker := fun _ => false

theorem four_wf : WellFormed four := ⟨by decide, by decide, by intro k h; cases h⟩

theorem add_one_apply (x : ℤ) : (Equiv.addRight (1 : ℤ)) x = x + 1 := rfl

theorem add_one_symm (x : ℤ) : (Equiv.addRight (1 : ℤ)).symm x = x - 1 := by
  rw [Equiv.symm_apply_eq]; simp

/-- **C103, violation.**  Optics given at a thick `end`: the row of `end` does not show it, and `s` is
not that of the element. -/
theorem C103_end_violated : ∃ t r, openTwiss four "a" "b" ⟨"b", ⟨10, 0, 0, 1⟩⟩ = some t
    ∧ rowOf t "b" = some r ∧ r.val.opt = 9 ∧ r.val.s = 0 := by
  refine ⟨[⟨"a", ⟨8, 0, -2, -1⟩⟩, ⟨"b", ⟨9, 0, -1, 0⟩⟩, ⟨"_end_point", ⟨10, 0, 0, 1⟩⟩], ⟨"b", ⟨9, 0, -1, 0⟩⟩,
    ?_, ?_, rfl, rfl⟩
  · have : base four 0 1 ⟨"b", ⟨10, 0, 0, 1⟩⟩ = some [⟨"a", ⟨8, 0, -2, -1⟩⟩, ⟨"b", ⟨9, 0, -1, 0⟩⟩,
        ⟨"_end_point", ⟨10, 0, 0, 1⟩⟩] := by
      simp [base, Lat.name, Lat.n, Lat.walk, Lat.next, Lat.back, Lat.sLoc, alignTo, Row.shift,
        List.range_succ, sub_eq_add_neg]
      norm_num
    exact this
  · simp [rowOf]

/-- **C103, violation.**  Range over the end of the line with the optics given inside, at an element
which is not a marker: no exception, and the optics jumps at that element. -/
theorem C103_wrap_violated : ∃ t, openTwiss four "b" "a" ⟨"c", ⟨10, 0, 0, 2⟩⟩ = some t
    ∧ t.map (fun r => (r.name, r.val.opt))
      = [("b", 8), ("c", 10), ("d", 11), ("a", 12), ("_end_point", 13)] := by
  have h1 : base four 1 2 ⟨"c", ⟨10, 0, 0, 2⟩⟩ = some [⟨"b", ⟨8, 0, -2, 0⟩⟩, ⟨"c", ⟨9, 0, -1, 1⟩⟩,
      ⟨"_end_point", ⟨10, 0, 0, 2⟩⟩] := by
    simp [base, Lat.name, Lat.n, Lat.walk, Lat.next, Lat.back, Lat.sLoc, alignTo, Row.shift,
      List.range_succ, sub_eq_add_neg]
    norm_num
  have h2 : base four 2 3 ⟨"c", ⟨10, 0, 0, 2⟩⟩ = some [⟨"c", ⟨10, 0, 0, 2⟩⟩, ⟨"d", ⟨11, 0, 1, 3⟩⟩,
      ⟨"_end_point", ⟨12, 0, 2, 4⟩⟩] := by
    simp [base, Lat.name, Lat.n, Lat.walk, Lat.next, Lat.sLoc, alignTo, Row.shift,
      List.range_succ]
    norm_num
  have h3 : ∀ z s, base four 0 0 ⟨"a", ⟨12, 0, z, s⟩⟩ = some [⟨"a", ⟨12, 0, z, 0⟩⟩,
      ⟨"_end_point", ⟨13, 0, 1 + z, 1⟩⟩] := by
    intro z s
    simp [base, Lat.name, Lat.n, Lat.walk, Lat.next, Lat.sLoc, alignTo, Row.shift]
  have hn : four.n - 1 = 3 := rfl
  have hm : four.name 0 = "a" := rfl
  have h : ∃ t, wrapped four 1 0 2 ⟨"c", ⟨10, 0, 0, 2⟩⟩ = some t
      ∧ t.map (fun r => (r.name, r.val.opt))
        = [("b", 8), ("c", 10), ("d", 11), ("a", 12), ("_end_point", 13)] := by
    simp [wrapped, hn, hm, h1, h2, h3, combine, concat, keep, shiftTo, rowOf, initAt, Row.shift]
  exact h

/-- **C103, violation.**  Range from the last element of the line over its end, with the optics given
beyond the end: the optics at the end of the line is applied at the entrance of the last element. -/
theorem C103_last_violated : ∃ t, openTwiss four "d" "a" ⟨"a", ⟨10, 0, 0, 0⟩⟩ = some t
    ∧ t.map (fun r => (r.name, r.val.opt)) = [("d", 10), ("a", 10), ("_end_point", 11)] := by
  have h1 : base four 0 0 ⟨"a", ⟨10, 0, 0, 0⟩⟩ = some [⟨"a", ⟨10, 0, 0, 0⟩⟩,
      ⟨"_end_point", ⟨11, 0, 1, 1⟩⟩] := by
    simp [base, Lat.name, Lat.n, Lat.walk, Lat.next, Lat.sLoc, alignTo, Row.shift]
  have h2 : base four 3 3 ⟨"d", ⟨10, 0, 0, 0⟩⟩ = some [⟨"d", ⟨10, 0, 0, 3⟩⟩,
      ⟨"_end_point", ⟨11, 0, 1, 4⟩⟩] := by
    simp [base, Lat.name, Lat.n, Lat.walk, Lat.next, Lat.sLoc, alignTo, Row.shift, List.range_succ]
    norm_num
  have hn : four.n - 1 = 3 := rfl
  have hm : four.name 0 = "a" := rfl
  have hm3 : four.name 3 = "d" := rfl
  have h : ∃ t, wrapped four 3 0 0 ⟨"a", ⟨10, 0, 0, 0⟩⟩ = some t
      ∧ t.map (fun r => (r.name, r.val.opt)) = [("d", 10), ("a", 10), ("_end_point", 11)] := by
    simp [wrapped, hn, hm, hm3, h1, h2, concat, keep, shiftTo, rowOf, initAt, Row.shift]
  exact h

/-- **C104, violation.**  One turn from the first element of the line, periodic or open: exception. -/
theorem C104_first_violated {L : Lat Opt} (hw : WellFormed L) (hn : 1 < L.n) :
    (∀ full, PeriodicTable L full → customStart full (L.name 0) = none)
    ∧ (∀ init : Init Opt, init.elem = L.name 0 → openTurn L (L.name 0) init = none) := by
  have key : ∀ (v : Val Opt) (h : Row Opt), h.name = L.name 0 ∨ h.name = "_end_point" →
      concat (L.walk 0 L.n v) [h] = none := by
    intro v h hh
    have hmem : h.name ∈ (L.walk 0 L.n v).map (·.name) := by
      rw [walk_names]
      rcases hh with hh | hh
      · rw [hh]
        simp only [List.mem_append, List.mem_map, List.mem_range]
        exact Or.inl ⟨0, by omega, rfl⟩
      · rw [hh]; simp
    have hlast : (L.walk 0 L.n v)[L.n - 1]? = some ⟨L.name (0 + (L.n - 1)), vals L 0 v (L.n - 1)⟩ :=
      walk_get L v (by omega)
    have hne : L.name (0 + (L.n - 1)) ≠ h.name := by
      rcases hh with hh | hh
      · rw [hh, Nat.zero_add]; exact (name_ne hw (by omega) (by omega)).symm
      · rw [hh]; exact name_noend hw (by omega) _
    have hk : keep (L.walk 0 L.n v) [h] = none := by
      simp only [keep, walk_last, Option.map_some, walk_length, List.head?_cons]
      rw [if_pos hmem]
      simp only [if_true, Nat.add_sub_cancel, hlast, Option.map_some, Option.some.injEq]
      rw [if_neg hne]
    simp [concat, hk]
  constructor
  · intro full hf
    obtain ⟨v, hs, -⟩ := hf
    obtain ⟨hfull, -⟩ := shows_eq hs
    subst hfull
    have h1 := rowsFrom_walk L (v 0) (show 0 < L.n by omega) (k := 0) (by intro i hi; omega)
    have h2 := rowsTo_walk L (v 0) (show 0 < L.n by omega) (k := 0) (by intro i hi; omega)
    simp only [Nat.add_zero, Nat.sub_zero, vals] at h1 h2
    rw [customStart, h1, h2]
    have h3 : rows L 0 (v 0) (0 + 1) = [⟨L.name 0, v 0⟩] := rfl
    rw [h3, key _ _ (Or.inl rfl)]; rfl
  · intro init he
    have hend : ∀ (v : Val Opt), rowOf (L.walk 0 L.n v) "_end_point"
        = some ⟨"_end_point", vals L 0 v L.n⟩ :=
      fun v => rowOf_end L v (fun j _ => name_noend hw (by omega) _)
    simp only [openTurn, idx_name hw (show 0 < L.n by omega)]
    rw [base_forward L init (Nat.zero_le _) he, Nat.sub_zero, show L.n - 1 + 1 = L.n by omega]
    simp only [Option.bind_some, initAt, hend, Option.map_some]
    rw [base_forward L _ le_rfl rfl]
    simp only [Option.bind_some, Nat.sub_zero, Nat.zero_add]
    have h3 : ∀ v : Val Opt, renameLast (L.walk 0 1 v).dropLast "_end_point"
        = [⟨"_end_point", v⟩] := fun v => rfl
    rw [h3, key _ _ (Or.inr rfl)]

/-- **C104, violation.**  With a `start`, the column `muzeta` of the periodic twiss jumps back at the end of
the line by the advance of a turn; it is not zero at the start. -/
theorem C104_muzeta_violated {L : Lat Opt} (hw : WellFormed L) {a : ℕ} (h0 : 0 < a) (ha : a < L.n)
    {v : Val Opt} (hp : (vals L 0 v L.n).opt = v.opt) (hv : v.muz = 0) :
    ∃ t, customStart (L.walk 0 L.n v) (L.name a) = some t
      ∧ (t.head?).map (fun r => r.val.muz) = some (vals L 0 v a).muz
      ∧ (t[L.n - a]?).map (fun r => r.val.muz) = some 0 := by
  rw [customStart_eq hw h0 ha v hp]
  set x : Val Opt := ⟨(vals L 0 v a).opt, 0, (vals L 0 v a).muz, 0⟩ with hx
  refine ⟨_, rfl, ?_, ?_⟩
  · obtain ⟨k, hk⟩ : ∃ q, L.n - a = q + 1 := ⟨L.n - a - 1, by omega⟩
    rw [hk, rows_succ]; simp [hx]
  · rw [List.getElem?_append_right (by simp)]
    simp only [rows_length, Nat.sub_self]
    rw [walk_get L _ h0]
    simp only [vals, Option.map_some, Option.some.injEq]
    have e : x = (vals L 0 v a).sh (-(vals L 0 v a).mu) 0 (-(vals L 0 v a).s) := by
      simp [hx, Val.sh]
    have hadd : vals L a (vals L 0 v a) (L.n - a) = vals L 0 v L.n := by
      have := vals_add L 0 v a (L.n - a)
      rwa [Nat.zero_add, show a + (L.n - a) = L.n by omega] at this
    rw [e, vals_sh, hadd]
    simp [Val.sh, hv]

/-- **C104, violation.**  The phases given with the optics are ignored by the open twiss over a
turn. -/
theorem C104_phase_violated {L : Lat Opt} (hw : WellFormed L) {a : ℕ} (h0 : 0 < a) (ha : a < L.n)
    (init : Init Opt) (he : init.elem = L.name a) (hm : init.val.mu ≠ 0) :
    ∃ t r, openTurn L (L.name a) init = some t ∧ t.head? = some r ∧ r.name = L.name a
      ∧ r.val.mu ≠ init.val.mu := by
  obtain ⟨t, v, h1, h2, -, -, h5, -⟩ := C104_open_partial hw h0 ha init he
  obtain ⟨h6, -⟩ := shows_eq h2
  refine ⟨t, ⟨L.name a, v 0⟩, h1, ?_, rfl, ?_⟩
  · rw [h6, walk_head]
    have : L.n ≠ 0 := by omega
    simp [this]
  · rw [h5]; exact hm.symm

/-- Hypotheses of the theorems are met, with a marker in the middle. -/
example : ∃ (L : Lat ℤ) (t : List (Row ℤ)), WellFormed L ∧ 1 < L.n ∧
    openTwiss L "b" "a" ⟨"c", ⟨10, 0, 0, L.sLoc 2⟩⟩ = some t := by
  let L : Lat ℤ :=
    { names := ["a", "b", "c", "d"]
      step := fun k => if k = 2 then Equiv.refl ℤ else Equiv.addRight 1
      adv := fun k _ => if k = 2 then 0 else 3
      advz := fun k _ => if k = 2 then 0 else 1
      len := fun k => if k = 2 then 0 else 1
      marker := fun k => k == 2 }
  have hw : WellFormed L := by
    refine ⟨by decide, by decide, ?_⟩
    intro k hk
    have : k = 2 := by simpa [L] using hk
    subst this
    simp [L]
  obtain ⟨t, v, h, -, -⟩ := C103_range_partial hw (a := 1) (b := 0) (i := 2) (by decide) (by decide) (by decide)
    (by decide) ⟨"c", ⟨10, 0, 0, L.sLoc 2⟩⟩ rfl rfl (Or.inr rfl) (by intro h; omega)
  exact ⟨L, t, hw, by decide, h⟩

end Verif.Ranges
