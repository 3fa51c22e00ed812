import Verif.Ranges.Model
import Mathlib.Tactic.Ring
import Mathlib.Tactic.Linarith
import Mathlib.Data.List.Nodup
import Mathlib.Data.List.Range

/-! Lemmas on rows, on `concat` and on `shiftTo`. -/

namespace Verif.Ranges

variable {Opt : Type}

theorem Val.ext' {a b : Val Opt} (h1 : a.opt = b.opt) (h2 : a.mu = b.mu) (h3 : a.muz = b.muz)
    (h4 : a.s = b.s) : a = b := by
  cases a; cases b; simp_all

/-- Values at the `i`-th place from position `k` on. -/
def vals (L : Lat Opt) (k : ℕ) (v : Val Opt) : ℕ → Val Opt
  | 0 => v
  | i + 1 => L.next (k + i) (vals L k v i)

/-- Shifted values. -/
def Val.sh (v : Val Opt) (a b c : ℝ) : Val Opt := ⟨v.opt, v.mu + a, v.muz + b, v.s + c⟩

theorem next_sh (L : Lat Opt) (k : ℕ) (v : Val Opt) (a b c : ℝ) :
    L.next k (v.sh a b c) = (L.next k v).sh a b c := by
  apply Val.ext' <;> simp [Lat.next, Val.sh] <;> ring

theorem vals_sh (L : Lat Opt) (k : ℕ) (v : Val Opt) (a b c : ℝ) (i : ℕ) :
    vals L k (v.sh a b c) i = (vals L k v i).sh a b c := by
  induction i with
  | zero => rfl
  | succ i ih => simp only [vals, ih, next_sh]

theorem vals_next (L : Lat Opt) (k : ℕ) (v : Val Opt) (i : ℕ) :
    vals L (k + 1) (L.next k v) i = vals L k v (i + 1) := by
  induction i with
  | zero => rfl
  | succ i ih =>
    show L.next (k + 1 + i) (vals L (k + 1) (L.next k v) i) = L.next (k + (i + 1)) (vals L k v (i + 1))
    rw [ih]; congr 1; omega

theorem vals_add (L : Lat Opt) (k : ℕ) (v : Val Opt) (i j : ℕ) :
    vals L (k + i) (vals L k v i) j = vals L k v (i + j) := by
  induction j with
  | zero => rfl
  | succ j ih =>
    show L.next (k + i + j) (vals L (k + i) (vals L k v i) j) = L.next (k + (i + j)) (vals L k v (i + j))
    rw [ih, Nat.add_assoc]

theorem next_congr (L : Lat Opt) {k k' : ℕ} (h : k % L.n = k' % L.n) : L.next k = L.next k' := by
  funext v; simp only [Lat.next, h]

theorem vals_congr (L : Lat Opt) {k k' : ℕ} (h : k % L.n = k' % L.n) (v : Val Opt) (i : ℕ) :
    vals L k v i = vals L k' v i := by
  induction i with
  | zero => rfl
  | succ i ih =>
    simp only [vals, ih]
    rw [next_congr L (k := k + i) (k' := k' + i) (by rw [Nat.add_mod, h, ← Nat.add_mod])]

theorem name_congr (L : Lat Opt) {k k' : ℕ} (h : k % L.n = k' % L.n) : L.name k = L.name k' := by
  simp only [Lat.name, h]

theorem walk_congr (L : Lat Opt) (m : ℕ) : ∀ {k k' : ℕ}, k % L.n = k' % L.n → ∀ v,
    L.walk k m v = L.walk k' m v := by
  induction m with
  | zero => intros; rfl
  | succ m ih =>
    intro k k' h v
    simp only [Lat.walk]
    rw [name_congr L h, next_congr L h, ih (k := k + 1) (k' := k' + 1)]
    rw [Nat.add_mod, h, ← Nat.add_mod]

/-- Rows without the end point. -/
def rows (L : Lat Opt) (k : ℕ) (v : Val Opt) (m : ℕ) : List (Row Opt) :=
  (List.range m).map fun i => ⟨L.name (k + i), vals L k v i⟩

theorem rows_succ (L : Lat Opt) (k : ℕ) (v : Val Opt) (m : ℕ) :
    rows L k v (m + 1) = ⟨L.name k, v⟩ :: rows L (k + 1) (L.next k v) m := by
  simp only [rows, List.range_succ_eq_map, List.map_cons, List.map_map]
  congr 1
  apply List.map_congr_left
  intro i _
  simp only [Function.comp, vals_next, Nat.succ_eq_add_one]
  rw [show k + (i + 1) = k + 1 + i by omega]

theorem walk_eq (L : Lat Opt) (m : ℕ) : ∀ (k : ℕ) (v : Val Opt),
    L.walk k m v = rows L k v m ++ [⟨"_end_point", vals L k v m⟩] := by
  induction m with
  | zero => intros; rfl
  | succ m ih =>
    intro k v
    rw [rows_succ, Lat.walk, ih, vals_next]; rfl

@[simp] theorem rows_length (L : Lat Opt) (k : ℕ) (v : Val Opt) (m : ℕ) :
    (rows L k v m).length = m := by simp [rows]

theorem rows_add (L : Lat Opt) (k : ℕ) (v : Val Opt) (m1 m2 : ℕ) :
    rows L k v (m1 + m2) = rows L k v m1 ++ rows L (k + m1) (vals L k v m1) m2 := by
  simp only [rows, List.range_add, List.map_append, List.map_map]
  congr 1
  apply List.map_congr_left
  intro i _
  simp only [Function.comp, vals_add]
  rw [Nat.add_assoc]

theorem walk_add (L : Lat Opt) (k : ℕ) (v : Val Opt) (m1 m2 : ℕ) :
    L.walk k (m1 + m2) v = rows L k v m1 ++ L.walk (k + m1) m2 (vals L k v m1) := by
  rw [walk_eq, walk_eq, rows_add, vals_add, List.append_assoc]

theorem walk_shift (L : Lat Opt) (m : ℕ) (a b c : ℝ) : ∀ (k : ℕ) (v : Val Opt),
    (L.walk k m v).map (fun x => x.shift a b c) = L.walk k m (v.sh a b c) := by
  induction m with
  | zero => intros; rfl
  | succ m ih =>
    intro k v
    simp only [Lat.walk, List.map_cons, next_sh, ih]; rfl

theorem rows_shift (L : Lat Opt) (m : ℕ) (a b c : ℝ) (k : ℕ) (v : Val Opt) :
    (rows L k v m).map (fun x => x.shift a b c) = rows L k (v.sh a b c) m := by
  simp only [rows, List.map_map]
  apply List.map_congr_left
  intro i _
  simp only [Function.comp, vals_sh]; rfl

theorem walk_head (L : Lat Opt) (k m : ℕ) (v : Val Opt) :
    (L.walk k m v).head? = some ⟨if m = 0 then "_end_point" else L.name k, v⟩ := by
  cases m <;> simp [Lat.walk]

theorem walk_last (L : Lat Opt) (k m : ℕ) (v : Val Opt) :
    (L.walk k m v).getLast? = some ⟨"_end_point", vals L k v m⟩ := by
  rw [walk_eq]; simp

theorem walk_length (L : Lat Opt) (k m : ℕ) (v : Val Opt) : (L.walk k m v).length = m + 1 := by
  rw [walk_eq]; simp

theorem walk_names (L : Lat Opt) (k m : ℕ) (v : Val Opt) :
    (L.walk k m v).map (·.name) = (List.range m).map (fun i => L.name (k + i)) ++ ["_end_point"] := by
  rw [walk_eq]; simp [rows]

theorem walk_get (L : Lat Opt) {k m : ℕ} (v : Val Opt) {i : ℕ} (h : i < m) :
    (L.walk k m v)[i]? = some ⟨L.name (k + i), vals L k v i⟩ := by
  rw [walk_eq, List.getElem?_append_left (by simpa using h)]
  simp [rows, h]

/-- Two tables without a common row. -/
theorem concat_disjoint (L : Lat Opt) {k k' m1 m2 : ℕ} (v v' : Val Opt) (h1 : 0 < m1) (h2 : 0 < m2)
    (hk : k' % L.n = (k + m1) % L.n) (hd : ∀ i < m1, L.name (k + i) ≠ L.name k')
    (he : L.name k' ≠ "_end_point") (ho : v'.opt = (vals L k v m1).opt)
    (hz : v'.muz = (vals L k v m1).muz) :
    concat (L.walk k m1 v) (L.walk k' m2 v') = some (L.walk k (m1 + m2) ⟨v.opt, 0, v.muz, 0⟩) := by
  obtain ⟨m1, rfl⟩ : ∃ q, m1 = q + 1 := ⟨m1 - 1, by omega⟩
  have hh : (L.walk k' m2 v').head? = some ⟨L.name k', v'⟩ := by
    rw [walk_head]; simp [Nat.pos_iff_ne_zero.mp h2]
  have hmem : ¬ L.name k' ∈ (L.walk k (m1 + 1) v).map (·.name) := by
    rw [walk_names]
    simp only [List.mem_append, List.mem_map, List.mem_range, List.mem_singleton, not_or, not_exists,
      not_and]
    exact ⟨fun i hi => hd i hi, he⟩
  have hkeep : keep (L.walk k (m1 + 1) v) (L.walk k' m2 v') = some (m1 + 1) := by
    simp only [keep, hh, walk_last, Option.map_some, walk_length]
    rw [if_neg hmem]; simp
  have hf : (L.walk k (m1 + 1) v).head? = some ⟨L.name k, v⟩ := by rw [walk_head]; simp
  simp only [concat, hkeep, hf, walk_last, hh, walk_get L v (Nat.lt_succ_self m1)]
  congr 1
  rw [walk_add L k ⟨v.opt, 0, v.muz, 0⟩ (m1 + 1) m2, walk_eq L (m1 + 1) k v, List.take_append_of_le_length (by simp), List.take_of_length_le (by simp),
    rows_shift, walk_shift]
  have e : v.sh (-v.mu) 0 (-v.s) = ⟨v.opt, 0, v.muz, 0⟩ := by
    simp [Val.sh]
  rw [e]
  congr 1
  rw [walk_congr L m2 hk]
  congr 1
  rw [← e, vals_sh]
  apply Val.ext'
  · exact ho
  · simp only [Val.sh]; ring
  · simp only [Val.sh]; rw [hz]
  · simp only [Val.sh]; ring

/-- Two tables which share the last element of the first one, which is thin. -/
theorem concat_overlap (L : Lat Opt) {k m1 m2 : ℕ} (v v' : Val Opt) (h1 : 0 < m1) (h2 : 0 < m2)
    (he : L.name (k + m1) ≠ "_end_point") (ho : v'.opt = (vals L k v m1).opt)
    (hz : v'.muz = (vals L k v m1).muz) (ht : vals L k v (m1 + 1) = vals L k v m1) :
    concat (L.walk k (m1 + 1) v) (L.walk (k + m1) m2 v')
      = some (L.walk k (m1 + m2) ⟨v.opt, 0, v.muz, 0⟩) := by
  obtain ⟨m1, rfl⟩ : ∃ q, m1 = q + 1 := ⟨m1 - 1, by omega⟩
  have hh : (L.walk (k + (m1 + 1)) m2 v').head? = some ⟨L.name (k + (m1 + 1)), v'⟩ := by
    rw [walk_head]; simp [Nat.pos_iff_ne_zero.mp h2]
  have hmem : L.name (k + (m1 + 1)) ∈ (L.walk k (m1 + 1 + 1) v).map (·.name) := by
    rw [walk_names]
    simp only [List.mem_append, List.mem_map, List.mem_range, List.mem_singleton]
    exact Or.inl ⟨m1 + 1, by omega, rfl⟩
  have hkeep : keep (L.walk k (m1 + 1 + 1) v) (L.walk (k + (m1 + 1)) m2 v') = some (m1 + 1) := by
    simp only [keep, hh, walk_last, Option.map_some, if_true, walk_length]
    rw [if_pos hmem]
    simp only [Nat.add_sub_cancel]
    rw [walk_get L v (Nat.lt_succ_self (m1 + 1))]
    simp
  have hf : (L.walk k (m1 + 1 + 1) v).head? = some ⟨L.name k, v⟩ := by rw [walk_head]; simp
  have hg : (L.walk k (m1 + 1 + 1) v)[m1]? = some ⟨L.name (k + m1), vals L k v m1⟩ :=
    walk_get L v (by omega)
  simp only [concat, hkeep, hf, walk_last, hh, hg]
  congr 1
  rw [walk_add L k ⟨v.opt, 0, v.muz, 0⟩ (m1 + 1) m2, walk_add L k v (m1 + 1) 1, List.take_append_of_le_length (by simp),
    List.take_of_length_le (by simp), rows_shift, walk_shift]
  have e : v.sh (-v.mu) 0 (-v.s) = ⟨v.opt, 0, v.muz, 0⟩ := by
    simp [Val.sh]
  rw [e]
  congr 1
  congr 1
  rw [← e, vals_sh]
  rw [ht]
  apply Val.ext'
  · exact ho
  · simp only [Val.sh]; ring
  · simp only [Val.sh]; rw [hz]
  · simp only [Val.sh]; ring

/-- When the first table has only the common row, the second one remains, shifted. -/
theorem concat_single (L : Lat Opt) {k m2 : ℕ} (v v' : Val Opt) (h2 : 0 < m2) :
    ∃ a c, concat (L.walk k 1 v) (L.walk k m2 v') = some (L.walk k m2 (v'.sh a 0 c)) := by
  have hh : (L.walk k m2 v').head? = some ⟨L.name k, v'⟩ := by
    rw [walk_head]; simp [Nat.pos_iff_ne_zero.mp h2]
  have hkeep : keep (L.walk k 1 v) (L.walk k m2 v') = some 0 := by
    simp [keep, hh, Lat.walk]
  refine ⟨-v'.mu + ((vals L k v' m2).mu - v'.mu), -v'.s + ((vals L k v' m2).s - v'.s), ?_⟩
  simp only [concat, hkeep, walk_head, walk_last]
  rw [walk_shift]

/-- First row of the `j`-th element. -/
theorem rowOf_walk (L : Lat Opt) {k m j : ℕ} (v : Val Opt) (hj : j < m)
    (hd : ∀ i < j, L.name (k + i) ≠ L.name (k + j)) :
    rowOf (L.walk k m v) (L.name (k + j)) = some ⟨L.name (k + j), vals L k v j⟩ := by
  induction j generalizing k m v with
  | zero =>
    obtain ⟨m, rfl⟩ : ∃ q, m = q + 1 := ⟨m - 1, by omega⟩
    simp [rowOf, Lat.walk, vals]
  | succ j ih =>
    obtain ⟨m, rfl⟩ : ∃ q, m = q + 1 := ⟨m - 1, by omega⟩
    have h0 := hd 0 (by omega)
    have hs : (k + 1) + j = k + (j + 1) := by omega
    have := ih (k := k + 1) (m := m) (L.next k v) (by omega) (fun i hi => by
      have := hd (i + 1) (by omega)
      rw [show k + 1 + i = k + (i + 1) by omega, hs]; exact this)
    rw [hs, vals_next] at this
    simp only [rowOf, Lat.walk, List.find?_cons]
    have hb : ((L.name k) == L.name (k + (j + 1))) = false := by simpa using h0
    simp only [hb]
    exact this

theorem rowOf_end (L : Lat Opt) {k m : ℕ} (v : Val Opt)
    (hd : ∀ i < m, L.name (k + i) ≠ "_end_point") :
    rowOf (L.walk k m v) "_end_point" = some ⟨"_end_point", vals L k v m⟩ := by
  induction m generalizing k v with
  | zero => simp [rowOf, Lat.walk, vals]
  | succ m ih =>
    have h0 := hd 0 (by omega)
    have := ih (k := k + 1) (L.next k v) (fun i hi => by
      rw [show k + 1 + i = k + (i + 1) by omega]; exact hd (i + 1) (by omega))
    rw [vals_next] at this
    simp only [rowOf, Lat.walk, List.find?_cons]
    have hb : ((L.name k) == "_end_point") = false := by simpa using h0
    simp only [hb]
    exact this

/-- After `shiftTo` the values at the element of the init are those of the init. -/
theorem shiftTo_walk (L : Lat Opt) {k m j : ℕ} (w : Val Opt) (init : Init Opt) (hj : j < m)
    (hd : ∀ i < j, L.name (k + i) ≠ L.name (k + j)) (hn : init.elem = L.name (k + j))
    (ho : (vals L k w j).opt = init.val.opt) :
    ∃ w', shiftTo (L.walk k m w) init = some (L.walk k m w') ∧ vals L k w' j = init.val
      ∧ w'.opt = w.opt := by
  refine ⟨w.sh (init.val.mu - (vals L k w j).mu) (init.val.muz - (vals L k w j).muz)
    (init.val.s - (vals L k w j).s), ?_, ?_, rfl⟩
  · simp only [shiftTo, hn, rowOf_walk L w hj hd, Option.map_some]
    rw [walk_shift]
  · rw [vals_sh]
    apply Val.ext'
    · exact ho
    all_goals simp [Val.sh]

/-! ### Tables over a range with the optics at one of its ends -/

theorem back_opt (L : Lat Opt) (m : ℕ) : ∀ (k : ℕ) (o : Opt) (a b c : ℝ),
    (vals L k ⟨L.back k m o, a, b, c⟩ m).opt = o := by
  induction m with
  | zero => intros; rfl
  | succ m ih =>
    intro k o a b c
    rw [← vals_next]
    have : L.next k ⟨L.back k (m + 1) o, a, b, c⟩
        = ⟨L.back (k + 1) m o, (L.next k ⟨L.back k (m + 1) o, a, b, c⟩).mu,
          (L.next k ⟨L.back k (m + 1) o, a, b, c⟩).muz,
          (L.next k ⟨L.back k (m + 1) o, a, b, c⟩).s⟩ := by
      apply Val.ext' <;> simp [Lat.next, Lat.back]
    rw [this, ih]

theorem sLoc_succ (L : Lat Opt) (k : ℕ) : L.sLoc (k + 1) = L.sLoc k + L.len k := by
  simp [Lat.sLoc, List.range_succ]

theorem vals_s (L : Lat Opt) (k : ℕ) (v : Val Opt) (m : ℕ) (h : k + m ≤ L.n) :
    (vals L k v m).s = v.s + (L.sLoc (k + m) - L.sLoc k) := by
  induction m with
  | zero => simp [vals]
  | succ m ih =>
    have hl : (k + m) % L.n = k + m := Nat.mod_eq_of_lt (by omega)
    simp only [vals, Lat.next]
    rw [ih (by omega), hl, show k + (m + 1) = k + m + 1 by omega, sLoc_succ]; ring

theorem base_forward (L : Lat Opt) {a b : ℕ} (init : Init Opt) (hab : a ≤ b)
    (h : init.elem = L.name a) :
    base L a b init
      = some (L.walk a (b + 1 - a) ⟨init.val.opt, init.val.mu, init.val.muz, L.sLoc a⟩) := by
  have hm : b + 1 - a ≠ 0 := by omega
  simp only [base, if_pos hab, if_pos h, walk_head, hm, if_false, alignTo, walk_shift]
  simp [Val.sh]

theorem base_backward (L : Lat Opt) {a b : ℕ} (init : Init Opt) (hab : a ≤ b) (hb : b < L.n)
    (ha : init.elem ≠ L.name a) (h : init.elem = L.name b) :
    ∃ w, base L a b init = some (L.walk a (b + 1 - a) w)
      ∧ vals L a w (b + 1 - a) = ⟨init.val.opt, init.val.mu, init.val.muz, L.sLoc b⟩ := by
  simp only [base, if_pos hab, if_neg ha, if_pos h, walk_last, alignTo, walk_shift]
  refine ⟨_, rfl, ?_⟩
  rw [vals_sh]
  apply Val.ext'
  · exact back_opt L _ a _ _ _ _
  · simp [Val.sh]
  · simp [Val.sh]
  · simp only [Val.sh]
    rw [vals_s L _ _ _ (by omega)]
    rw [show a + (b + 1 - a) = b + 1 by omega]; ring

end Verif.Ranges
