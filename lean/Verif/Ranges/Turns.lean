import Verif.Ranges.Props

/-!
# One turn from an arbitrary start (C104)
-/

namespace Verif.Ranges

variable {Opt : Type}

theorem shows_eq {L : Lat Opt} {t : List (Row Opt)} {a m : ℕ} {v : ℕ → Val Opt} (h : Shows L t a m v) :
    t = L.walk a m (v 0) ∧ ∀ i ≤ m, v i = vals L a (v 0) i := by
  have h2 : ∀ i ≤ m, v i = vals L a (v 0) i := by
    intro i
    induction i with
    | zero => intro _; rfl
    | succ i ih => intro hi; rw [h.2 i (by omega), ih (by omega)]; rfl
  refine ⟨?_, h2⟩
  rw [h.1, walk_eq, h2 m le_rfl]
  congr 1
  apply List.map_congr_left
  intro i hi
  rw [h2 i (List.mem_range.mp hi).le]

/-- `concat_disjoint` without a condition on `muzeta`. -/
theorem concat_disjoint' (L : Lat Opt) {k k' m1 m2 : ℕ} (v v' : Val Opt) (h1 : 0 < m1) (h2 : 0 < m2)
    (hk : k' % L.n = (k + m1) % L.n) (hd : ∀ i < m1, L.name (k + i) ≠ L.name k')
    (he : L.name k' ≠ "_end_point") (ho : v'.opt = (vals L k v m1).opt) :
    concat (L.walk k m1 v) (L.walk k' m2 v') = some (rows L k ⟨v.opt, 0, v.muz, 0⟩ m1
      ++ L.walk (k + m1) m2 ((vals L k ⟨v.opt, 0, v.muz, 0⟩ m1).sh 0
        (v'.muz - (vals L k v m1).muz) 0)) := by
  have hc := concat_disjoint L (k := k) (m2 := m2) v ⟨v'.opt, v'.mu, (vals L k v m1).muz, v'.s⟩ h1 h2 hk hd he
    ho rfl
  have e1 : v' = (⟨v'.opt, v'.mu, (vals L k v m1).muz, v'.s⟩ : Val Opt).sh 0
      (v'.muz - (vals L k v m1).muz) 0 := by
    apply Val.ext' <;> simp [Val.sh]
  -- shifting `muzeta` of the second table shifts it in the result
  obtain ⟨m1, rfl⟩ : ∃ q, m1 = q + 1 := ⟨m1 - 1, by omega⟩
  have hh : ∀ v' : Val Opt, (L.walk k' m2 v').head? = some ⟨L.name k', v'⟩ := by
    intro v'; rw [walk_head]; simp [Nat.pos_iff_ne_zero.mp h2]
  have hmem : ¬ L.name k' ∈ (L.walk k (m1 + 1) v).map (·.name) := by
    rw [walk_names]
    simp only [List.mem_append, List.mem_map, List.mem_range, List.mem_singleton, not_or, not_exists,
      not_and]
    exact ⟨fun i hi => hd i hi, he⟩
  have hkeep : ∀ v', keep (L.walk k (m1 + 1) v) (L.walk k' m2 v') = some (m1 + 1) := by
    intro v'
    simp only [keep, hh, walk_last, Option.map_some, walk_length]
    rw [if_neg hmem]; simp
  have hf : (L.walk k (m1 + 1) v).head? = some ⟨L.name k, v⟩ := by rw [walk_head]; simp
  simp only [concat, hkeep, hf, walk_last, hh, walk_get L v (Nat.lt_succ_self m1), walk_shift] at hc ⊢
  rw [walk_add L k ⟨v.opt, 0, v.muz, 0⟩ (m1 + 1) m2] at hc
  have hc' := Option.some.inj hc
  have hlen : (List.map (fun x => Row.shift x (-v.mu) 0 (-v.s))
      (List.take (m1 + 1) (L.walk k (m1 + 1) v))).length
      = (rows L k ⟨v.opt, 0, v.muz, 0⟩ (m1 + 1)).length := by
    simp [walk_length]
  obtain ⟨g1, g2⟩ := List.append_inj hc' hlen
  congr 1
  rw [g1]
  congr 1
  rw [← walk_shift L m2 0 (v'.muz - (vals L k v (m1 + 1)).muz) 0 (k + (m1 + 1)), ← g2,
    walk_shift L m2 0]
  congr 1
  apply Val.ext' <;> simp [Val.sh]

/-- The last row gets another name. -/
theorem concat_rename (t1 : List (Row Opt)) (x y : Row Opt) (ys : List (Row Opt)) (e : String) :
    concat t1 (renameLast (x :: y :: ys) e)
      = (concat t1 (x :: y :: ys)).map fun t => renameLast t e := by
  obtain ⟨q, z, hq⟩ : ∃ q z, y :: ys = q ++ [z] :=
    ⟨(y :: ys).dropLast, (y :: ys).getLast (by simp), (List.dropLast_append_getLast (by simp)).symm⟩
  rw [hq]
  have e1 : renameLast (x :: (q ++ [z])) e = x :: (q ++ [⟨e, z.val⟩]) := by
    have : x :: (q ++ [z]) = (x :: q) ++ [z] := rfl
    rw [this, renameLast, List.dropLast_concat, List.getLast?_concat]; rfl
  have hren : ∀ (l : List (Row Opt)) (z : Row Opt), renameLast (l ++ [z]) e = l ++ [⟨e, z.val⟩] := by
    intro l z
    rw [renameLast, List.dropLast_concat, List.getLast?_concat]; rfl
  rw [e1]
  have hk : keep t1 (x :: (q ++ [⟨e, z.val⟩])) = keep t1 (x :: (q ++ [z])) := rfl
  have hl1 : (x :: (q ++ [z])).getLast? = some z := by
    rw [show x :: (q ++ [z]) = (x :: q) ++ [z] from rfl, List.getLast?_concat]
  have hl2 : (x :: (q ++ [⟨e, z.val⟩])).getLast? = some ⟨e, z.val⟩ := by
    rw [show x :: (q ++ [(⟨e, z.val⟩ : Row Opt)]) = (x :: q) ++ [⟨e, z.val⟩] from rfl,
      List.getLast?_concat]
  unfold concat
  rw [hk, hl1, hl2]
  simp only [List.head?_cons]
  generalize keep t1 (x :: (q ++ [z])) = k
  cases k with
  | none => rfl
  | some u =>
    cases t1.head? with
    | none => cases u <;> rfl
    | some f =>
      cases t1.getLast? with
      | none => cases u <;> rfl
      | some l =>
        cases u with
        | zero =>
          simp only [Option.map_some, Option.some.injEq]
          rw [show x :: (q ++ [z]) = (x :: q) ++ [z] from rfl, List.map_append, List.map_singleton,
            hren]
          simp [Row.shift]
        | succ u =>
          dsimp only
          cases t1[u]? with
          | none => rfl
          | some r =>
            simp only [Option.map_some, Option.some.injEq]
            rw [show x :: (q ++ [z]) = (x :: q) ++ [z] from rfl, List.map_append,
              List.map_singleton, ← List.append_assoc, hren]
            simp [Row.shift]

theorem rowsFrom_walk (L : Lat Opt) {a m : ℕ} (v : Val Opt) (ha : a < m) : ∀ {k : ℕ},
    (∀ i < a, L.name (k + i) ≠ L.name (k + a)) →
    rowsFrom (L.walk k m v) (L.name (k + a)) = L.walk (k + a) (m - a) (vals L k v a) := by
  induction a generalizing m v with
  | zero =>
    intro k _
    obtain ⟨m, rfl⟩ : ∃ q, m = q + 1 := ⟨m - 1, by omega⟩
    simp [rowsFrom, Lat.walk, vals]
  | succ a ih =>
    intro k hd
    obtain ⟨m, rfl⟩ : ∃ q, m = q + 1 := ⟨m - 1, by omega⟩
    have hs : k + 1 + a = k + (a + 1) := by omega
    have := ih (m := m) (L.next k v) (by omega) (k := k + 1) (fun i hi => by
      rw [hs, show k + 1 + i = k + (i + 1) by omega]; exact hd (i + 1) (by omega))
    rw [hs, vals_next] at this
    have hb : (L.name k != L.name (k + (a + 1))) = true := by
      simpa using hd 0 (by omega)
    simp only [rowsFrom, Lat.walk, List.dropWhile_cons, hb, if_true]
    rw [show m + 1 - (a + 1) = m - a by omega]
    exact this

theorem rowsTo_walk (L : Lat Opt) {a m : ℕ} (v : Val Opt) (ha : a < m) : ∀ {k : ℕ},
    (∀ i < a, L.name (k + i) ≠ L.name (k + a)) →
    rowsTo (L.walk k m v) (L.name (k + a)) = rows L k v (a + 1) := by
  induction a generalizing m v with
  | zero =>
    intro k _
    obtain ⟨m, rfl⟩ : ∃ q, m = q + 1 := ⟨m - 1, by omega⟩
    simp [rowsTo, Lat.walk, rows, vals]
  | succ a ih =>
    intro k hd
    obtain ⟨m, rfl⟩ : ∃ q, m = q + 1 := ⟨m - 1, by omega⟩
    have hs : k + 1 + a = k + (a + 1) := by omega
    have := ih (m := m) (L.next k v) (by omega) (k := k + 1) (fun i hi => by
      rw [hs, show k + 1 + i = k + (i + 1) by omega]; exact hd (i + 1) (by omega))
    rw [hs] at this
    have hb : (L.name k != L.name (k + (a + 1))) = true := by
      simpa using hd 0 (by omega)
    have hb' : (L.name k == L.name (k + (a + 1))) = false := by
      simpa using hd 0 (by omega)
    rw [rows_succ, ← this]
    simp only [rowsTo, Lat.walk, List.takeWhile_cons, hb, if_true, List.find?_cons, hb',
      List.cons_append]

/-- The rows up to the start, with the last one renamed, are a table over the elements before it. -/
theorem rename_rows (L : Lat Opt) (k a : ℕ) (v : Val Opt) :
    renameLast (rows L k v (a + 1)) "_end_point" = L.walk k a v := by
  rw [rows_add L k v a 1, walk_eq]
  simp [renameLast, rows, vals]

/-- The two parts of a periodic table, put together. -/
theorem customStart_eq {L : Lat Opt} (hw : WellFormed L) {a : ℕ} (h0 : 0 < a) (ha : a < L.n)
    (v : Val Opt) (hp : (vals L 0 v L.n).opt = v.opt) :
    customStart (L.walk 0 L.n v) (L.name a) = some
      (rows L a ⟨(vals L 0 v a).opt, 0, (vals L 0 v a).muz, 0⟩ (L.n - a)
        ++ L.walk (a + (L.n - a)) a ((vals L a ⟨(vals L 0 v a).opt, 0, (vals L 0 v a).muz, 0⟩ (L.n - a)).sh
          0 (v.muz - (vals L 0 v L.n).muz) 0)) := by
  have hd : ∀ i < a, L.name (0 + i) ≠ L.name (0 + a) := fun i hi => by
    simpa using name_ne hw hi (by omega)
  have hf : rowsFrom (L.walk 0 L.n v) (L.name a) = L.walk a (L.n - a) (vals L 0 v a) := by
    simpa using rowsFrom_walk L v ha hd
  have ht : rowsTo (L.walk 0 L.n v) (L.name a) = rows L 0 v (a + 1) := by
    simpa using rowsTo_walk L v ha hd
  have hadd : vals L a (vals L 0 v a) (L.n - a) = vals L 0 v L.n := by
    have := vals_add L 0 v a (L.n - a)
    rwa [Nat.zero_add, show a + (L.n - a) = L.n by omega] at this
  have hc := concat_disjoint' L (k := a) (k' := 0) (m1 := L.n - a) (m2 := a) (vals L 0 v a) v (by omega) h0
    (by rw [show a + (L.n - a) = L.n by omega]; simp) (fun i hi => by
      rw [name_congr L (k := 0) (k' := L.n) (by simp)]
      exact name_ne hw (by omega) (by omega)) (name_noend hw (by omega) 0) (by rw [hadd, hp])
  rw [hadd] at hc
  obtain ⟨a', rfl⟩ : ∃ q, a = q + 1 := ⟨a - 1, by omega⟩
  have h2 : rows L 0 v (a' + 1 + 1) = ⟨L.name 0, v⟩ :: ⟨L.name (0 + 1), L.next 0 v⟩ ::
      rows L (0 + 1 + 1) (L.next (0 + 1) (L.next 0 v)) a' := by rw [rows_succ, rows_succ]
  have hr := concat_rename (L.walk (a' + 1) (L.n - (a' + 1)) (vals L 0 v (a' + 1))) ⟨L.name 0, v⟩
    ⟨L.name (0 + 1), L.next 0 v⟩ (rows L (0 + 1 + 1) (L.next (0 + 1) (L.next 0 v)) a') "_end_point"
  rw [← h2, rename_rows, hc] at hr
  unfold customStart
  rw [hf, ht]
  cases h3 : concat (L.walk (a' + 1) (L.n - (a' + 1)) (vals L 0 v (a' + 1))) (rows L 0 v (a' + 1 + 1)) with
  | none => rw [h3] at hr; simp at hr
  | some t =>
    rw [h3] at hr
    simp only [Option.map_some, Option.some.injEq] at hr ⊢
    rw [hr]
    obtain ⟨k, hk⟩ : ∃ q, L.n - (a' + 1) = q + 1 := ⟨L.n - (a' + 1) - 1, by omega⟩
    -- the first row has zero phase
    have hlen : 2 ≤ (renameLast t "_end_point").length := by
      rw [← hr, List.length_append, rows_length, walk_length]; omega
    have hhead : (renameLast t "_end_point").head? = t.head? := by
      cases t with
      | nil => simp [renameLast] at hlen
      | cons x t =>
        cases t with
        | nil => simp [renameLast] at hlen
        | cons y t => simp [renameLast]
    have hfirst : t.head? = some ⟨L.name (a' + 1), ⟨(vals L 0 v (a' + 1)).opt, 0, (vals L 0 v (a' + 1)).muz, 0⟩⟩ := by
      rw [← hhead, ← hr, hk, rows_succ]; rfl
    rw [hfirst]
    dsimp only
    have hz : zeroAt t (L.name (a' + 1)) = t := by
      cases t with
      | nil => simp at hfirst
      | cons x t =>
        simp only [List.head?_cons, Option.some.injEq] at hfirst
        subst hfirst
        simp only [zeroAt, rowOf, List.find?_cons, BEq.rfl]
        conv_rhs => rw [← List.map_id ((⟨L.name (a' + 1), ⟨(vals L 0 v (a' + 1)).opt, 0, (vals L 0 v (a' + 1)).muz, 0⟩⟩ : Row Opt) :: t)]
        apply List.map_congr_left
        intro r _
        simp [Row.shift]
    rw [hz]

/-- **C104 (partial).**  The periodic twiss with a `start` is a table of one turn from there: the
elements in the order of the turn, with the optics of the periodic table, `mux`, `muy` and `s`
continuous and zero at the start.  Missing: the column `muzeta` (`C104_muzeta_violated`) and the start
at the first element (`C104_first_violated`). -/
theorem C104_start_partial {L : Lat Opt} (hw : WellFormed L) {a : ℕ} (h0 : 0 < a) (ha : a < L.n)
    {full : List (Row Opt)} (hf : PeriodicTable L full) :
    ∃ t v, customStart full (L.name a) = some t ∧ ShowsTransverse L t a L.n v
      ∧ (v 0).mu = 0 ∧ (v 0).s = 0
      ∧ (rowOf full (L.name a)).map (fun r => r.val.opt) = some (v 0).opt := by
  obtain ⟨v, hs, hp, -, -, -⟩ := hf
  obtain ⟨hfull, hv⟩ := shows_eq hs
  rw [hv L.n le_rfl] at hp
  subst hfull
  rw [customStart_eq hw h0 ha (v 0) hp]
  set x : Val Opt := ⟨(vals L 0 (v 0) a).opt, 0, (vals L 0 (v 0) a).muz, 0⟩
  set c := (v 0).muz - (vals L 0 (v 0) L.n).muz
  refine ⟨_, fun i => if i < L.n - a then vals L a x i else (vals L a x i).sh 0 c 0, rfl, ⟨?_, ?_⟩, ?_, ?_, ?_⟩
  · beta_reduce
    rw [walk_eq, ← vals_sh]
    have hn : ¬ L.n < L.n - a := by omega
    rw [if_neg hn]
    have e : L.n = L.n - a + a := by omega
    conv_rhs => rw [e]
    rw [List.range_add, List.map_append, List.append_assoc]
    congr 1
    · apply List.map_congr_left
      intro i hi
      have : i < L.n - a := List.mem_range.mp hi
      simp [this]
    · congr 1
      · simp only [rows, List.map_map]
        apply List.map_congr_left
        intro i _
        simp only [Function.comp]
        have : ¬ L.n - a + i < L.n - a := by omega
        rw [if_neg (by omega), ← Nat.add_assoc, vals_sh, vals_sh, vals_add]
      · rw [vals_add, ← e, vals_sh]
  · intro i hi
    have key : ∀ j, (if j < L.n - a then vals L a x j else (vals L a x j).sh 0 c 0).opt = (vals L a x j).opt
        ∧ (if j < L.n - a then vals L a x j else (vals L a x j).sh 0 c 0).mu = (vals L a x j).mu
        ∧ (if j < L.n - a then vals L a x j else (vals L a x j).sh 0 c 0).s = (vals L a x j).s := by
      intro j
      split_ifs
      · exact ⟨rfl, rfl, rfl⟩
      · simp [Val.sh]
    obtain ⟨k1, k2, k3⟩ := key i
    obtain ⟨l1, l2, l3⟩ := key (i + 1)
    simp only [Lat.next]
    simp only [k1, k2, k3, l1, l2, l3]
    exact ⟨rfl, rfl, rfl⟩
  · have : 0 < L.n - a := by omega
    simp [this, vals, x]
  · have : 0 < L.n - a := by omega
    simp [this, vals, x]
  · have hr := rowOf_walk L (k := 0) (j := a) (v 0) ha (fun i hi => by
      simpa using name_ne hw hi (by omega))
    rw [Nat.zero_add] at hr
    have : 0 < L.n - a := by omega
    simp [hr, this, vals, x]

/-- **C104 (partial).**  A twiss with a `start`, no `end` and the optics given at the start: table of
one turn from there, with the given optics and `muzeta`.  Missing: the given `mux`, `muy`
(`C104_phase_violated`) and the start at the first element (`C104_first_violated`). -/
theorem C104_open_partial {L : Lat Opt} (hw : WellFormed L) {a : ℕ} (h0 : 0 < a) (ha : a < L.n)
    (init : Init Opt) (he : init.elem = L.name a) :
    ∃ t v, openTurn L (L.name a) init = some t ∧ Shows L t a L.n v ∧ (v 0).opt = init.val.opt
      ∧ (v 0).muz = init.val.muz ∧ (v 0).mu = 0 ∧ (v 0).s = 0 := by
  have hn : 0 < L.n := by omega
  have hend : ∀ (v : Val Opt), rowOf (L.walk a (L.n - a) v) "_end_point"
      = some ⟨"_end_point", vals L a v (L.n - a)⟩ :=
    fun v => rowOf_end L v (fun j _ => name_noend hw hn _)
  simp only [openTurn, idx_name hw ha]
  rw [base_forward L init (show a ≤ L.n - 1 by omega) he, show L.n - 1 + 1 - a = L.n - a by omega]
  simp only [Option.bind_some, initAt, hend, Option.map_some]
  rw [base_forward L _ (Nat.zero_le a) rfl]
  simp only [Option.bind_some, Nat.sub_zero]
  have hdrop : ∀ v : Val Opt, (L.walk 0 (a + 1) v).dropLast = rows L 0 v (a + 1) := by
    intro v; rw [walk_eq, List.dropLast_concat]
  rw [hdrop, rename_rows]
  have hc := fun (v v' : Val Opt) => concat_disjoint L (k := a) (k' := 0) (m1 := L.n - a) (m2 := a) v v'
    (by omega) h0 (by rw [show a + (L.n - a) = L.n by omega]; simp) (fun i hi => by
      rw [name_congr L (k := 0) (k' := L.n) (by simp)]
      exact name_ne hw (by omega) (by omega)) (name_noend hw (by omega) 0)
  rw [hc]
  rotate_left
  · rfl
  · rfl
  rw [show L.n - a + a = L.n by omega]
  exact ⟨_, _, rfl, shows_walk L _ _ _, rfl, rfl, rfl, rfl⟩

end Verif.Ranges
