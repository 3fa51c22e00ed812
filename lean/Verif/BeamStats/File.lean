import Verif.BeamStats.Coasting

/-!
# C179: the output file of the beam statistics monitor

Model of `xtrack/monitors/beam_stats_monitor/hdf5.py` and of `start_new_frame`,
`_num_touched_records`.

Simplifications: what is stored for one record is one value of a type `α` (all the datasets of the
file grow by the same rows); the fallback of `_num_touched_records` for kernels which do not set
the flags is left out.
-/

namespace Verif.BeamStats

/-- The monitor and its file.  `row r` is what the statistics give for record `r` now. -/
structure Disk (α : Type*) where
  start : ℤ
  every : ℤ
  n : ℕ
  row : ℕ → α
  touched : ℕ → Bool
  file : List (ℤ × α)

variable {α : Type*}

/-- `monitor.turns[r]`: beam_stats_monitor.py:549-556. -/
def Disk.turn (d : Disk α) (r : ℕ) : ℤ := d.start + r * d.every

/-- `_num_touched_records`: one more than the last record with a flag:
beam_stats_monitor.py:1221-1227. -/
def Disk.stop (d : Disk α) : ℕ :=
  (((List.range d.n).filter (fun r => d.touched r)).map (fun r => r + 1)).getLastD 0

/-- `_get_local_start_index_from_hdf5`; `none` is the exception: hdf5.py:58-76. -/
def Disk.first (d : Disk α) : Option ℕ :=
  match d.file.getLast? with
  | none => some 0
  | some (last, _) =>
    if d.n = 0 then some 0 else
    match (List.range d.n).find? (fun r => d.turn r = last) with
    | some r => some (r + 1)
    | none => if last < d.turn 0 then some 0 else none

/-- `save_to_file`; an exception leaves the file as it is: hdf5.py:4-38. -/
def Disk.save (d : Disk α) : Disk α :=
  match d.first with
  | none => d
  | some a =>
    if d.stop ≤ a then d else
    { d with file := d.file ++ (List.range' a (d.stop - a)).map (fun r => (d.turn r, d.row r)) }

/-- A particle is added to record `r`: beam_stats_monitor.h:285-286. -/
def Disk.put (d : Disk α) (r : ℕ) (v : α) : Disk α :=
  if r < d.n then
    { d with row := fun k => if k = r then v else d.row k
             touched := fun k => if k = r then true else d.touched k }
  else d

/-- `start_new_frame`: beam_stats_monitor.py:1001-1017.  `empty` is what is reported for a record
without particles. -/
def Disk.frame (empty : α) (d : Disk α) (s : ℤ) : Disk α :=
  { d with start := s, row := fun _ => empty, touched := fun _ => false }

/-- What can happen to a monitor. -/
inductive Op (α : Type*)
  | put (r : ℕ) (v : α)
  | frame (s : ℤ)
  | save

/-- One event. -/
def Disk.step (empty : α) (d : Disk α) : Op α → Disk α
  | .put r v => d.put r v
  | .frame s => d.frame empty s
  | .save => d.save

/-- A history. -/
def Disk.run (empty : α) (d : Disk α) (ops : List (Op α)) : Disk α := ops.foldl (Disk.step empty) d

/-! ## Lemmas -/

theorem stop_le (d : Disk α) : d.stop ≤ d.n := by
  unfold Disk.stop
  rcases h : ((List.range d.n).filter (fun r => d.touched r)).map (fun r => r + 1) with _ | ⟨a, l⟩
  · simp
  · have hm : (a :: l).getLastD 0 ∈ a :: l := by
      rw [List.getLastD_cons]
      exact List.getLastD_mem_cons
    rw [← h] at hm ⊢
    obtain ⟨r, hr, e⟩ := List.mem_map.1 hm
    have := List.mem_range.1 (List.mem_filter.1 hr).1
    omega

theorem turn_lt (d : Disk α) (he : 0 < d.every) (r r' : ℕ) : d.turn r < d.turn r' ↔ r < r' := by
  unfold Disk.turn
  rw [add_lt_add_iff_left, mul_lt_mul_iff_left₀ he]
  exact_mod_cast Iff.rfl

/-- The first record to write comes after everything in the file. -/
theorem first_after (d : Disk α) (he : 0 < d.every) (a : ℕ) (h : d.first = some a) (last : ℤ) (v : α)
    (hl : d.file.getLast? = some (last, v)) (r : ℕ) (hr : a ≤ r) (hn : r < d.n) : last < d.turn r := by
  unfold Disk.first at h
  rw [hl] at h
  dsimp only at h
  rw [if_neg (by omega)] at h
  rcases hf : (List.range d.n).find? (fun r => decide (d.turn r = last)) with _ | k
  · rw [hf] at h
    dsimp only at h
    split at h
    · rename_i hlt
      have : d.turn 0 ≤ d.turn r := by
        rcases Nat.eq_zero_or_pos r with e | e
        · rw [e]
        · exact ((turn_lt d he 0 r).2 e).le
      omega
    · simp at h
  · rw [hf] at h
    have := List.find?_some hf
    simp only [decide_eq_true_eq] at this
    obtain rfl := Option.some.inj h
    rw [← this, turn_lt d he]
    omega

theorem rows_sorted (d : Disk α) (he : 0 < d.every) (a m : ℕ) :
    (((List.range' a m).map (fun r => (d.turn r, d.row r))).map Prod.fst).Pairwise (· < ·) := by
  rw [List.map_map, List.pairwise_map]
  refine (List.pairwise_lt_range' (s := a) (n := m)).imp ?_
  intro x y hxy
  exact (turn_lt d he x y).2 hxy

/-! ## C179 -/

/-- C179 (order): whatever is recorded, whatever frames are started and however often the file is
saved, the turns in the file are strictly increasing: no turn is written twice. -/
theorem C179_increasing (empty : α) (d : Disk α) (he : 0 < d.every)
    (h : (d.file.map Prod.fst).Pairwise (· < ·)) (ops : List (Op α)) :
    (((d.run empty ops).file).map Prod.fst).Pairwise (· < ·) := by
  suffices hs : ∀ d : Disk α, 0 < d.every → (d.file.map Prod.fst).Pairwise (· < ·) →
      0 < (d.run empty ops).every ∧ (((d.run empty ops).file).map Prod.fst).Pairwise (· < ·) from
    (hs d he h).2
  clear he h d
  induction ops with
  | nil => intro d he h; exact ⟨he, h⟩
  | cons op ops ih =>
    intro d he h
    have : 0 < (d.step empty op).every ∧ (((d.step empty op).file).map Prod.fst).Pairwise (· < ·) := by
      cases op with
      | put r v => unfold Disk.step Disk.put; dsimp only; split <;> exact ⟨he, h⟩
      | frame s => exact ⟨he, h⟩
      | save =>
        show 0 < d.save.every ∧ ((d.save.file).map Prod.fst).Pairwise (· < ·)
        unfold Disk.save
        split
        · exact ⟨he, h⟩
        · rename_i a ha
          split
          · exact ⟨he, h⟩
          · refine ⟨he, ?_⟩
            dsimp only
            rw [List.map_append, List.pairwise_append]
            refine ⟨h, rows_sorted d he _ _, ?_⟩
            intro x hx y hy
            rcases hl : d.file.getLast? with _ | ⟨last, v⟩
            · rw [List.getLast?_eq_none_iff] at hl
              rw [hl] at hx
              simp at hx
            · -- everything in the file is at most the last turn
              have hxl : x ≤ last := by
                obtain ⟨ys, e⟩ := List.getLast?_eq_some_iff.1 hl
                rw [e, List.map_append, List.pairwise_append] at h
                rw [e, List.map_append, List.mem_append] at hx
                rcases hx with hx | hx
                · exact (h.2.2 x hx last (by simp)).le
                · simp at hx; omega
              rw [List.map_map] at hy
              obtain ⟨r, hr, rfl⟩ := List.mem_map.1 hy
              have hr' := List.mem_range'_1.1 hr
              have := first_after d he a ha last v hl r hr'.1 (by have := stop_le d; omega)
              exact lt_of_le_of_lt hxl this
    exact ih _ this.1 this.2

theorem find_turn (d : Disk α) (he : 0 < d.every) (r : ℕ) (hr : r < d.n) :
    (List.range d.n).find? (fun k => decide (d.turn k = d.turn r)) = some r := by
  rcases h : (List.range d.n).find? (fun k => decide (d.turn k = d.turn r)) with _ | k
  · rw [List.find?_eq_none] at h
    exact absurd (by simp) (h r (List.mem_range.2 hr))
  · have := List.find?_some h
    simp only [decide_eq_true_eq] at this
    have : k = r := by
      rcases lt_trichotomy k r with q | q | q
      · have := (turn_lt d he k r).2 q; omega
      · exact q
      · have := (turn_lt d he r k).2 q; omega
    rw [this]

/-- C179 (again): saving again, with nothing recorded in between, changes nothing. -/
theorem C179_again (d : Disk α) (he : 0 < d.every) : d.save.save = d.save := by
  rcases hf : d.first with _ | a
  · have e : d.save = d := by unfold Disk.save; rw [hf]
    rw [e, e]
  · by_cases hs : d.stop ≤ a
    · have e : d.save = d := by unfold Disk.save; rw [hf]; simp [hs]
      rw [e, e]
    · have e : d.save = { d with file := d.file ++
          (List.range' a (d.stop - a)).map (fun r => (d.turn r, d.row r)) } := by unfold Disk.save; rw [hf]; simp [hs]
      rw [e]
      set d' : Disk α := { d with file := d.file ++
          (List.range' a (d.stop - a)).map (fun r => (d.turn r, d.row r)) } with hd'
      have hstop : d'.stop = d.stop := rfl
      have hlt : d.stop - 1 < d.n := by have := stop_le d; omega
      have hlast : d'.file.getLast? = some (d.turn (d.stop - 1), d.row (d.stop - 1)) := by
        have e1 : d.stop - a = (d.stop - a - 1) + 1 := by omega
        rw [hd']
        dsimp only
        rw [e1, List.range'_1_concat, List.map_append, ← List.append_assoc]
        have e2 : a + (d.stop - a - 1) = d.stop - 1 := by omega
        simp [e2]
      have hfirst : d'.first = some d.stop := by
        unfold Disk.first
        rw [hlast]
        dsimp only
        rw [if_neg (by show ¬ d.n = 0; omega)]
        have := find_turn d he (d.stop - 1) hlt
        have e3 : (List.range d'.n).find? (fun r => decide (d'.turn r = d.turn (d.stop - 1)))
            = some (d.stop - 1) := this
        rw [e3]
        show some (d.stop - 1 + 1) = some d.stop
        congr 1
        omega
      unfold Disk.save
      rw [hfirst]
      simp [hstop]

/-- C179 (what is written): each save appends, for consecutive records, the turn and what the
monitor reports for it at that moment, up to the last record with particles; nothing which is in
the file is changed. -/
theorem C179_appends (d : Disk α) : ∃ a m, d.save.file = d.file ++
    (List.range' a m).map (fun r : ℕ => (d.start + (r : ℤ) * d.every, d.row r)) ∧
    (∀ r, r < d.n → d.touched r = true → d.first = some a → a ≤ r → r < a + m) := by
  rcases hf : d.first with _ | a
  · refine ⟨0, 0, ?_, by simp⟩
    unfold Disk.save; rw [hf]; simp
  · have hin : ∀ r, r < d.n → d.touched r = true → r < d.stop := by
      intro r hr ht
      unfold Disk.stop
      have hs : ((List.range d.n).filter (fun r => d.touched r)).Pairwise (· < ·) :=
        (List.pairwise_lt_range).sublist List.filter_sublist
      have hm : r ∈ (List.range d.n).filter (fun r => d.touched r) :=
        List.mem_filter.2 ⟨List.mem_range.2 hr, ht⟩
      rcases List.eq_nil_or_concat ((List.range d.n).filter (fun r => d.touched r)) with e | ⟨l, b, e⟩
      · rw [e] at hm; simp at hm
      · rw [List.concat_eq_append] at e
        rw [e] at hm hs ⊢
        rw [List.map_append]
        simp only [List.map_cons, List.map_nil, List.getLastD_concat]
        rw [List.pairwise_append] at hs
        rcases List.mem_append.1 hm with q | q
        · have := hs.2.2 r q b (by simp); omega
        · simp at q; omega
    by_cases hs : d.stop ≤ a
    · refine ⟨a, 0, ?_, ?_⟩
      · unfold Disk.save; rw [hf]; simp [hs]
      · intro r hr ht _ har
        have := hin r hr ht
        omega
    · refine ⟨a, d.stop - a, ?_, ?_⟩
      · unfold Disk.save; rw [hf]; dsimp only; rw [if_neg hs]; rfl
      · intro r hr ht _ har
        have := hin r hr ht
        omega

/-- C179 fails (complete): a record which gets more particles after it was saved — in a coasting
beam the particles of one effective turn pass in two turns — is never updated in the file,
however often it is saved. -/
theorem C179_update_violated : ∃ d : Disk ℕ, ∃ ops : List (Op ℕ),
    (d.run 0 ops).row 0 = 2 ∧ (d.run 0 ops).touched 0 = true ∧ (d.run 0 ops).file = [(0, 1)] ∧
    ((d.run 0 ops).save).file = [(0, 1)] := by
  refine ⟨⟨0, 1, 2, fun _ => 0, fun _ => false, []⟩, [.put 0 1, .save, .put 0 2, .save], ?_⟩
  decide +kernel

/-- C179 (complete): if nothing is added to the records which have been saved, and no new frame is
started, the file holds exactly what the monitor reports for its first records. -/
theorem C179_complete_partial (empty : α) (d : Disk α) (he : 0 < d.every) (h0 : d.file = [])
    (ops : List (Op α))
    (hops : ∀ pre op post, ops = pre ++ op :: post →
      (∃ r v, op = .put r v ∧ (d.run empty pre).file.length ≤ r) ∨ op = .save) :
    (d.run empty ops).file = (List.range (d.run empty ops).file.length).map
      (fun r : ℕ => (d.start + (r : ℤ) * d.every, (d.run empty ops).row r)) := by
  suffices hs : ∀ (d : Disk α), 0 < d.every → d.file.length ≤ d.n →
      d.file = (List.range d.file.length).map (fun r => (d.turn r, d.row r)) →
      (∀ pre op post, ops = pre ++ op :: post →
        (∃ r v, op = .put r v ∧ (d.run empty pre).file.length ≤ r) ∨ op = .save) →
      (d.run empty ops).start = d.start ∧ (d.run empty ops).every = d.every ∧
      (d.run empty ops).file = (List.range (d.run empty ops).file.length).map
        (fun r : ℕ => (d.start + (r : ℤ) * d.every, (d.run empty ops).row r)) from
    (hs d he (by rw [h0]; simp) (by rw [h0]; rfl) hops).2.2
  clear hops h0 he d
  induction ops with
  | nil => intro d he _ h _; exact ⟨rfl, rfl, h⟩
  | cons op ops ih =>
    intro d he hn h hops
    have hop := hops [] op ops rfl
    have hrest : ∀ pre op' post, ops = pre ++ op' :: post →
        (∃ r v, op' = .put r v ∧ ((d.step empty op).run empty pre).file.length ≤ r) ∨ op' = .save := by
      intro pre op' post e
      exact hops (op :: pre) op' post (by rw [e]; rfl)
    have key : (d.step empty op).start = d.start ∧ (d.step empty op).every = d.every ∧
        (d.step empty op).file.length ≤ (d.step empty op).n ∧
        (d.step empty op).file = (List.range (d.step empty op).file.length).map
          (fun r => ((d.step empty op).turn r, (d.step empty op).row r)) := by
      rcases hop with ⟨r, v, rfl, hr⟩ | rfl
      · have hr' : d.file.length ≤ r := hr
        show (d.put r v).start = d.start ∧ (d.put r v).every = d.every ∧
          (d.put r v).file.length ≤ (d.put r v).n ∧ (d.put r v).file = _
        have ef : (d.put r v).file = d.file := by unfold Disk.put; split <;> rfl
        have es : (d.put r v).start = d.start := by unfold Disk.put; split <;> rfl
        have ee : (d.put r v).every = d.every := by unfold Disk.put; split <;> rfl
        have en : (d.put r v).n = d.n := by unfold Disk.put; split <;> rfl
        refine ⟨es, ee, by rw [ef, en]; exact hn, ?_⟩
        rw [ef]
        refine h.trans ?_
        show _ = (List.range (d.put r v).file.length).map _
        rw [ef]
        apply List.map_congr_left
        intro k hk
        have hk' := List.mem_range.1 hk
        have et : (d.put r v).turn k = d.turn k := by unfold Disk.turn; rw [es, ee]
        have er : (d.put r v).row k = d.row k := by
          unfold Disk.put
          split
          · dsimp only
            rw [if_neg (by omega)]
          · rfl
        show _ = ((d.put r v).turn k, (d.put r v).row k)
        rw [et, er]
      · show d.save.start = d.start ∧ d.save.every = d.every ∧ d.save.file.length ≤ d.save.n ∧
          d.save.file = (List.range d.save.file.length).map (fun r => (d.save.turn r, d.save.row r))
        have hfirst : d.file.length < d.n ∨ d.file.length = d.n := by omega
        -- the first record to write is the number of records in the file
        have hfa : d.first = some d.file.length ∨ d.n = 0 := by
          by_cases hn0 : d.n = 0
          · exact Or.inr hn0
          · left
            unfold Disk.first
            by_cases hl : d.file.length = 0
            · have : d.file = [] := List.length_eq_zero_iff.1 hl
              rw [this]; rfl
            · have e1 : d.file.length = (d.file.length - 1) + 1 := by omega
              have hlast : d.file.getLast? = some (d.turn (d.file.length - 1), d.row (d.file.length - 1)) := by
                rw [h, e1, List.range_succ, List.map_append]
                simp
              rw [hlast]
              dsimp only
              rw [if_neg hn0, find_turn d he _ (by omega)]
              show some (d.file.length - 1 + 1) = _
              congr 1
              omega
        rcases hfa with hfa | hn0
        · unfold Disk.save
          rw [hfa]
          dsimp only
          split
          · exact ⟨rfl, rfl, hn, h⟩
          · rename_i hst
            have hle := stop_le d
            refine ⟨rfl, rfl, ?_, ?_⟩
            · simp; omega
            · have hlen : (d.file ++ (List.range' d.file.length (d.stop - d.file.length)).map
                  (fun r => (d.turn r, d.row r))).length = d.stop := by simp; omega
              dsimp only
              rw [hlen]
              have e2 : List.range d.stop = List.range d.file.length ++
                  List.range' d.file.length (d.stop - d.file.length) := by
                rw [List.range_eq_range', List.range_eq_range']
                have := List.range'_append_1 (s := 0) (m := d.file.length) (n := d.stop - d.file.length)
                rw [zero_add] at this
                rw [this]
                congr 1
                omega
              rw [e2, List.map_append]
              congr 1
        · have hst : d.stop = 0 := by have := stop_le d; omega
          have e : d.save = d := by
            unfold Disk.save
            split
            · rfl
            · rw [hst]; simp
          rw [e]
          exact ⟨rfl, rfl, hn, h⟩
    obtain ⟨k1, k2, k3, k4⟩ := key
    obtain ⟨r1, r2, r3⟩ := ih (d.step empty op) (by rw [k2]; exact he) k3 k4 hrest
    refine ⟨?_, ?_, ?_⟩
    · exact r1.trans k1
    · exact r2.trans k2
    · have : d.run empty (op :: ops) = (d.step empty op).run empty ops := rfl
      rw [this, r3, k1, k2]
      simp

example : ((⟨0, 2, 3, fun _ => 0, fun _ => false, []⟩ : Disk ℕ).run 0
    [.put 0 5, .save, .put 2 7, .save, .frame 6, .put 1 4, .save, .save]).file =
      [(0, 5), (2, 0), (4, 7), (6, 0), (8, 4)] := by decide +kernel

/-! ## Which files are accepted -/

/-- What a new file says about the monitor.  Levels and profiles are left out: the levels follow
from the mode, the profiles are compared.  hdf5.py:90-124. -/
structure Meta (K : Type*) where
  stats : List String
  mode : Mode
  every : ℤ
  nRecords : ℤ
  ids : ℤ × ℤ
  filled : List ℤ
  selected : List ℤ
  centres : List (List K)
  deriving DecidableEq

variable {K : Type*} [Field K] [LinearOrder K] [IsStrictOrderedRing K] [FloorRing K]

/-- What a monitor writes into a new file: hdf5.py:90-124. -/
def metaOf (stats : List String) (filled : List ℤ) (c : Conf K) : Meta K :=
  ⟨stats, c.mode, c.every, c.nRecords, (c.idStart, c.idStop), filled, c.selected,
    c.selected.map (fun slot => (List.range c.nSlices.toNat).map (fun s : ℕ => centre c slot (s : ℤ)))⟩

/-- `_validate_hdf5_file`: everything but the positions of the slices is compared:
hdf5.py:127-197. -/
def fits (f m : Meta K) : Prop :=
  f.stats = m.stats ∧ f.mode = m.mode ∧ f.every = m.every ∧ f.nRecords = m.nRecords ∧
    f.ids = m.ids ∧ f.filled = m.filled ∧ f.selected = m.selected

/-- Number of values in one row of the datasets of each level, in the order in which they are
written: hdf5.py:24-29, beam_stats_monitor.py:433-464. -/
def rowSizes (c : Conf K) : List ℤ :=
  match c.mode with
  | .coasting => [1, c.nSlices]
  | .slice => [1, c.nSelected, c.nSelected * c.nSlices]
  | .bunch => [1, c.nSelected]
  | .beam => [1]

/-- `_append_hdf5_dataset` for one dataset after another, each given by the size of its rows and
their number; the flag says whether it went through.  Datasets written before an exception keep
the new rows: hdf5.py:24-29, 208-227. -/
def appendAll (k : ℕ) : List (ℤ × ℕ) → List ℤ → List (ℤ × ℕ) × Bool
  | (w, n) :: fs, v :: vs =>
    if w = v then
      let r := appendAll k fs vs
      ((w, n + k) :: r.1, r.2)
    else ((w, n) :: fs, false)
  | fs, _ => (fs, true)

/-- The numbers of rows of the file, the turns first, after `k` records are saved:
hdf5.py:21-29. -/
def saveRows (k : ℕ) (turns : ℕ) (fs : List (ℤ × ℕ)) (vs : List ℤ) : ℕ × List (ℤ × ℕ) × Bool :=
  (turns + k, appendAll k fs vs)

/-- C179 (consistent): if the file was written by a monitor with the same number of slices, saving
goes through and all datasets keep the same number of rows as there are turns. -/
theorem C179_consistent (c d : Conf K) (hm : c.mode = d.mode) (hs : c.nSelected = d.nSelected)
    (hn : c.nSlices = d.nSlices) (k turns : ℕ) :
    saveRows k turns ((rowSizes c).map (fun w => (w, turns))) (rowSizes d) =
      (turns + k, (rowSizes d).map (fun w => (w, turns + k)), true) := by
  have e : rowSizes c = rowSizes d := by unfold rowSizes; rw [hm, hs, hn]
  rw [e]
  have : ∀ vs : List ℤ, appendAll k (vs.map (fun w => (w, turns))) vs =
      (vs.map (fun w => (w, turns + k)), true) := by
    intro vs
    induction vs with
    | nil => rfl
    | cons v vs ih =>
      show (if v = v then _ else _) = _
      rw [if_pos rfl, ih]
      rfl
  unfold saveRows
  rw [this]

/-- C179 fails (same slices): a monitor with other slices is accepted, and its rows are appended
under the positions of the first one. -/
theorem C179_slices_violated : ∃ (i j : Input ℚ) (c d : Conf ℚ), build i = .ok c ∧ build j = .ok d ∧
    fits (metaOf ["mean_x"] [0] c) (metaOf ["mean_x"] [0] d) ∧ rowSizes c = rowSizes d ∧
    (metaOf ["mean_x"] [0] c).centres ≠ (metaOf ["mean_x"] [0] d).centres := by
  refine ⟨{ zetaRange := some (-1, 1), numSlices := some 2 },
    { zetaRange := some (-2, 2), numSlices := some 2 },
    ⟨0, 1, 1, .slice, 1, 1, 2, -1, 1, 0, -1, -1, [0], [0]⟩,
    ⟨0, 1, 1, .slice, 1, 1, 2, -2, 2, 0, -1, -1, [0], [0]⟩, by decide +kernel, by decide +kernel,
    ⟨rfl, rfl, rfl, rfl, rfl, rfl, rfl⟩, rfl, by decide +kernel⟩

/-- C179 fails (all or nothing): a monitor with another number of slices passes the validation;
the exception is raised only when some of the datasets have grown, so that the file has more turns
and more statistics of the beam than statistics of the slices. -/
theorem C179_torn_violated : ∃ (i j : Input ℚ) (c d : Conf ℚ), build i = .ok c ∧ build j = .ok d ∧
    fits (metaOf ["mean_x"] [0] c) (metaOf ["mean_x"] [0] d) ∧
    saveRows 1 5 ((rowSizes c).map (fun w => (w, 5))) (rowSizes d) =
      (6, [(1, 6), (1, 6), (2, 5)], false) := by
  refine ⟨{ zetaRange := some (-1, 1), numSlices := some 2 },
    { zetaRange := some (-1, 1), numSlices := some 4 },
    ⟨0, 1, 1, .slice, 1, 1, 2, -1, 1, 0, -1, -1, [0], [0]⟩,
    ⟨0, 1, 1, .slice, 1, 1, 4, -1, 1/2, 0, -1, -1, [0], [0]⟩, by decide +kernel, by decide +kernel,
    ⟨rfl, rfl, rfl, rfl, rfl, rfl, rfl⟩, by decide +kernel⟩

end Verif.BeamStats
