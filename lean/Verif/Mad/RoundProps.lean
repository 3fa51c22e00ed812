import Verif.Mad.Round

/-!
# C146: lines written as MAD-X sequences and read back
-/

namespace Verif.Mad.Round

/-- Nothing but the tilt is used of the frame. -/
def Frame.OnlyTilt (f : Frame) : Prop := f.shiftX = 0 ∧ f.shiftY = 0 ∧ f.shiftS = 0

theorem Frame.find_none (f : Frame) (k : Key) (h : k ≠ .tilt ∧ k ≠ .dx ∧ k ≠ .dy ∧ k ≠ .ds) :
    f.write.find? (fun p => p.1 = k) = none := by
  obtain ⟨h1, h2, h3, h4⟩ := h
  rw [List.find?_eq_none]
  intro p hp
  simp only [Frame.write, List.mem_append] at hp
  rcases hp with ((hp | hp) | hp) | hp <;> split_ifs at hp <;>
    simp_all [eq_comm]

theorem Frame.find_tilt (f : Frame) : ((f.write.find? (fun p => p.1 = Key.tilt)).map fun p => p.2.1).getD 0 = f.tilt := by
  by_cases h : f.tilt = 0
  · have : f.write.find? (fun p => p.1 = Key.tilt) = none := by
      rw [List.find?_eq_none]
      intro p hp
      simp only [Frame.write, List.mem_append] at hp
      rcases hp with ((hp | hp) | hp) | hp <;> split_ifs at hp <;> simp_all
    rw [this]; simp [h]
  · simp [Frame.write, h]

/-- Quadrupoles, sextupoles and octupoles come back as they were. *Missing*: displaced ones, see below. -/
theorem C146_straight_partial (m : Straight) (hf : m.frame.OnlyTilt) : Straight.read m.kind (m.write 1) = m := by
  obtain ⟨kind, length, k, ks, knl, ksl, frame⟩ := m
  obtain ⟨tilt, sx, sy, ss⟩ := frame
  obtain ⟨rfl, rfl, rfl⟩ := hf
  have hw : slot 1 = 1 := by norm_num [slot]
  cases kind <;>
    simp only [Straight.read, Straight.write, Kind.keys, Text.value, Text.get, List.cons_append, List.nil_append, List.find?_cons,
      hw, mul_one, Frame.read, Option.getD_some, reduceCtorEq, decide_false, decide_true, Option.map_some, Frame.find_tilt]

example : (⟨1 / 2, 0, 0, 0⟩ : Frame).OnlyTilt := ⟨rfl, rfl, rfl⟩

/-- Bends come back as they were. *Missing*: different gaps at entry and exit, a literal `k0` of zero, displacements, zero length; see
below for those which fail. -/
theorem C146_bend_partial (b : Bend) (hl : b.length ≠ 0) (hg : b.hgapEntry = b.hgapExit)
    (hk : b.k0FromH = false → b.k0 = 0 → b.k0Expr = true) (hh : b.k0FromH = true → b.k0 = b.h ∧ b.k0Expr = false)
    (hf : b.frame.OnlyTilt) : Bend.read b.write = b := by
  obtain ⟨length, h, fromH, k0, k0e, e1, e2, fint, fintx, hgi, hgo, k1, k2, knl, ksl, frame⟩ := b
  obtain ⟨tilt, sx, sy, ss⟩ := frame
  obtain ⟨rfl, rfl, rfl⟩ := hf
  simp only at hl hg hk hh
  subst hg
  have hd : h * length / length = h := by field_simp
  cases fromH with
  | true =>
    obtain ⟨rfl, rfl⟩ := hh rfl
    have hn := Frame.find_none (⟨tilt, 0, 0, 0⟩ : Frame) .k0 (by decide)
    simp only [Bend.read, Bend.write, Text.value, Text.get, Text.isExpr, if_true, List.append_nil, List.cons_append, List.nil_append,
      List.find?_cons, reduceCtorEq, decide_false, decide_true, Option.map_some, Option.getD_some, Frame.read, Frame.find_tilt, hd, hn,
      Option.map_none, Option.getD_none]
  | false =>
    have hb : (!k0e && decide (k0 = 0)) = false := by
      by_cases h0 : k0 = 0
      · simp [hk rfl h0]
      · simp [h0]
    simp only [Bend.read, Bend.write, Text.value, Text.get, Text.isExpr, Bool.false_eq_true, if_false, List.append_nil,
      List.cons_append, List.nil_append,
      List.find?_cons, reduceCtorEq, decide_false, decide_true, Option.map_some, Option.getD_some, Frame.read, Frame.find_tilt, hd, hb]

/-- A bend with a gradient, gaps and a field given by an expression. -/
example : let b : Bend := ⟨2, 1 / 10, false, 0, true, 1 / 20, 1 / 20, 1 / 2, 1 / 3, 1 / 50, 1 / 50, 1, 0, [0, 1], [], ⟨1, 0, 0, 0⟩⟩
    b.length ≠ 0 ∧ b.hgapEntry = b.hgapExit ∧ (b.k0FromH = false → b.k0 = 0 → b.k0Expr = true) ∧
    (b.k0FromH = true → b.k0 = b.h ∧ b.k0Expr = false) ∧ b.frame.OnlyTilt := by
  refine ⟨by norm_num, rfl, fun _ _ => rfl, by simp, rfl, rfl, rfl⟩

/-- Cavities come back with the same voltage, frequency, harmonic number and length, and act with the same phase. -/
theorem C146_cavity (c : Cavity) :
    (Cavity.read c.write).length = c.length ∧ (Cavity.read c.write).voltage = c.voltage ∧
    (Cavity.read c.write).frequency = c.frequency ∧ (Cavity.read c.write).harmonic = c.harmonic ∧
    (Cavity.read c.write).angle = c.angle := by
  have hp := Real.pi_pos
  refine ⟨by simp [Cavity.read, Cavity.write, Text.value, Text.get], ?_, ?_, by simp [Cavity.read, Cavity.write, Text.value, Text.get], ?_⟩
  · simp only [Cavity.read, Cavity.write, Text.value, Text.get, List.find?_cons, reduceCtorEq, decide_false, decide_true,
      Option.map_some, Option.getD_some, ifNonzero]
    by_cases h : c.voltage = 0
    · simp [h]
    · rw [if_pos (by simp [h])]; ring
  · simp only [Cavity.read, Cavity.write, Text.value, Text.get, List.find?_cons, decide_true,
      Option.map_some, Option.getD_some, ifNonzero]
    by_cases h : c.frequency = 0
    · simp [h]
    · rw [if_pos (by simp [h])]; ring
  · simp only [Cavity.angle, Cavity.read, Cavity.write, Text.value, Text.get, List.find?_cons, reduceCtorEq, decide_false, decide_true,
      Option.map_some, Option.getD_some, ifNonzero, zero_mul, zero_add]
    have key : (c.lag / 360 + c.phase / (2 * Real.pi)) * Real.pi * 2 = c.lag * (Real.pi / 180) + c.phase := by
      field_simp; ring
    by_cases h : c.lag / 360 + c.phase / (2 * Real.pi) = 0
    · rw [if_neg (by simp [h]), ← key, h]; ring
    · rw [if_pos (by simpa using h), key]

/-- Crab cavities come back the same. *Missing*: those with a `phase`; it is lost, see below. -/
theorem C146_crab_partial (c : Cavity) (h0 : c.phase = 0) :
    (Cavity.read c.writeCrab).length = c.length ∧ (Cavity.read c.writeCrab).voltage = c.voltage ∧
    (Cavity.read c.writeCrab).frequency = c.frequency ∧ (Cavity.read c.writeCrab).angle = c.angle := by
  refine ⟨by simp [Cavity.read, Cavity.writeCrab, Text.value, Text.get], ?_, ?_, ?_⟩
  · simp only [Cavity.read, Cavity.writeCrab, Text.value, Text.get, List.find?_cons, reduceCtorEq, decide_false, decide_true,
      Option.map_some, Option.getD_some, ifNonzero]
    by_cases h : c.voltage = 0
    · simp [h]
    · rw [if_pos (by simp [h])]; ring
  · simp only [Cavity.read, Cavity.writeCrab, Text.value, Text.get, List.find?_cons, decide_true,
      Option.map_some, Option.getD_some, ifNonzero]
    by_cases h : c.frequency = 0
    · simp [h]
    · rw [if_pos (by simp [h])]; ring
  · simp only [Cavity.angle, Cavity.read, Cavity.writeCrab, Text.value, Text.get, List.find?_cons, reduceCtorEq, decide_false,
      decide_true, Option.map_some, Option.getD_some, ifNonzero, zero_mul, zero_add, h0, add_zero]
    by_cases h : c.lag = 0
    · simp [h]
    · rw [if_pos (by simp [h])]; ring

example : (⟨1, 2, 3, 0, 90, 0⟩ : Cavity).phase = 0 := rfl

/-- Correctors and thin multipoles come back as they were. *Missing*: multipoles without curvature but with a dipole component, see
below, and thick ones, which come back as another type. -/
theorem C146_multipole_partial (m : Multipole) (ht : m.thick = false)
    (hc : m.hxl ≠ 0 ∨ m.knl.getD 0 0 = 0 ∨ m.knl.length = 1 ∧ m.ksl.length = 1) : Multipole.read (m.write 1) = some m := by
  obtain ⟨knl, ksl, hxl, length, thick⟩ := m
  simp only at ht hc
  subst ht
  by_cases hk : knl.length = 1 ∧ ksl.length = 1 ∧ hxl = 0
  · obtain ⟨h1, h2, rfl⟩ := hk
    obtain ⟨a, rfl⟩ := List.length_eq_one_iff.mp h1
    obtain ⟨b, rfl⟩ := List.length_eq_one_iff.mp h2
    have ha : ifNonzero (-a) (fun x => -x) = a := by
      by_cases h : a = 0 <;> simp [ifNonzero, h]
    have hb : ifNonzero b id = b := by
      by_cases h : b = 0 <;> simp [ifNonzero, h]
    simp [Multipole.write, Multipole.read, Text.value, Text.get, readLength, ha, hb]
  · have hh : (if hxl ≠ 0 then hxl else knl.getD 0 0) = hxl := by
      by_cases h : hxl = 0
      · rw [if_neg (by simp [h])]
        rcases hc with hc | hc | hc
        · exact absurd h hc
        · rw [hc, h]
        · exact absurd ⟨hc.1, hc.2, h⟩ hk
      · rw [if_pos h]
    have hh2 : (if hxl ≠ 0 then hxl * 1 else 0) = hxl := by by_cases h : hxl = 0 <;> simp [h]
    rw [Multipole.write]
    rw [if_neg hk, if_pos (Or.inr (Or.inl rfl))]
    simp only [Multipole.read, Text.value, Text.get, readLength, List.find?_cons, reduceCtorEq, decide_false, decide_true,
      Option.map_some, Option.getD_some, List.find?_nil, Option.map_none, Option.getD_none, Option.isSome_none, mul_one]
    rw [mul_one] at hh2
    rw [hh2, hh]

example : let m : Multipole := ⟨[0, 3], [1], 0, 1, false⟩
    m.thick = false ∧ (m.hxl ≠ 0 ∨ m.knl.getD 0 0 = 0 ∨ m.knl.length = 1 ∧ m.ksl.length = 1) := by simp

/-- The integrated main strength of slices adds up to that of the magnet, however it is sliced into pieces which are not tiny.
*Missing*: the arrays `knl`, `ksl`; they do not add up, see below. -/
theorem C146_slices_partial (m : Straight) (ws : List ℝ) (h1 : ws.sum = 1) (hw : ∀ w ∈ ws, 1 / 10000000000 ≤ w) :
    (ws.map fun w => (Straight.read m.kind (m.write w)).k * (Straight.read m.kind (m.write w)).length).sum = m.k * m.length := by
  have key : ∀ w ∈ ws, (Straight.read m.kind (m.write w)).k * (Straight.read m.kind (m.write w)).length = m.k * m.length * w := by
    intro w hmem
    have : slot w = w := by rw [slot, if_neg (not_lt.mpr (hw w hmem))]
    cases hk : m.kind <;>
      simp only [Straight.read, Straight.write, hk, Kind.keys, Text.value, Text.get, List.cons_append, List.nil_append, List.find?_cons,
        this, Option.getD_some, reduceCtorEq, decide_false, decide_true, Option.map_some] <;> ring
  rw [List.map_congr_left key, List.sum_map_mul_left, List.map_id', h1, mul_one]

example : ([1 / 2, 1 / 4, 1 / 4] : List ℝ).sum = 1 ∧ ∀ w ∈ ([1 / 2, 1 / 4, 1 / 4] : List ℝ), 1 / 10000000000 ≤ w := by
  refine ⟨by norm_num, ?_⟩
  intro w hw
  simp only [List.mem_cons, List.not_mem_nil, or_false] at hw
  rcases hw with rfl | rfl | rfl <;> norm_num

/-- **C146 fails** for the arrays of slices: each slice is written with the arrays of the whole magnet, so that `n` slices have `n` times
its multipoles. -/
theorem C146_slices_violated (m : Straight) (ws : List ℝ) (n : ℕ) :
    (ws.map fun w => (Straight.read m.kind (m.write w)).knl.getD n 0).sum = ws.length * m.knl.getD n 0 := by
  have : ∀ w ∈ ws, (Straight.read m.kind (m.write w)).knl.getD n 0 = m.knl.getD n 0 := fun w _ => by
    simp [Straight.read, Straight.write]
  rw [List.map_congr_left this]
  simp

/-- **C146 fails** for displaced elements: whatever the displacement, it comes back as zero. -/
theorem C146_shift_violated (m : Straight) : (Straight.read m.kind (m.write 1)).frame.shiftX = 0 := rfl

/-- **C146 fails** for a bend without field, `k0 = 0` given as a number: it comes back with the field of its angle. -/
theorem C146_k0_violated (b : Bend) (hl : b.length ≠ 0) (h : b.k0FromH = false) (h0 : b.k0 = 0) (he : b.k0Expr = false) :
    (Bend.read b.write).k0FromH = true ∧ (Bend.read b.write).k0 = b.h := by
  have hd : b.h * b.length / b.length = b.h := by field_simp
  have hx : (Bend.read b.write).k0FromH = true := by
    simp [Bend.read, Bend.write, Text.get, Text.isExpr, h, h0, he]
  refine ⟨hx, ?_⟩
  simp [Bend.read, Bend.write, Text.get, Text.isExpr, Text.value, h, h0, he, hd]

example : let b : Bend := ⟨2, 1 / 10, false, 0, false, 0, 0, 0, 0, 0, 0, 0, 0, [], [], ⟨0, 0, 0, 0⟩⟩
    b.length ≠ 0 ∧ b.k0FromH = false ∧ b.k0 = 0 ∧ b.k0Expr = false := by norm_num

/-- **C146 fails** for different gaps: the exit of the bend gets the gap of the entry. -/
theorem C146_hgap_violated (b : Bend) : (Bend.read b.write).hgapExit = b.hgapEntry := by
  cases h : b.k0FromH <;> simp [Bend.read, Bend.write, Text.value, Text.get, h]

/-- **C146 fails** for a crab cavity with a `phase`: it is lost. -/
theorem C146_crab_violated : ∃ c : Cavity, (Cavity.read c.writeCrab).angle = 0 ∧ c.angle = 1 := by
  refine ⟨⟨1, 1, 1, 0, 0, 1⟩, ?_, ?_⟩ <;>
    simp [Cavity.angle, Cavity.read, Cavity.writeCrab, Text.value, Text.get, ifNonzero]

/-- **C146 fails** for a thin multipole with a dipole component and no curvature (a kick): it comes back with the curvature of the
dipole component, i.e. the reference trajectory is bent by it. -/
theorem C146_hxl_violated (a : ℝ) (r ksl : List ℝ) (l : ℝ) (hr : r ≠ []) :
    Multipole.read (Multipole.write ⟨a :: r, ksl, 0, l, false⟩ 1) = some ⟨a :: r, ksl, a, l, false⟩ := by
  have : ¬((a :: r).length = 1 ∧ ksl.length = 1 ∧ (0 : ℝ) = 0) := by
    rintro ⟨h, -, -⟩
    rw [List.length_cons] at h
    exact hr (List.length_eq_zero_iff.mp (by omega))
  rw [Multipole.write]
  rw [if_neg this, if_pos (Or.inr (Or.inl rfl))]
  simp [Multipole.read, Text.value, Text.get, readLength]

/-! ### Positions -/

/-- What should come back: the elements other than the drifts of gaps, with the places where they start. -/
def located : ℝ → List Entry → List (ℕ × ℝ)
  | _, [] => []
  | s, e :: r => if e.gap then located (s + e.len) r else (e.name, s) :: located (s + e.len) r

/-- The dictionary without the names of the table. -/
noncomputable def placesFrom (s : ℝ) (line : List Entry) : List ((ℕ × Option ℕ) × ℝ) :=
  ((line.map fun e => (e.name, (none : Option ℕ))).zip ((starts s line).zip line)).filterMap fun p =>
    if p.2.2.gap then none else some (p.1, 1 / 2 * (p.2.1 + (p.2.1 + p.2.2.len)))

theorem tableNames_nodup {names : List ℕ} (h : names.Nodup) : tableNames names = names.map fun n => (n, none) := by
  apply List.ext_getElem
  · simp [tableNames]
  · intro i h1 h2
    have hi : i < names.length := by simpa using h2
    simp only [tableNames, List.getElem_map, List.getElem_range]
    have hc : names.count (names.getD i 0) ≤ 1 := List.nodup_iff_count_le_one.mp h _
    rw [if_pos hc]
    simp [List.getD_eq_getElem?_getD, List.getElem?_eq_getElem hi]

theorem placesFrom_cons (s : ℝ) (e : Entry) (r : List Entry) : placesFrom s (e :: r) =
    (if e.gap then [] else [((e.name, none), 1 / 2 * (s + (s + e.len)))]) ++ placesFrom (s + e.len) r := by
  cases h : e.gap <;> simp [placesFrom, starts, h]

theorem placesFrom_names (s : ℝ) (line : List Entry) : ∀ p ∈ placesFrom s line, ∃ e ∈ line, p.1 = (e.name, none) := by
  induction line generalizing s with
  | nil => simp [placesFrom, starts]
  | cons e r ih =>
    intro p hp
    rw [placesFrom_cons, List.mem_append] at hp
    rcases hp with hp | hp
    · split_ifs at hp with hg
      · simp at hp
      · simp only [List.mem_singleton] at hp
        exact ⟨e, by simp, by rw [hp]⟩
    · obtain ⟨x, hx, h⟩ := ih _ p hp
      exact ⟨x, by simp [hx], h⟩

/-- **C146.** In a line whose elements have different names, every element comes back at the place where it was: the gaps are made up
again. *Missing*: elements which occur several times; they fail, see below. -/
theorem C146_places_partial (line : List Entry) (h : (line.map Entry.name).Nodup) :
    ∃ t, statements line line = some t ∧ readBack t = located 0 line := by
  have hp : places line = placesFrom 0 line := by
    rw [places, tableNames_nodup h, placesFrom, List.map_map]; rfl
  have key : ∀ (todo : List Entry) (s : ℝ) (pre : List ((ℕ × Option ℕ) × ℝ)),
      places line = pre ++ placesFrom s todo → (∀ p ∈ pre, ∀ e ∈ todo, p.1 ≠ (e.name, none)) → (todo.map Entry.name).Nodup →
      ∃ t, statements line todo = some t ∧ readBack t = located s todo := by
    intro todo
    induction todo with
    | nil => intro s pre _ _ _; exact ⟨[], rfl, rfl⟩
    | cons e r ih =>
      intro s pre hpre hne hnd
      rw [List.map_cons, List.nodup_cons] at hnd
      rw [placesFrom_cons] at hpre
      have hnext : ∀ p ∈ (pre ++ if e.gap then [] else [((e.name, none), 1 / 2 * (s + (s + e.len)))]),
          ∀ x ∈ r, p.1 ≠ (x.name, none) := by
        intro p hpm x hx
        rcases List.mem_append.mp hpm with hpm | hpm
        · exact hne p hpm x (by simp [hx])
        · split_ifs at hpm with hg
          · simp at hpm
          · simp only [List.mem_singleton] at hpm
            rw [hpm]
            intro heq
            apply hnd.1
            have : e.name = x.name := by simpa using heq
            rw [this]
            exact List.mem_map_of_mem hx
      obtain ⟨t, ht1, ht2⟩ := ih (s + e.len) (pre ++ if e.gap then [] else [((e.name, none), 1 / 2 * (s + (s + e.len)))])
        (by rw [hpre, List.append_assoc]) hnext hnd.2
      cases hg : e.gap with
      | true => exact ⟨t, by simp only [statements, hg, if_true, ht1], by simp only [located, hg, if_true, ht2]⟩
      | false =>
        have hfind : place line e.name = some (1 / 2 * (s + (s + e.len))) := by
          rw [place, hpre]
          have hnone : pre.find? (fun p => p.1 = (e.name, none)) = none := by
            rw [List.find?_eq_none]
            intro p hpm
            simpa using hne p hpm e (by simp)
          rw [List.find?_append, hnone]
          simp [hg]
        refine ⟨(e.name, e.len, 1 / 2 * (s + (s + e.len))) :: t, ?_, ?_⟩
        · simp only [statements, hg, Bool.false_eq_true, if_false, hfind, ht1]
        · simp only [readBack, List.map_cons, located, hg, Bool.false_eq_true, if_false]
          rw [← ht2, readBack]
          congr 2
          ring
  exact key line 0 [] (by simpa using hp) (by simp) h

/-- Two magnets with a gap between them. -/
example : (([⟨0, 1, false⟩, ⟨5, 2, true⟩, ⟨1, 3, false⟩] : List Entry).map Entry.name).Nodup := by decide

/-- **C146 fails** for a line in which an element occurs twice: it cannot be written at all. -/
theorem C146_repeated_violated : statements [⟨0, 1, false⟩, ⟨1, 2, false⟩, ⟨0, 1, false⟩] [⟨0, 1, false⟩, ⟨1, 2, false⟩, ⟨0, 1, false⟩] =
    none := by
  have ht : tableNames [0, 1, 0] = [(0, some 0), (1, none), (0, some 1)] := by decide
  have h : place [⟨0, 1, false⟩, ⟨1, 2, false⟩, ⟨0, 1, false⟩] 0 = none := by
    simp [place, places, ht, starts]
  simp only [statements, Bool.false_eq_true, if_false]
  rw [h]

end Verif.Mad.Round
