import Verif.Attr.Model
import Verif.Slicing.Props
import Mathlib.Tactic.IntervalCases

/-!
# Reported strengths: properties (C123)
-/

namespace Verif.Attr

theorem mainLoop_eq (r : Row) (s : Bool) : r.mainLoop s
    = r.mainStep s 5 (r.mainStep s 4 (r.mainStep s 3 (r.mainStep s 2 (r.mainStep s 1 (r.mainStep s 0 0))))) := rfl

/-- The main strength found for an element of its own. -/
theorem main_mag (d : Dict) {m : Mag} (h : WF m) (ho : m.kind = .multipole → m.mainOrder ≤ 5) (hk : m.kind ≠ .other) :
    (rowOf d (.mag m) (.mag m)).main = refStrength m := by
  unfold Row.main refStrength
  simp only [mainLoop_eq]
  obtain ⟨h1, h2, h3⟩ := h
  rcases hm : m.kind with _ | _ | _ | _ | _ | _ | _
  case multipole =>
    have hk0 := h1 hm
    obtain ⟨o, ho⟩ : ∃ o, m.mainOrder = o := ⟨_, rfl⟩
    have ho5 := ‹m.kind = .multipole → m.mainOrder ≤ 5› hm
    rw [ho] at ho5
    rcases hs : m.mainIsSkew <;> interval_cases o <;>
      simp [Row.mainStep, rowOf, Row.maskType, Row.mainOrder, Row.takeMain, Row.mainIsSkew, className, parentType, implicitOrder, orderOf, hm, ho, hs, Row.noRel,
        Row.ownF, Row.parentF, hk0]
  case other => exact absurd hm hk
  case bend | rbend =>
    have hs := h2 (by simp [hm])
    simp [Row.mainStep, rowOf, Row.maskType, Row.mainOrder, Row.takeMain, Row.mainIsSkew, className, parentType, implicitOrder, orderOf, hm, hs, Row.ownF, Row.parentF]
  all_goals
    rcases hs : m.mainIsSkew <;>
    simp [Row.mainStep, rowOf, Row.maskType, Row.mainOrder, Row.takeMain, Row.mainIsSkew, className, parentType, implicitOrder, orderOf, hm, hs, Row.ownF, Row.parentF] <;> ring

/-- The main strength found for a slice with the body of the magnet. -/
theorem main_slice (d : Dict) {p : Mag} (h : WF p) (ho : p.kind = .multipole → p.mainOrder ≤ 5) (hk : p.kind ≠ .other) (sk : SliceKind) (w : ℝ) :
    (rowOf d (.slice sk p w) (.slice sk p w)).main = w * inheritStrengths (.slice sk p w) * refStrength p := by
  unfold Row.main refStrength
  simp only [mainLoop_eq]
  generalize hi : inheritStrengths (.slice sk p w) = i
  obtain ⟨h1, h2, h3⟩ := h
  rcases hm : p.kind with _ | _ | _ | _ | _ | _ | _
  case multipole =>
    have hk0 := h1 hm
    obtain ⟨o, ho⟩ : ∃ o, p.mainOrder = o := ⟨_, rfl⟩
    have ho5 := ‹p.kind = .multipole → p.mainOrder ≤ 5› hm
    rw [ho] at ho5
    rcases hs : p.mainIsSkew <;> interval_cases o <;>
      simp [Row.mainStep, rowOf, Row.maskType, Row.mainOrder, Row.takeMain, Row.mainIsSkew, className, parentType, implicitOrder, orderOf, hm, ho, hs, Row.noRel,
        Row.ownF, Row.parentF, hk0, hi] <;> ring
  case other => exact absurd hm hk
  case bend | rbend =>
    have hs := h2 (by simp [hm])
    simp [Row.mainStep, rowOf, Row.maskType, Row.mainOrder, Row.takeMain, Row.mainIsSkew, className, parentType, implicitOrder, orderOf, hm, hs, Row.ownF, Row.parentF, hi]
    ring
  all_goals
    rcases hs : p.mainIsSkew <;>
    simp [Row.mainStep, rowOf, Row.maskType, Row.mainOrder, Row.takeMain, Row.mainIsSkew, className, parentType, implicitOrder, orderOf, hm, hs, Row.ownF, Row.parentF, hi] <;> ring

/-- Magnet of an element which is not a replica. -/
def magOf : El → Option Mag
  | .mag m => some m
  | .slice _ p _ => some p
  | .replica _ => none

/-- **C123, strengths.**  For every element which is not a replica, the reported strengths are those with which the particles are kicked. -/
theorem C123_strengths (d : Dict) (fuel : ℕ) {e : El} {m : Mag} (he : magOf e = some m) (hw : WF m)
    (ho : m.kind = .multipole → m.mainOrder ≤ 5) (s : Bool) (n : ℕ) : attrKl d fuel e s n = some (tracked s n e) := by
  unfold attrKl
  cases e with
  | replica p => simp [magOf] at he
  | mag m' =>
    simp only [magOf, Option.some.injEq] at he
    subst he
    rw [show resolve d fuel (.mag m') = some (.mag m') by cases fuel <;> rfl, Option.map_some]
    unfold Row.kl
    by_cases hk : m'.kind = .other
    · have := hw.other hk s
      simp [Row.rel, Row.noRel, rowOf, Row.ownF, Row.parentF, tracked, bodyKick, this, entry]
    · rw [main_mag d hw ho hk]
      simp [Row.rel, Row.noRel, rowOf, Row.ownF, Row.parentF, tracked, bodyKick]
      ring
  | slice sk p w =>
    simp only [magOf, Option.some.injEq] at he
    subst he
    rw [show resolve d fuel (.slice sk p w) = some (.slice sk p w) by cases fuel <;> rfl, Option.map_some]
    unfold Row.kl
    by_cases hk : p.kind = .other
    · have := hw.other hk s
      cases sk <;> simp [Row.rel, Row.noRel, rowOf, Row.ownF, Row.parentF, tracked, bodyKick, this, entry, inheritStrengths] <;> ring
    · rw [main_slice d hw ho hk]
      cases sk <;> simp [Row.rel, Row.noRel, rowOf, Row.ownF, Row.parentF, tracked, bodyKick, inheritStrengths] <;> ring

/-- **C123, totals.**  The strengths of an element given by `get_total_knl_ksl` are the same. -/
theorem C123_totals (d : Dict) (fuel : ℕ) {m : Mag} (hw : WF m) (ho : m.kind = .multipole → m.mainOrder ≤ 5) (s : Bool) (n : ℕ) :
    attrKl d fuel (.mag m) s n = some (totalKl m s n) := by
  rw [C123_strengths d fuel rfl hw ho]
  simp only [tracked, bodyKick, totalKl]
  congr 1
  ring

/-- Replicas of an element which is neither a replica nor a slice. -/
theorem C123_replica (d : Dict) (fuel : ℕ) {q : String} {m : Mag} (hq : d q = some (.mag m)) (hw : WF m)
    (ho : m.kind = .multipole → m.mainOrder ≤ 5) (s : Bool) (n : ℕ) :
    attrKl d (fuel + 1) (.replica q) s n = some (tracked s n (.mag m)) := by
  rw [← C123_strengths d fuel (e := .mag m) rfl hw ho]
  unfold attrKl
  have h1 : resolve d (fuel + 1) (.replica q) = some (.mag m) := by
    rw [resolve, hq, Option.bind_some]; cases fuel <;> rfl
  rw [h1, show resolve d fuel (.mag m) = some (.mag m) by cases fuel <;> rfl, Option.map_some, Option.map_some]
  congr 1
  have hnr : (rowOf d (.replica q) (.mag m)).noRel = (rowOf d (.mag m) (.mag m)).noRel := by
    funext s n; simp [Row.noRel, rowOf, Row.ownF, Row.parentF, inheritStrengths]
  have hmask : (rowOf d (.replica q) (.mag m)).maskType = (rowOf d (.mag m) (.mag m)).maskType := by
    funext i; simp [Row.maskType, rowOf, parentType, hq, className]
  have hstep : (rowOf d (.replica q) (.mag m)).mainStep = (rowOf d (.mag m) (.mag m)).mainStep := by
    funext s n v
    unfold Row.mainStep
    rw [hmask, hnr]
    simp [rowOf, Row.ownF, Row.parentF, Row.mainOrder, Row.takeMain, inheritStrengths]
  have hmain : (rowOf d (.replica q) (.mag m)).main = (rowOf d (.mag m) (.mag m)).main := by
    unfold Row.main Row.mainLoop
    rw [hstep]
    simp [Row.mainIsSkew, rowOf]
  unfold Row.kl
  rw [hmain, hnr]
  simp [Row.rel, rowOf, Row.ownF, Row.parentF]

/-- A quadrupole of strength `k1 = 1` and length 2. -/
def quad : Mag := ⟨.quad, 2, fun s n => if s = false ∧ n = 1 then 1 else 0, fun _ => [], fun _ => [], 0, false, 0, 0, false, 0⟩

theorem quad_wf : WF quad := ⟨by simp [quad], by simp [quad], by simp [quad]⟩

/-- **C123, violated for replicas of slices.**  A quadrupole is cut in two slices, and the line is replicated (`line.replicate`).  Tracking kicks with the whole
strength in the replica of a slice, but the reported strength is zero: `_inherit_strengths` is asked to the replica, which does not have it. -/
theorem C123_replica_violated : ∃ (d : Dict) (r : El), resolve d 1 (.replica "q..0") = some r ∧ tracked false 1 r = 1
    ∧ attrKl d 1 (.replica "q..0") false 1 = some 0 := by
  refine ⟨fun n => if n = "q..0" then some (.slice .thick quad (1 / 2)) else none, .slice .thick quad (1 / 2), by simp [resolve], ?_, ?_⟩
  · norm_num [tracked, bodyKick, quad, entry]
  · simp [attrKl, resolve, Row.kl, Row.noRel, rowOf, Row.ownF, Row.parentF, inheritStrengths, quad, entry, Row.rel]

/-- A multipole whose main component is of order 6, and which has a quadrupole component of one tenth of it. -/
noncomputable def mult6 : Mag :=
  ⟨.multipole, 0, fun _ _ => 0, fun s => if s then [] else [0, 0, 0, 0, 0, 0, 10], fun s => if s then [0, 0] else [0, 1 / 10], 6, false, 0, 0, false, 0⟩

/-- **C123, violated for a main component above order 5.**  The relative components are reported as zero. -/
theorem C123_order_violated : ∃ m : Mag, WF m ∧ m.kind = .multipole ∧ m.mainOrder < (m.kl m.mainIsSkew).length ∧
    ∀ (d : Dict) (fuel : ℕ), tracked false 1 (.mag m) = 1 ∧ attrKl d fuel (.mag m) false 1 = some 0 := by
  refine ⟨mult6, ⟨by simp [mult6], by simp [mult6], by simp [mult6]⟩, rfl, by simp [mult6], fun d fuel => ⟨?_, ?_⟩⟩
  · norm_num [tracked, bodyKick, mult6, entry, refStrength]
  · unfold attrKl
    rw [show resolve d fuel (.mag mult6) = some (.mag mult6) by cases fuel <;> rfl, Option.map_some]
    have hm : (rowOf d (.mag mult6) (.mag mult6)).main = 0 := by
      unfold Row.main
      simp only [mainLoop_eq]
      simp [Row.mainStep, rowOf, Row.maskType, Row.mainOrder, Row.takeMain, Row.mainIsSkew, className, parentType, implicitOrder, orderOf, mult6]
    unfold Row.kl
    rw [hm]
    simp [Row.noRel, rowOf, Row.ownF, Row.parentF, mult6, entry]

/-! ## Slicing -/

/-- The elements by which slicing replaces the element `p`: slices (of which the edges are first and last), seen by `LineAttr`. -/
def ofSlicing (p : Mag) : Slicing.El → Option El
  | .slice .thick _ w _ => some (.slice .thick p w)
  | .slice .drift _ w _ => some (.slice .drift p w)
  | .slice .thin _ w _ => some (.slice .thin p w)
  | .slice .edge _ w _ => some (.slice .entry p w)
  | _ => none

/-- Sum of a column over the slices (markers count zero). -/
def total (f : El → ℝ) (p : Mag) (l : List Slicing.El) : ℝ := (l.map fun e => match ofSlicing p e with | some x => f x | none => 0).sum

theorem body_linear (p : Mag) (w : ℝ) (s : Bool) (n : ℕ) : bodyKick p w s n = w * bodyKick p 1 s n := by
  unfold bodyKick; ring

theorem total_tracked (p : Mag) (l : List Slicing.El) (s : Bool) (n : ℕ) : total (tracked s n) p l
    = ((Slicing.weightsOf .thin l).sum + (Slicing.weightsOf .thick l).sum) * bodyKick p 1 s n := by
  unfold total
  induction l with
  | nil => simp [Slicing.weightsOf]
  | cons e l ih =>
    rw [List.map_cons, List.sum_cons, ih]
    cases e with
    | slice k q w o =>
      cases k <;> simp [ofSlicing, tracked, Slicing.weightsOf, body_linear p w] <;> ring
    | _ => simp [ofSlicing, Slicing.weightsOf]

/-- The reported strength of an element in a line. -/
noncomputable def reported (d : Dict) (s : Bool) (n : ℕ) (e : El) : ℝ := (attrKl d 0 e s n).getD 0

theorem total_congr {f g : El → ℝ} {p : Mag} (h : ∀ e : Slicing.El, ∀ x, ofSlicing p e = some x → f x = g x) (l : List Slicing.El) : total f p l = total g p l := by
  unfold total
  congr 1
  apply List.map_congr_left
  intro e _
  cases hx : ofSlicing p e with
  | none => rfl
  | some x => exact h e x hx

/-- **C123, slicing.**  When the weights of the slices with the body of the magnet add up to one (C31), the sum of the strengths reported for the slices is the
strength reported for the magnet. -/
theorem C123_slices (d d' : Dict) {p : Mag} (hw : WF p) (ho : p.kind = .multipole → p.mainOrder ≤ 5) (l : List Slicing.El)
    (hl : (Slicing.weightsOf .thin l).sum + (Slicing.weightsOf .thick l).sum = 1) (s : Bool) (n : ℕ) :
    total (reported d' s n) p l = reported d s n (.mag p) := by
  have e1 : total (reported d' s n) p l = total (tracked s n) p l := by
    apply total_congr
    intro e x hx
    unfold reported
    rw [C123_strengths d' 0 (m := p) ?_ hw ho, Option.getD_some]
    cases e with
    | slice k q w o => cases k <;> simp only [ofSlicing, Option.some.injEq] at hx <;> subst hx <;> rfl
    | _ => simp [ofSlicing] at hx
  rw [e1, total_tracked, hl, one_mul]
  unfold reported
  rw [C123_strengths d 0 rfl hw ho, Option.getD_some]
  rfl

/-- **C123, slicing of a line.**  Slicing an element with a thin scheme keeps the sum of the reported strengths. -/
theorem C123_sliced_thin (markers : Bool) (sch : Slicing.Scheme) (st st' : Slicing.St) (name : String) (l : List String) (hc : Slicing.CacheOk st)
    (hn : markers = true → Slicing.NoClash st.dict [name]) (hm : sch.mode = .thin) (c : Slicing.Ctx) (hcx : Slicing.context st.dict name = some c)
    (hd : c.isDriftSlice = false) (ht : c.kind.thinSlices = true) (h1 : c.ew = 1)
    (h : Slicing.sliceElement markers sch st name = some (st', l))
    {p : Mag} (hw : WF p) (ho : p.kind = .multipole → p.mainOrder ≤ 5) (s : Bool) (n : ℕ) :
    ∃ els : List Slicing.El, l.map (Slicing.get st'.dict) = els.map some ∧ ∀ d d', total (reported d' s n) p els = reported d s n (.mag p) := by
  obtain ⟨els, e1, e2, e3⟩ := Slicing.C31_thin_weights markers sch st st' name l hc hn hm c hcx hd ht h
  exact ⟨els, e1, fun d d' => C123_slices d d' hw ho els (by rw [e2, e3, h1]; simp) s n⟩

/-! ## Lengths and angles -/

/-- Length along the line (`_length`, lines 7711-7717). -/
def lengthOf : El → ℝ
  | .mag m => m.length
  | .slice _ p w => p.length * w
  | .replica _ => 0

/-- The reported length is the one of the resolved element, also for replicas. -/
theorem C123_length (d : Dict) (fuel : ℕ) (e r : El) (hr : resolve d fuel e = some r) (hn : ∀ p, r ≠ .replica p) : attrLength d fuel e = some (lengthOf r) := by
  unfold attrLength
  rw [hr, Option.map_some]
  cases r with
  | replica p => exact absurd rfl (hn p)
  | _ => simp [Row.length, rowOf, Row.ownF, Row.parentF, lengthOf]

/-- Angle of the whole magnet. -/
def magAngle (m : Mag) : ℝ := m.hxl + m.h * m.length

noncomputable def angleOf (d : Dict) (e : El) : ℝ := (attrAngle d 0 e).getD 0

/-- **C123, angle.**  The angles reported for the slices, with the two edges, add up to the angle of the magnet; with a straight body it is all at the edges. -/
theorem C123_angle (d : Dict) (p : Mag) (hs : p.straightBody = true → p.kind = .rbend ∧ p.hxl = 0) (ws : List ℝ) (hsum : ws.sum = 1) (sk : SliceKind)
    (hk : sk = .thin ∨ sk = .thick) (we : ℝ) :
    angleOf d (.slice .entry p we) + (ws.map fun w => angleOf d (.slice sk p w)).sum + angleOf d (.slice .exit p we) = magAngle p
    ∧ angleOf d (.mag p) = magAngle p := by
  have hmag : angleOf d (.mag p) = magAngle p := by
    simp [angleOf, attrAngle, resolve, Row.angle, rowOf, Row.angleBody, Row.ownF, Row.parentF, magAngle]
  refine ⟨?_, hmag⟩
  rcases hb : p.straightBody with _ | _
  · have e1 : ∀ k, angleOf d (.slice k p we) = (p.hxl * we + p.h * p.length * we) * inheritStrengths (.slice k p we) := by
      intro k; simp [angleOf, attrAngle, resolve, Row.angle, rowOf, Row.angleBody, Row.ownF, Row.parentF, hb]
    have e2 : ∀ w, angleOf d (.slice sk p w) = w * magAngle p := by
      intro w
      rcases hk with rfl | rfl <;>
        simp [angleOf, attrAngle, resolve, Row.angle, rowOf, Row.angleBody, Row.ownF, Row.parentF, hb, inheritStrengths, magAngle] <;> ring
    rw [e1, e1]
    simp only [e2, inheritStrengths, mul_zero, zero_add, add_zero]
    rw [List.sum_map_mul_right, List.map_id', hsum, one_mul]
  · obtain ⟨h1, h2⟩ := hs hb
    have e2 : ∀ w, angleOf d (.slice sk p w) = 0 := by
      intro w
      rcases hk with rfl | rfl <;>
        simp [angleOf, attrAngle, resolve, Row.angle, rowOf, hb, className, h1]
    have e3 : angleOf d (.slice .entry p we) = 0.5 * (p.h * p.length - p.rbendAngleDiff) := by
      simp [angleOf, attrAngle, resolve, Row.angle, rowOf, hb, className, h1, Row.parentF]
    have e4 : angleOf d (.slice .exit p we) = 0.5 * (p.h * p.length + p.rbendAngleDiff) := by
      simp [angleOf, attrAngle, resolve, Row.angle, rowOf, hb, className, h1, Row.parentF]
    simp only [e2, e3, e4, magAngle, h2]
    simp
    ring

example : ∃ (p : Mag), WF p ∧ p.kind = .quad ∧ totalKl p false 1 = 2 := ⟨quad, quad_wf, rfl, by norm_num [totalKl, quad, entry]⟩

end Verif.Attr
