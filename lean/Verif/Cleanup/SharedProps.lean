import Verif.Cleanup.MultProps
import Mathlib.Tactic.NormNum

/-!
# C42: other lines and the drift cache; where the clean-up changes the physics
-/

namespace Verif.Cleanup

open Frames Magnets

noncomputable section

/-! ## Other lines of the environment -/

/-- Merging drifts in one line, whether or not it raises, changes the tracking of no other line none of whose elements is (or is a slice
or replica of) a drift of the first line which is not kept. -/
theorem C42_other_partial (ue : Bool) (k : ℕ) (keep : List String) (d : Elements) (names other : List String)
    (h : ∀ n ∈ other, ∀ r ∈ reads d k n, r ∈ names → PlainDrift d r → r ∈ keep) (p : Part) :
    trackLine ue (mergeDrifts k keep d names).1 k other p = trackLine ue d k other p := by
  obtain ⟨h1, h2, _⟩ := C41_merge_drifts_names k keep d names (d' := (mergeDrifts k keep d names).1)
    (names' := (mergeDrifts k keep d names).2.1) (ok := (mergeDrifts k keep d names).2.2) rfl
  apply trackLine_congr
  intro n hn r hr
  by_contra hc
  obtain ⟨h3, h4⟩ := h2 r hc
  rcases h1 r with h5 | ⟨dm, l, _, h5, _⟩
  · exact hc h5
  · exact h4 (h n hn r hr h3 ⟨dm, l, h5⟩)

/-- The part of the environment that the drifts for gaps use. -/
structure Env where
  elements : Elements
  /-- `_drift_cache` -/
  cache : ℝ → Option String

open Classical in
/-- `Environment._get_drift`; environment.py:1041-1047.  `fresh`: the name that `_get_a_drift_name` finds. -/
def Env.getDrift (e : Env) (l : ℝ) (fresh : String) : String × Env :=
  match e.cache l with
  | some n => (n, e)
  | none => (fresh, ⟨put e.elements fresh (.drift .adaptive l), fun x => if x = l then some fresh else e.cache x⟩)

/-- What can happen: a drift for a gap is requested, or the drifts of a line are merged. -/
inductive EnvOp
  | gap (l : ℝ) (fresh : String)
  | merge (keep names : List String)

def Env.step (k : ℕ) (e : Env) : EnvOp → Env
  | .gap l fresh => (e.getDrift l fresh).2
  | .merge keep names => { e with elements := (mergeDrifts k keep e.elements names).1 }

/-- The cached drifts have the lengths under which they are cached. -/
def Env.CacheOk (e : Env) : Prop := ∀ l n, e.cache l = some n → e.elements n = some (.drift .adaptive l)

/-- The histories in which the new names are new, and the lines whose drifts are merged contain no drift of the cache and no drift of
which the line `other` makes use, unless it is kept. -/
def Careful (k : ℕ) (other : List String) : Env → List EnvOp → Prop
  | _, [] => True
  | e, .gap l fresh :: ops => e.elements fresh = none ∧ Careful k other (e.step k (.gap l fresh)) ops
  | e, .merge keep names :: ops =>
    (∀ n ∈ names, n ∉ keep → ∀ l, e.cache l ≠ some n) ∧
    (∀ n ∈ other, ∀ r ∈ reads e.elements k n, r ∈ names → PlainDrift e.elements r → r ∈ keep) ∧
    Careful k other (e.step k (.merge keep names)) ops

theorem SameShape.closed {d d' : Elements} (h : SameShape d d') {k : ℕ} {names : List String} (hc : Closed d k names) : Closed d' k names := by
  intro n hn r hr
  rw [h.reads] at hr
  have := hc n hn r hr
  rcases h r with h1 | ⟨dm, l, l', _, h2⟩
  · rw [h1]
    exact this
  · rw [h2]
    simp

/-- After any such history drifts for gaps have the requested length and the other line tracks as before. -/
theorem C42_history_partial (ue : Bool) (k : ℕ) (other : List String) (ops : List EnvOp) (e : Env) (hok : e.CacheOk)
    (hcl : Closed e.elements k other) (hc : Careful k other e ops) :
    (∀ p, trackLine ue (ops.foldl (Env.step k) e).elements k other p = trackLine ue e.elements k other p) ∧
    (ops.foldl (Env.step k) e).CacheOk ∧
    ∀ l fresh, let r := (ops.foldl (Env.step k) e).getDrift l fresh
      r.2.elements r.1 = some (.drift .adaptive l) := by
  induction ops generalizing e with
  | nil =>
    refine ⟨fun _ => rfl, hok, ?_⟩
    intro l fresh
    simp only [List.foldl_nil, Env.getDrift]
    cases h : e.cache l with
    | some n => exact hok l n h
    | none => simp [put]
  | cons op ops ih =>
    rw [List.foldl_cons]
    cases op with
    | gap l fresh =>
      obtain ⟨hf, hc⟩ := hc
      have hex : Extends e.elements (e.step k (.gap l fresh)).elements := by
        simp only [Env.step, Env.getDrift]
        split
        · exact fun _ _ => rfl
        · exact put_extends hf _
      have hok' : (e.step k (.gap l fresh)).CacheOk := by
        simp only [Env.step, Env.getDrift]
        split
        · exact hok
        · intro x n hx
          simp only at hx ⊢
          by_cases c : x = l
          · rw [if_pos c] at hx
            simp only [Option.some.injEq] at hx
            simp [put, ← hx, c]
          · rw [if_neg c] at hx
            have := hok x n hx
            have hne : n ≠ fresh := by
              intro e'
              rw [e', hf] at this
              cases this
            simp [put, hne, this]
      obtain ⟨h1, h2⟩ := ih _ hok' (hex.closed hcl) hc
      exact ⟨fun p => by rw [h1, hex.track hcl], h2⟩
    | merge keep names =>
      obtain ⟨hn, ho, hc⟩ := hc
      obtain ⟨s1, s2, _⟩ := C41_merge_drifts_names k keep e.elements names (d' := (mergeDrifts k keep e.elements names).1)
        (names' := (mergeDrifts k keep e.elements names).2.1) (ok := (mergeDrifts k keep e.elements names).2.2) rfl
      have hok' : (e.step k (.merge keep names)).CacheOk := by
        intro l n hl
        have := hok l n hl
        simp only [Env.step]
        by_contra hcon
        rw [← this] at hcon
        obtain ⟨h3, h4⟩ := s2 n hcon
        exact hn n h3 h4 l hl
      obtain ⟨h1, h2⟩ := ih _ hok' (s1.closed hcl) hc
      exact ⟨fun p => by rw [h1]; exact C42_other_partial ue k keep e.elements names other ho p, h2⟩

/-! ## Where the other conditions fail -/

/-- A particle on the reference trajectory, up to `px`. -/
def probe (x px : ℝ) : Part :=
  { x := x, px := px, y := 0, py := 0, zeta := 0, delta := 0, ptau := 0, s := 0, chi := 1, rvv := 1, rpp := 1, beta0 := 1, spinX := 0, spinY := 0, spinZ := 0 }

/-- Two drifts of length one. -/
def twoDrifts : Elements := fun n => if n = "a" ∨ n = "b" then some (.drift .adaptive 1) else none

theorem merge_two (k : ℕ) : mergeDrifts k [] twoDrifts ["a", "b"] = (put twoDrifts "a" (.drift .adaptive 2), ["a"], true) := by
  have ha : find twoDrifts k "a" = some (.drift .adaptive 1) := find_self (by simp [twoDrifts]) (by simp) k
  have hb : find twoDrifts k "b" = some (.drift .adaptive 1) := find_self (by simp [twoDrifts]) (by simp) k
  simp [mergeDrifts, mergeDriftLoop, isDriftEl, ha, hb, ownLen, twoDrifts, El.length, setLen]
  norm_num

/-- The line which is merged and the other one share the drift `a`: the other line is longer afterwards. -/
theorem C42_other_violated (ue : Bool) (k : ℕ) :
    trackLine ue (mergeDrifts k [] twoDrifts ["a", "b"]).1 k ["a"] (probe 0 0) ≠ trackLine ue twoDrifts k ["a"] (probe 0 0) := by
  rw [merge_two]
  have ha : find twoDrifts k "a" = some (.drift .adaptive 1) := find_self (by simp [twoDrifts]) (by simp) k
  have ha' : find (put twoDrifts "a" (.drift .adaptive 2)) k "a" = some (.drift .adaptive 2) := find_self (by simp [put]) (by simp) k
  simp only [trackLine, trackEl, ha, ha', Option.bind_some, ne_eq, Option.some.injEq]
  intro h
  have := congrArg Part.s h
  cases ue <;> simp [driftElement, driftExact, driftExpanded, probe] at this

/-- The drifts of a line come from gaps of lengths one and two; after the merge a gap of length one gets a drift of length three. -/
theorem C42_cache_violated (k : ℕ) :
    let ops : List EnvOp := [.gap 1 "||drift_1", .gap 2 "||drift_2", .merge [] ["||drift_1", "||drift_2"]]
    let e := ops.foldl (Env.step k) ⟨fun _ => none, fun _ => none⟩
    let r := e.getDrift 1 "||drift_3"
    r.2.elements r.1 = some (.drift .adaptive 3) := by
  set d : Elements := put (put (fun _ => none) "||drift_1" (.drift .adaptive 1)) "||drift_2" (.drift .adaptive 2) with hd
  have h1 : d "||drift_1" = some (.drift .adaptive 1) := by simp [d, put]
  have h2 : d "||drift_2" = some (.drift .adaptive 2) := by simp [d, put]
  have hm : mergeDrifts k [] d ["||drift_1", "||drift_2"] = (put d "||drift_1" (.drift .adaptive 3), ["||drift_1"], true) := by
    simp [mergeDrifts, mergeDriftLoop, isDriftEl, find_self h1 (by simp) k, find_self h2 (by simp) k, ownLen, h1, h2, El.length, setLen]
    norm_num
  have hc : (if (2 : ℝ) = 1 then some "||drift_1" else (none : Option String)) = none := by norm_num
  simp only [List.foldl_cons, List.foldl_nil, Env.step, Env.getDrift, hc, ← hd, hm]
  simp [put]

/-- An exact drift followed by an expanded one: the merged drift is exact throughout. -/
theorem C41_mixed_models_violated (k : ℕ) :
    let d : Elements := put (put (fun _ => none) "a" (.drift .exact 1)) "b" (.drift .expanded 1)
    let r := mergeDrifts k [] d ["a", "b"]
    r.2.2 = true ∧ trackLine false r.1 k r.2.1 (probe 0 (3 / 5)) ≠ trackLine false d k ["a", "b"] (probe 0 (3 / 5)) := by
  intro d
  have h1 : d "a" = some (.drift .exact 1) := by simp [d, put]
  have h2 : d "b" = some (.drift .expanded 1) := by simp [d, put]
  have hm : mergeDrifts k [] d ["a", "b"] = (put d "a" (.drift .exact 2), ["a"], true) := by
    simp [mergeDrifts, mergeDriftLoop, isDriftEl, find_self h1 (by simp) k, find_self h2 (by simp) k, ownLen, h1, h2, El.length, setLen]
    norm_num
  intro r
  have hr : r = (put d "a" (.drift .exact 2), ["a"], true) := hm
  rw [hr]
  refine ⟨rfl, ?_⟩
  have h3 : find (put d "a" (.drift .exact 2)) k "a" = some (.drift .exact 2) := find_self (by simp [put]) (by simp) k
  simp only [trackLine, trackEl, find_self h1 (by simp) k, find_self h2 (by simp) k, h3, Option.bind_some, ne_eq, Option.some.injEq]
  intro h
  have h4 := congrArg Part.x h
  have hs : Real.sqrt (4 / 5 * (4 / 5)) = 4 / 5 := Real.sqrt_mul_self (by norm_num)
  have hs' : Real.sqrt (16 / 25) = 4 / 5 := by rw [← hs]; norm_num
  simp [driftElement, driftExact, driftExpanded, probe] at h4
  norm_num [hs'] at h4

/-- A replica of a merged drift gets longer. -/
theorem C41_replica_violated (ue : Bool) :
    let d : Elements := put (put twoDrifts "m" .marker) "r" (.replica "a")
    let r := mergeDrifts 1 [] d ["a", "b", "m", "r"]
    r.2.2 = true ∧ trackLine ue r.1 1 r.2.1 (probe 0 0) ≠ trackLine ue d 1 ["a", "b", "m", "r"] (probe 0 0) := by
  intro d
  have h1 : d "a" = some (.drift .adaptive 1) := by simp [d, put, twoDrifts]
  have h2 : d "b" = some (.drift .adaptive 1) := by simp [d, put, twoDrifts]
  have h3 : d "m" = some .marker := by simp [d, put]
  have h4 : d "r" = some (.replica "a") := by simp [d, put]
  set d' := put d "a" (.drift .adaptive 2) with hd'
  have g1 : d' "a" = some (.drift .adaptive 2) := by simp [d', put]
  have g3 : d' "m" = some .marker := by simp [d', put, h3]
  have g4 : d' "r" = some (.replica "a") := by simp [d', put, h4]
  have hm : mergeDrifts 1 [] d ["a", "b", "m", "r"] = (d', ["a", "m", "r"], true) := by
    have e : setLen d "a" (1 + 1) = d' := by
      rw [setLen_plain h1, hd']
      norm_num
    simp [mergeDrifts, mergeDriftLoop, isDriftEl, find, ownLen, h1, h2, El.length, e, g1, g3, g4]
  intro r
  have hr : r = (d', ["a", "m", "r"], true) := hm
  rw [hr]
  refine ⟨rfl, ?_⟩
  simp only [trackLine, trackEl, find, h1, h2, h3, h4, g1, g3, g4, Option.bind_some, ne_eq, Option.some.injEq]
  intro h
  have := congrArg Part.s h
  cases ue <;> norm_num [driftElement, driftExact, driftExpanded, probe] at this

/-- A replica which has no length of its own makes the method raise half-way: the names are as before, but the first drift already
has the length of two. -/
theorem C41_half_merged_violated (ue : Bool) :
    let d : Elements := put (put twoDrifts "c" (.drift .adaptive 1)) "r" (.replica "c")
    let r := mergeDrifts 1 [] d ["a", "b", "r"]
    r.2.2 = false ∧ r.2.1 = ["a", "b", "r"] ∧
    trackLine ue r.1 1 r.2.1 (probe 0 0) ≠ trackLine ue d 1 ["a", "b", "r"] (probe 0 0) := by
  intro d
  have h1 : d "a" = some (.drift .adaptive 1) := by simp [d, put, twoDrifts]
  have h2 : d "b" = some (.drift .adaptive 1) := by simp [d, put, twoDrifts]
  have h3 : d "c" = some (.drift .adaptive 1) := by simp [d, put]
  have h4 : d "r" = some (.replica "c") := by simp [d, put]
  set d' := put d "a" (.drift .adaptive 2) with hd'
  have g1 : d' "a" = some (.drift .adaptive 2) := by simp [d', put]
  have g2 : d' "b" = some (.drift .adaptive 1) := by simp [d', put, h2]
  have g3 : d' "c" = some (.drift .adaptive 1) := by simp [d', put, h3]
  have g4 : d' "r" = some (.replica "c") := by simp [d', put, h4]
  have hm : mergeDrifts 1 [] d ["a", "b", "r"] = (d', ["a", "b", "r"], false) := by
    have e : setLen d "a" (1 + 1) = d' := by
      rw [setLen_plain h1, hd']
      norm_num
    simp [mergeDrifts, mergeDriftLoop, isDriftEl, find, ownLen, h1, h2, El.length, e, g1, g3, g4]
  intro r
  have hr : r = (d', ["a", "b", "r"], false) := hm
  rw [hr]
  refine ⟨rfl, rfl, ?_⟩
  simp only [trackLine, trackEl, find, h1, h2, h3, h4, g1, g2, g3, g4, Option.bind_some, ne_eq, Option.some.injEq]
  intro h
  have := congrArg Part.s h
  cases ue <;> norm_num [driftElement, driftExact, driftExpanded, probe] at this

/-- A thin quadrupole. -/
def quad (k1 : ℝ) (mis : Mis) : Mult :=
  { order := 1, knl := fun n => if n = 1 then k1 else 0, ksl := fun _ => 0, orderRel := 0, knlRel := fun _ => 0, kslRel := fun _ => 0
    mainOrder := 0, mainSkew := false, thick := false, length := 0, hxl := 0, numKicks := 0, model := 0, integrator := 0, mis := mis }

theorem quad_simple (k1 : ℝ) (m : Mis) (h : m.phi = 0 ∧ m.theta = 0 ∧ m.dx = 0 ∧ m.dy = 0 ∧ m.ds = 0 ∧ |m.tilt| < 1e-12) :
    isSimpleQuad (quad k1 m) := by
  obtain ⟨h1, h2, h3, h4, h5, h6⟩ := h
  refine ⟨rfl, ?_, ?_, ?_, rfl, by simp [Mult.rotated, quad, h1, h2], h3, h4, h5, h6⟩
  · intro i hi _
    have : ¬ i = 1 := by omega
    simp [Mult.totalN, quad, this]
  · simp [Mult.totalN, quad]
  · intro i _
    by_cases c : i ≤ 1 <;> simp [Mult.totalS, quad, c]

theorem quad_field (k1 : ℝ) (m : Mis) (x y : ℝ) : (quad k1 m).field x y = (k1 : ℂ) * ⟨x, y⟩ := by
  have h := simple_quad (quad_simple k1 (noMis 0) (by norm_num [noMis])) rfl rfl
  have hf : (quad k1 m).field x y = (quad k1 (noMis 0)).field x y := rfl
  have h2 := h { probe 0 0 with x := x, y := y }
  rw [thin_track (by simp [Mult.Aligned, quad, noMis]) rfl rfl] at h2
  have ht : (quad k1 (noMis 0)).totalN 1 = k1 := by simp [Mult.totalN, quad]
  rw [ht] at h2
  rw [hf]
  have h3 := congrArg Part.px h2
  have h4 := congrArg Part.py h2
  simp [simpleQuad, fieldKick, probe] at h3 h4
  apply Complex.ext <;> simp [h3, h4]

/-- Two quadrupoles shifted by one: merging forgets the shifts. -/
theorem C41_shifted_multipoles_violated (ue : Bool) (k : ℕ) :
    let m : Mis := ⟨1, 0, 0, 0, 0, 0, 0, 0, 0⟩
    let d : Elements := put (put (fun _ => none) "a" (.mult (quad 1 m))) "b" (.mult (quad 1 m))
    let r := mergeMults (fun _ => false) [] d ["a", "b"]
    r.2.2 = true ∧ trackLine ue r.1 k r.2.1 (probe 0 0) ≠ trackLine ue d k ["a", "b"] (probe 0 0) := by
  intro m d
  have h1 : d "a" = some (.mult (quad 1 m)) := by simp [d, put]
  have h2 : d "b" = some (.mult (quad 1 m)) := by simp [d, put]
  have hmm : mergeable [] "a" "b" (quad 1 m) (quad 1 m) = true := by
    rw [mergeable_iff]
    simp [quad, m]
  have hfree : d ("a" ++ "_" ++ "b") = none := by
    have e : ("a" ++ "_" ++ "b" : String) = "a_b" := by decide
    rw [e]
    simp [d, put]
  have hm : mergeMults (fun _ => false) [] d ["a", "b"] =
      (put d ("a" ++ "_" ++ "b") (.mult (mergedMult (quad 1 m) (quad 1 m))), ["a" ++ "_" ++ "b"], true) := by
    simp only [mergeMults, mergeMultLoop, multAt_eq.2 h1, multAt_eq.2 h2, hmm, hfree]
    simp
  intro r
  have hr : r = _ := hm
  rw [hr]
  refine ⟨rfl, ?_⟩
  generalize "a" ++ "_" ++ "b" = new
  have h3 : find (put d new (.mult (mergedMult (quad 1 m) (quad 1 m)))) k new = some (.mult (mergedMult (quad 1 m) (quad 1 m))) :=
    find_self (by simp [put]) (by simp) k
  simp only [trackLine, trackEl, find_self h1 (by simp) k, find_self h2 (by simp) k, h3, Option.bind_some, ne_eq, Option.some.injEq]
  have ht : ∀ px, (quad 1 m).track (probe 0 px) = probe 0 (px + 1) := by
    intro px
    unfold Mult.track trackPlaced
    rw [if_pos (by simp [active, quad, m])]
    simp only [Bool.not_false, if_true, thin_body (quad 1 m) rfl rfl, quad_field]
    unfold misalignEntry misalignExit
    simp only [entryStraight, exitStraight, sliceMis, quad, m, Bool.not_false, if_true]
    simp only [Real.sin_zero, Real.cos_zero, mul_zero, sub_zero, mul_one, sub_self, zero_sub, xRotate, yRotate, sRotate, sShift, neg_zero, ne_eq,
      not_true_eq_false, if_false]
    ext <;> simp [xyShift, fieldKick, probe]
  rw [ht, ht, thin_track (merged_aligned _ _) rfl rfl, merged_field, quad_field]
  intro h
  have := congrArg Part.px h
  simp [fieldKick, probe] at this
  norm_num at this

/-- A second line with the same multipoles cannot be merged: the name of the merged multipole is taken. -/
theorem C41_second_line_violated :
    let d : Elements := put (put (fun _ => none) "a" (.mult (quad 1 (noMis 0)))) "b" (.mult (quad 1 (noMis 0)))
    let r := mergeMults (fun _ => false) [] d ["a", "b"]
    r.2.2 = true ∧ (mergeMults (fun _ => false) [] r.1 ["a", "b"]).2.2 = false := by
  intro d
  have h1 : d "a" = some (.mult (quad 1 (noMis 0))) := by simp [d, put]
  have h2 : d "b" = some (.mult (quad 1 (noMis 0))) := by simp [d, put]
  have hmm : mergeable [] "a" "b" (quad 1 (noMis 0)) (quad 1 (noMis 0)) = true := by
    rw [mergeable_iff]
    simp [quad, noMis]
  have e : ("a" ++ "_" ++ "b" : String) = "a_b" := by decide
  have hfree : d "a_b" = none := by simp [d, put]
  have hm : mergeMults (fun _ => false) [] d ["a", "b"] =
      (put d "a_b" (.mult (mergedMult (quad 1 (noMis 0)) (quad 1 (noMis 0)))), ["a_b"], true) := by
    simp only [mergeMults, mergeMultLoop, multAt_eq.2 h1, multAt_eq.2 h2, hmm, e, hfree]
    simp
  intro r
  have hr : r = _ := hm
  rw [hr]
  refine ⟨rfl, ?_⟩
  set d' := put d "a_b" (.mult (mergedMult (quad 1 (noMis 0)) (quad 1 (noMis 0)))) with hd'
  have g1 : d' "a" = some (.mult (quad 1 (noMis 0))) := by simp [d', put, h1]
  have g2 : d' "b" = some (.mult (quad 1 (noMis 0))) := by simp [d', put, h2]
  have g3 : d' "a_b" = some (.mult (mergedMult (quad 1 (noMis 0)) (quad 1 (noMis 0)))) := by simp [d', put]
  simp [mergeMults, mergeMultLoop, multAt_eq.2 g1, multAt_eq.2 g2, hmm, g3]

/-- A quadrupole rotated with `rot_s_rad_no_frame` by a quarter turn is replaced by one which is not rotated. -/
theorem C64_no_frame_violated (ue : Bool) (k : ℕ) :
    let m : Mis := ⟨0, 0, 0, 0, 0, Real.pi / 2, 0, 0, 0⟩
    let d : Elements := fun n => if n = "q" then some (.mult (quad 1 m)) else none
    trackLine ue (useSimpleQuads d) k ["q"] (probe 1 0) ≠ trackLine ue d k ["q"] (probe 1 0) := by
  intro m d
  have h1 : d "q" = some (.mult (quad 1 m)) := by simp [d]
  have hq : isSimpleQuad (quad 1 m) := quad_simple 1 m (by norm_num [m])
  have h2 : useSimpleQuads d "q" = some (.simpleQuad ((quad 1 m).totalN 1)) := by simp [useSimpleQuads, h1, hq]
  have ht : (quad 1 m).totalN 1 = 1 := by simp [Mult.totalN, quad]
  rw [ht] at h2
  simp only [trackLine, trackEl, find_self h1 (by simp) k, find_self h2 (by simp) k, Option.bind_some, ne_eq, Option.some.injEq]
  unfold Mult.track trackPlaced
  have hpi : Real.pi / 2 ≠ 0 := by positivity
  rw [if_pos (by simp [active, quad, m, Real.pi_ne_zero])]
  simp only [Bool.not_false, if_true, thin_body (quad 1 m) rfl rfl, quad_field]
  unfold misalignEntry misalignExit
  simp only [entryStraight, exitStraight, sliceMis, quad, m, Bool.not_false, if_true]
  simp only [Real.sin_zero, Real.cos_zero, mul_zero, sub_zero, mul_one, sub_self, zero_sub, xRotate, yRotate, sShift, neg_zero, ne_eq,
    not_true_eq_false, if_false]
  intro h
  have h3 := congrArg Part.px h
  simp [sRotate, sRot, xyShift, fieldKick, probe, simpleQuad, hpi] at h3
  norm_num at h3

/-- A thin bend with curvature, as `use_simple_bends` accepts it. -/
def dipole : Mult :=
  { order := 0, knl := fun n => if n = 0 then 1 else 0, ksl := fun _ => 0, orderRel := 0, knlRel := fun _ => 0, kslRel := fun _ => 0
    mainOrder := 0, mainSkew := false, thick := false, length := 1, hxl := 1, numKicks := 0, model := 0, integrator := 0, mis := noMis 1 }

theorem dipole_simple : isSimpleDipole dipole := by
  refine ⟨rfl, ?_, ?_, by simp [Mult.rotated, dipole, noMis], rfl, rfl, rfl, by norm_num [dipole, noMis]⟩
  · intro i hi _
    have : ¬ i = 0 := by omega
    simp [Mult.totalN, dipole, this]
  · intro i _
    simp [Mult.totalS, dipole]

/-- A particle with `chi` two: the simple bend changes `zeta` twice as much as the multipole which it replaces. -/
theorem C64_chi_violated (ue : Bool) (k : ℕ) :
    let d : Elements := fun n => if n = "b" then some (.mult dipole) else none
    trackLine ue (useSimpleBends d) k ["b"] { probe 1 0 with chi := 2 } ≠ trackLine ue d k ["b"] { probe 1 0 with chi := 2 } := by
  intro d
  have h1 : d "b" = some (.mult dipole) := by simp [d]
  have h2 : useSimpleBends d "b" = some (.simpleBend (dipole.totalN 0) 1 1) := by
    simp [useSimpleBends, h1, dipole_simple]
    exact ⟨rfl, rfl⟩
  simp only [trackLine, trackEl, find_self h1 (by simp) k, find_self h2 (by simp) k, Option.bind_some, ne_eq, Option.some.injEq]
  rw [aligned_track (by simp [Mult.Aligned, dipole, noMis]), thin_kick dipole rfl, C58_kick]
  intro h
  have h3 := congrArg Part.zeta h
  simp [simpleBend, forceZ, kickArgs, probe, dipole] at h3

/-! ## The hypotheses are met -/

/-- A line with two drifts, a quadrupole and a marker. -/
def sample : Elements := fun n =>
  if n = "a" ∨ n = "b" then some (.drift .adaptive 1)
  else if n = "q" ∨ n = "q2" then some (.mult (quad 1 (noMis 0))) else if n = "m" then some .marker else none

theorem sample_reads (k : ℕ) (n : String) : reads sample k n = [n] := by
  have h : ∀ n, (∀ m, sample n ≠ some (.replica m)) ∧ ∀ dm p w, sample n ≠ some (.driftSlice dm p w) := by
    intro n
    unfold sample
    split_ifs <;> simp
  cases k with
  | zero =>
    unfold reads
    split
    · rename_i e
      exact absurd e ((h n).2 _ _ _)
    · rfl
  | succ k =>
    unfold reads
    split
    · rename_i e
      exact absurd e ((h n).1 _)
    · rename_i e
      exact absurd e ((h n).2 _ _ _)
    · rfl

example (ue : Bool) (k : ℕ) (p : Part) : let r := mergeDrifts k ["m"] sample ["a", "b", "m", "q", "q2"]
    r.2.2 = true ∧ trackLine ue r.1 k r.2.1 p = trackLine ue sample k ["a", "b", "m", "q", "q2"] p := by
  intro r
  have hok : r.2.2 = true := by
    apply C41_merge_drifts_succeeds
    intro n hn hd
    simp at hn
    rcases hn with rfl | rfl | rfl | rfl | rfl
    · exact ⟨.adaptive, 1, by simp [sample]⟩
    · exact ⟨.adaptive, 1, by simp [sample]⟩
    · have e : sample "m" = some .marker := by simp [sample]
      simp [isDriftEl, find_self e (by simp) k] at hd
    · have e : sample "q" = some (.mult (quad 1 (noMis 0))) := by simp [sample]
      simp [isDriftEl, find_self e (by simp) k] at hd
    · have e : sample "q2" = some (.mult (quad 1 (noMis 0))) := by simp [sample]
      simp [isDriftEl, find_self e (by simp) k] at hd
  refine ⟨hok, ?_⟩
  apply C41_merge_drifts_partial ue k ["m"] sample _ (by decide) _ _ (d' := r.1) (names' := r.2.1)
  · show r = (r.1, r.2.1, true)
    rw [← hok]
  · intro n _ m hm _ _
    rw [sample_reads] at hm
    simpa using hm
  · unfold Uniform
    simp [List.isChain_cons_cons, sample, SameModel]
    rintro _ _ _ _ rfl _ rfl _ _ _
    rfl

example (ue : Bool) (k : ℕ) (p : Part) : let r := mergeMults (fun _ => false) [] sample ["a", "q", "q2"]
    trackLine ue r.1 k r.2.1 p = trackLine ue sample k ["a", "q", "q2"] p := by
  intro r
  refine (C41_merge_multipoles_partial ue k (fun _ => false) [] sample ["a", "q", "q2"] ?_ ?_ (d' := r.1) (names' := r.2.1) (ok := r.2.2) rfl).2.2.2.1 p
  · intro n hn m hm
    rw [sample_reads] at hm
    simp at hm hn
    rcases hn with rfl | rfl | rfl <;> simp [hm, sample]
  · intro n hn m hm _ _ _
    simp at hn
    rcases hn with rfl | rfl | rfl <;> simp [sample] at hm
    · simp [← hm, Mult.Aligned, quad, noMis]
    · simp [← hm, Mult.Aligned, quad, noMis]

example (ue : Bool) (k : ℕ) (p : Part) : trackLine ue (useSimpleQuads sample) k ["a", "q"] p = trackLine ue sample k ["a", "q"] p := by
  apply C64_quadrupoles_partial
  · intro n m h _
    unfold sample at h
    split_ifs at h <;> simp at h
    subst h
    exact ⟨rfl, rfl⟩
  · intro n dm par w h
    unfold sample at h
    split_ifs at h <;> simp at h

example (k : ℕ) : Careful k ["q"] ⟨sample, fun _ => none⟩ [.merge [] ["a", "b"], .gap 1 "||drift_1", .gap 2 "||drift_2"] := by
  refine ⟨by simp, ?_, ?_, ?_, trivial⟩
  · intro n hn r hr hr' _
    simp at hn
    subst hn
    rw [sample_reads] at hr
    simp at hr
    subst hr
    simp at hr'
  · obtain ⟨_, h2, _⟩ := C41_merge_drifts_names k [] sample ["a", "b"] (d' := (mergeDrifts k [] sample ["a", "b"]).1) rfl
    have hs : sample "||drift_1" = none := by simp [sample]
    by_contra hc
    have := (h2 "||drift_1" (by rw [hs]; exact hc)).1
    simp at this
  · obtain ⟨_, h2, _⟩ := C41_merge_drifts_names k [] sample ["a", "b"] (d' := (mergeDrifts k [] sample ["a", "b"]).1) rfl
    have hs : sample "||drift_2" = none := by simp [sample]
    have h3 : (mergeDrifts k [] sample ["a", "b"]).1 "||drift_2" = none := by
      by_contra hc
      have := (h2 "||drift_2" (by rw [hs]; exact hc)).1
      simp at this
    simp only [Env.step, Env.getDrift]
    simp [put, h3]

end

end Verif.Cleanup
