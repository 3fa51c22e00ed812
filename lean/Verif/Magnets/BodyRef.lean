import Verif.Magnets.BodyField

/-!
# C62: the reference particle stays on the reference trajectory

`C62_bend`: in a magnet with `k0 = h`, without other dipole components, whatever the other strengths, and with a model which follows
the curvature exactly.  `C62_multipole`: in a thin multipole with `hxl` equal to the integrated dipole strength.  `C62_rbend`: in a
rectangular bend with straight body; in between it is off the axis of the magnet, rotations, shifts and the corrections of `s` and
`zeta` at the ends must fit together.
-/

namespace Verif.Magnets

open Frames

noncomputable section

/-- The reference particle, at any place and time. -/
structure Reference (p : Part) : Prop where
  x : p.x = 0
  px : p.px = 0
  y : p.y = 0
  py : p.py = 0
  delta : p.delta = 0
  ptau : p.ptau = 0
  rpp : p.rpp = 1
  rvv : p.rvv = 1
  chi : p.chi = 1

theorem Reference.later {p : Part} (h : Reference p) (a b : ℝ) : Reference (later a b p) :=
  ⟨h.x, h.px, h.y, h.py, h.delta, h.ptau, h.rpp, h.rvv, h.chi⟩

/-! ## Drift parts -/

theorem ref_expanded {p : Part} (h : Reference p) (l : ℝ) : driftExpanded p l = later l 0 p := by
  ext <;> simp [driftExpanded, later, h.px, h.py, h.rpp, h.rvv]

theorem ref_exact {p : Part} (h : Reference p) (l : ℝ) : driftExact p l = later l 0 p := by
  ext <;> simp [driftExact, later, h.px, h.py, h.delta, h.rvv]

theorem ref_combined {p : Part} (h : Reference p) (l k1 c : ℝ) : combined l c k1 c p = later l 0 p := by
  ext
  · simp [combined, later, h.x, h.px, h.delta, h.chi]
  · simp [combined, later, h.x, h.px, h.delta, h.chi]
  · simp [combined, later, h.y, h.py]
  · simp [combined, later, h.y, h.py]
  · simp [combined, later, h.x, h.px, h.y, h.py, h.delta, h.rvv, h.chi, pathQuad]
  · simp [combined, later]
  all_goals rfl

theorem ref_curved {p : Part} (h : Reference p) (l c : ℝ) (hc : ¬ |c| < 1e-8) : curvedBend l c c p = later l 0 p := by
  have c0 : c ≠ 0 := by
    rintro rfl
    apply hc
    norm_num
  have z : atan2 0 1 = 0 := by
    unfold atan2
    rw [Complex.arg_eq_zero_iff]
    simp
  unfold curvedBend
  simp only [h.chi, mul_one, if_neg hc]
  ext
  · simp [later, h.x, h.px, h.py, h.delta, c0]
  · simp [later, h.x, h.px, h.py, h.delta, c0]
  · simp [later, h.py]
  · simp [later]
  · simp [later, h.x, h.px, h.py, h.delta, h.rvv, c0, z]
  · simp [later]
  all_goals simp [later, h.chi]

theorem ref_straight {p : Part} (h : Reference p) (l c : ℝ) (hc : |c| < 1e-8) : straightBend l c p = later l 0 p := by
  unfold straightBend
  simp only [h.chi, mul_one, if_pos hc]
  exact ref_exact h l

/-- The drift part leaves the reference particle on the reference trajectory. -/
def KeepsReference (d : DriftArgs) : Prop :=
  d.model = 0 ∨ d.model = 1 ∨ (d.model = 3 ∧ d.k0 = d.h) ∨ (d.model = 4 ∧ d.k0 = d.h ∧ 1e-8 ≤ |d.h|) ∨ (d.model = 5 ∧ |d.k0| < 1e-8)

theorem ref_drift {d : DriftArgs} (hd : KeepsReference d) {p : Part} (h : Reference p) (l : ℝ) : magnetDrift d l p = later l 0 p := by
  obtain c | c | ⟨c, c'⟩ | ⟨c, c', c''⟩ | ⟨c, c'⟩ := hd
  · rw [congrFun (md0 c p) l]
    exact ref_expanded h l
  · rw [congrFun (md1 c p) l]
    exact ref_exact h l
  · have hd : p.delta + 1 ≠ 0 := by rw [h.delta]; norm_num
    rw [congrFun (md3 c hd) l, c']
    exact ref_combined h l _ _
  · by_cases hl : l = 0
    · subst hl
      rw [later_zero]
      simp [magnetDrift]
    · simp only [magnetDrift, c, hl]
      norm_num
      rw [c']
      exact ref_curved h l _ (not_lt.2 c'')
  · rw [congrFun (md5 c p) l]
    exact ref_straight h l _ c'

/-! ## Kicks -/

/-- Nothing but `knl`, `ksl` could act on the axis. -/
structure NoDipole (m : Magnet) : Prop where
  knl : m.knl 0 = 0
  ksl : m.ksl 0 = 0
  knlRel : m.relRef * m.knlRel 0 = 0
  kslRel : m.relRef * m.kslRel 0 = 0
  k0s : m.k0s = 0
  hxl : m.hxl = 0

theorem field_axis (kn ks : ℕ → ℝ) (N : ℕ) : field kn ks N 0 0 = ⟨kn 0, ks 0⟩ := by
  unfold field
  have h0 : (⟨0, 0⟩ : ℂ) = 0 := rfl
  rw [Finset.sum_eq_single 0]
  · simp
  · intro n _ hn
    simp [h0, hn]
  · intro h
    simp at h

theorem field_axis_body (a : KickArgs) :
    bodyField a 0 0 = ⟨a.factor * a.knl 0 + a.factor * a.relRef * a.knlRel 0 + a.length * a.k0,
      a.factor * a.ksl 0 + a.factor * a.relRef * a.kslRel 0 + a.length * a.k0s⟩ := by
  unfold bodyField
  have h0 : (⟨0, 0⟩ : ℂ) = 0 := rfl
  rw [field_axis, field_axis, h0]
  apply Complex.ext <;> simp

theorem ref_kick (a : KickArgs) {p : Part} (h : Reference p)
    (hx : a.factor * a.knl 0 + a.factor * a.relRef * a.knlRel 0 + a.length * a.k0 = if a.rotFrame then a.h * a.length + a.hxl else 0)
    (hy : a.factor * a.ksl 0 + a.factor * a.relRef * a.kslRel 0 + a.length * a.k0s = 0) (w : ℝ) : magnetKick a w p = p := by
  have fx : forceX a p = 0 := by
    unfold forceX
    rw [h.x, h.y, field_axis_body]
    simp only
    rw [hx, h.chi, h.delta]
    by_cases c : a.rotFrame = true <;> simp [c]
  have fy : forceY a p = 0 := by
    unfold forceY
    rw [h.x, h.y, field_axis_body]
    simp only
    rw [hy]
    simp
  have fz : forceZ a p = 0 := by
    unfold forceZ
    rw [h.x]
    simp
  rw [C58_kick, fx, fy, fz]
  ext <;> simp

/-! ## The body -/

theorem ref_steps {d : DriftArgs} {k : KickArgs} (hd : KeepsReference d) (hk : ∀ w p, Reference p → magnetKick k w p = p) (l : ℝ)
    (L : List Step) {p : Part} (h : Reference p) : runSteps d k l L p = later ((L.map Step.length).sum * l) 0 p := by
  induction L generalizing p with
  | nil => simp [runSteps, later_zero]
  | cons o rest ih =>
    have e : runSteps d k l (o :: rest) p = runSteps d k l rest (o.run d k l p) := rfl
    rw [e]
    cases o with
    | drift r =>
      simp only [Step.run, ref_drift hd h]
      rw [ih (h.later _ _), later_later]
      simp only [List.map_cons, List.sum_cons, Step.length]
      congr 1
      · ring
      · ring
    | kick w =>
      simp only [Step.run, hk w p h]
      rw [ih h]
      simp [Step.length]

theorem ref_body {d : DriftArgs} {k : KickArgs} (hd : KeepsReference d) (hk : ∀ w p, Reference p → magnetKick k w p = p) (l : ℝ)
    (n : ℕ) (i : ℤ) (hi : i = 1 ∨ i = 2 ∨ i = 3) (hn : n = 0 → k.k0 = 0 ∧ k.k1 = 0 ∧ k.h = 0) {p : Part} (h : Reference p) :
    body d k l n i p = later l 0 p := by
  by_cases c : n = 0
  · simp only [body, if_pos (show n = 0 ∧ k.k0 = 0 ∧ k.k1 = 0 ∧ k.h = 0 from ⟨c, hn c⟩)]
    exact ref_drift hd h l
  · simp only [body, if_neg (show ¬ (n = 0 ∧ k.k0 = 0 ∧ k.k1 = 0 ∧ k.h = 0) from fun h => c h.1)]
    rw [ref_steps hd hk l _ h, (C61_weights i hi n (by omega)).1, one_mul]

theorem ref_edge {m : Magnet} {fullEdge : Bool → Part → Part} {l : ℝ} {e : Edge} {x b : Bool} {p : Part} (h : Reference p)
    (he : e.model ≠ 1 ∧ e.model ≠ 2) : edge m fullEdge l e x b p = some p := by
  unfold edge
  by_cases c : e.model = 0
  · rw [if_pos c]
    simp only [Option.some.injEq]
    ext <;> simp [edgeKick, h.x, h.y]
  · rw [if_neg c, if_neg (by rintro (h | h); exacts [he.1 h, he.2 h])]

/-- C62 for curved (or straight) bodies: the reference particle arrives at the end of the magnet, or of the slice of weight `w`, on the
axis and at the same time as the reference, in both directions; with the models 2, 4, 5 and 6 for any curvature, and with all models
without curvature. -/
theorem C62_bend (m : Magnet) (fullEdge : Bool → Part → Part) (w : ℝ) (back : Bool) (p : Part) (h : Reference p)
    (hk : m.k0 = m.h) (hd : NoDipole m) (hr : m.rbendModel ≠ 2) (hb : m.bodyActive = true)
    (hm : modelOf m = 2 ∨ modelOf m = 4 ∨ modelOf m = 5 ∨ modelOf m = 6 ∨ |m.h| < 1e-8 ∧ 1 ≤ modelOf m ∧ modelOf m ≤ 8)
    (hi : integratorOf m = 1 ∨ integratorOf m = 2 ∨ integratorOf m = 3)
    (entryLinear : m.entry.active = true → m.entry.model ≠ 1 ∧ m.entry.model ≠ 2)
    (exitLinear : m.exit.active = true → m.exit.model ≠ 1 ∧ m.exit.model ≠ 2) :
    trackMagnet m fullEdge w back p = some { p with s := p.s + (if back then -1 else 1) * (w * m.length) } := by
  have hs : ¬ (geometry m).straight = true := by rw [straight_iff]; exact hr
  have gh : (geometry m).h = m.h := by
    unfold geometry
    split_ifs <;> rfl
  have gl : (geometry m).length = m.length := by
    unfold geometry
    split_ifs <;> rfl
  have hB : ∀ sg q, Reference q → trackBody m (geometry m) w sg q = later (sg * (w * m.length)) 0 q := by
    intro sg q hq
    rw [trackBody_eq]
    simp only
    rw [if_neg (fun h => hs h.1), gh, gl, later_zero]
    have hn := no_kicks_conf (m := m) (w := w) (h := m.h) (l := sg * m.length * w)
    generalize hc : configure (modelOf m) m.k0 m.k1 m.h m.ks = c at *
    have hcase : KeepsReference (driftArgs m c) ∧ c.k0Kick = (if c.rot then c.hKick else 0) := by
      rw [← hc]
      by_cases hz : |m.h| < 1e-8
      · have hz' : |m.k0| < 1e-8 := by rw [hk]; exact hz
        have : modelOf m = 1 ∨ modelOf m = 2 ∨ modelOf m = 3 ∨ modelOf m = 4 ∨ modelOf m = 5 ∨ modelOf m = 6 ∨ modelOf m = 7 ∨
            modelOf m = 8 := by
          obtain h | h | h | h | ⟨_, h1, h2⟩ := hm <;> omega
        obtain e | e | e | e | e | e | e | e := this
        all_goals
          rw [e]
          simp [configure, driftModelOf, hz, driftArgs, KeepsReference, hk]
      · have : modelOf m = 2 ∨ modelOf m = 4 ∨ modelOf m = 5 ∨ modelOf m = 6 := by
          obtain h | h | h | h | ⟨h, _⟩ := hm
          · tauto
          · tauto
          · tauto
          · tauto
          · exact absurd h hz
        have hz' := not_lt.1 hz
        obtain e | e | e | e := this
        all_goals
          rw [e]
          simp [configure, driftModelOf, hz, driftArgs, KeepsReference, hk, hz']
    rw [ref_body hcase.1 ?_ _ _ _ hi (fun h0 => hn h0) hq]
    · congr 1
      ring
    · intro w' r hr'
      refine ref_kick _ hr' ?_ ?_ w'
      · simp only [kickArgs]
        rw [hd.knl, hd.hxl, mul_assoc (sg * w), hd.knlRel, hcase.2]
        by_cases cr : c.rot = true <;> simp [cr]
        ring
      · simp only [kickArgs]
        rw [hd.ksl, mul_assoc (sg * w), hd.kslRel, hd.k0s]
        simp
  obtain ⟨g1, g2, g3, g4⟩ := geometry_active m
  rw [← g1, ← g3] at entryLinear
  rw [← g2, ← g4] at exitLinear
  have hin : ∀ e t q, (e.active = true → e.model ≠ 1 ∧ e.model ≠ 2) → Reference q →
      trackEntry m fullEdge (geometry m) e t back q = some q := by
    intro e t q he hq
    unfold trackEntry
    by_cases ha : e.active = true
    · rw [if_pos ha, if_neg hs]
      exact ref_edge hq (he ha)
    · rw [if_neg ha]
  have hout : ∀ e t q, (e.active = true → e.model ≠ 1 ∧ e.model ≠ 2) → Reference q →
      trackExit m fullEdge (geometry m) e t back q = some q := by
    intro e t q he hq
    unfold trackExit
    by_cases ha : e.active = true
    · rw [if_pos ha, ref_edge hq (he ha)]
      simp only [if_neg hs]
    · rw [if_neg ha]
  unfold trackMagnet
  simp only
  rw [hin _ _ p (by cases back <;> simpa) h]
  simp only [hb, if_true]
  rw [hB _ p h, hout _ _ _ (by cases back <;> simpa) (h.later _ _)]
  simp [later]

/-- C62 for a thin multipole: it may bend if the reference trajectory bends by the same angle. -/
theorem C62_multipole (m : Magnet) (fullEdge : Bool → Part → Part) (back : Bool) (p : Part) (h : Reference p)
    (hm : modelOf m = -1) (hr : m.rbendModel ≠ 2) (hx : m.knl 0 + m.relRef * m.knlRel 0 + m.length * m.k0 = m.h * m.length + m.hxl)
    (hy : m.ksl 0 + m.relRef * m.kslRel 0 + m.length * m.k0s = 0) (he : m.entry.active = false) (hx' : m.exit.active = false) :
    trackMagnet m fullEdge 1 back p = some p := by
  have hs : ¬ (geometry m).straight = true := by rw [straight_iff]; exact hr
  obtain ⟨g1, g2, _, _⟩ := geometry_active m
  have gh : (geometry m).h = m.h := by
    unfold geometry
    split_ifs <;> rfl
  have gl : (geometry m).length = m.length := by
    unfold geometry
    split_ifs <;> rfl
  have hB : ∀ sg, trackBody m (geometry m) 1 sg p = p := by
    intro sg
    rw [trackBody_eq]
    simp only
    rw [if_neg (fun h => hs h.1), gh, gl, later_zero]
    have hc : configure (modelOf m) m.k0 m.k1 m.h m.ks = ⟨0, 0, 0, 0, m.k0, m.k1, m.h, m.k0, m.k1, true, -1⟩ := by
      rw [hm]
      simp [configure, driftModelOf]
    rw [hc]
    have hd : ∀ l q, magnetDrift (driftArgs m ⟨0, 0, 0, 0, m.k0, m.k1, m.h, m.k0, m.k1, true, -1⟩) l q = q := by
      intro l q
      simp [magnetDrift, driftArgs]
    have hk : ∀ w, magnetKick (kickArgs m ⟨0, 0, 0, 0, m.k0, m.k1, m.h, m.k0, m.k1, true, -1⟩ (sg * m.length * 1) (sg * 1) (sg * m.hxl))
        w p = p := by
      refine ref_kick _ h ?_ ?_
      · simp only [kickArgs, if_true]
        linear_combination sg * hx
      · simp only [kickArgs]
        linear_combination sg * hy
    unfold body
    split_ifs
    · exact hd _ _
    · generalize steps (integratorOf m) _ = L
      induction L with
      | nil => rfl
      | cons o rest ih =>
        have e : ∀ d k l, runSteps d k l (o :: rest) p = runSteps d k l rest (o.run d k l p) := fun _ _ _ => rfl
        rw [e]
        cases o with
        | drift r => simp only [Step.run, hd]; exact ih
        | kick w => simp only [Step.run, hk]; exact ih
  unfold trackMagnet
  cases back
  · simp only [trackEntry, trackExit, Bool.false_eq_true, if_false, g1, g2, he, hx', hB]
    split_ifs <;> rfl
  · simp only [trackEntry, trackExit, if_true, g1, g2, he, hx']
    simp [hB]

/-! ## The rectangular bend with straight body -/

/-- No field but the dipole. -/
structure OnlyDipole (m : Magnet) : Prop where
  knl : ∀ i, m.knl i = 0
  ksl : ∀ i, m.ksl i = 0
  relRef : m.relRef = 0
  k1 : m.k1 = 0
  k2 : m.k2 = 0
  k3 : m.k3 = 0
  k0s : m.k0s = 0
  k1s : m.k1s = 0
  k2s : m.k2s = 0
  k3s : m.k3s = 0
  hxl : m.hxl = 0

theorem field_none {kn ks : ℕ → ℝ} (h1 : ∀ i, kn i = 0) (h2 : ∀ i, ks i = 0) (N : ℕ) (x y : ℝ) : field kn ks N x y = 0 := by
  unfold field
  have h0 : (⟨0, 0⟩ : ℂ) = 0 := rfl
  simp [h1, h2, h0]

/-- On the way through the straight body: `u` is the horizontal momentum. -/
def onArc (c u0 x0 : ℝ) (p : Part) (t : ℝ) : Part :=
  { p with
    x := x0 + (Real.sqrt (1 - (u0 - c * t) ^ 2) - Real.sqrt (1 - u0 ^ 2)) / c
    px := u0 - c * t
    y := 0
    py := 0
    zeta := p.zeta + t - (Real.arcsin u0 - Real.arcsin (u0 - c * t)) / c
    s := p.s + t }

theorem arc_step {c u0 x0 : ℝ} (hc : ¬ |c| < 1e-8) {p : Part} (hd : p.delta = 0) (hr : p.rvv = 1) (hch : p.chi = 1) (t l : ℝ) :
    straightBend l c (onArc c u0 x0 p t) = onArc c u0 x0 p (t + l) := by
  have c0 : c ≠ 0 := by
    rintro rfl
    apply hc
    norm_num
  have hch' : (onArc c u0 x0 p t).chi = 1 := hch
  unfold straightBend
  simp only [hch', mul_one, if_neg hc]
  have e : u0 - c * t - c * l = u0 - c * (t + l) := by ring
  ext
  · simp only [onArc, hd]
    rw [e]
    norm_num
    ring
  · simp only [onArc]
    ring
  · simp [onArc]
  · simp [onArc]
  · simp only [onArc, hd, hr]
    rw [e]
    norm_num
    ring
  · simp only [onArc]
    ring
  all_goals simp [onArc, hch]

theorem arc_steps {d : DriftArgs} {k : KickArgs} (hm : d.model = 5) (hk : ∀ w p, magnetKick k w p = p) (hc : ¬ |d.k0| < 1e-8)
    {u0 x0 : ℝ} {p : Part} (hd : p.delta = 0) (hr : p.rvv = 1) (hch : p.chi = 1) (l : ℝ) (L : List Step) (t : ℝ) :
    runSteps d k l L (onArc d.k0 u0 x0 p t) = onArc d.k0 u0 x0 p (t + (L.map Step.length).sum * l) := by
  induction L generalizing t with
  | nil => simp [runSteps]
  | cons o rest ih =>
    have e : ∀ q, runSteps d k l (o :: rest) q = runSteps d k l rest (o.run d k l q) := fun _ => rfl
    rw [e]
    cases o with
    | drift r =>
      have : Step.run d k l (.drift r) (onArc d.k0 u0 x0 p t) = onArc d.k0 u0 x0 p (t + r * l) := by
        simp only [Step.run]
        rw [congrFun (md5 hm _) (r * l)]
        exact arc_step hc hd hr hch t (r * l)
      rw [this, ih]
      simp only [List.map_cons, List.sum_cons, Step.length]
      congr 1
      ring
    | kick w =>
      simp only [Step.run, hk]
      rw [ih]
      simp [Step.length]

/-- C62 for rectangular bends with straight body: if the straight length fits to the angles (`C63`), the reference particle leaves the
magnet on the reference trajectory, after the length of the arc, at the same time as the reference. -/
theorem C62_rbend (m : Magnet) (fullEdge : Bool → Part → Part) (p : Part) (h : Reference p) (hb0 : p.beta0 ≠ 0)
    (hsx : p.spinX = 0) (hsz : p.spinZ = 0) (hr : m.rbendModel = 2) (hm : modelOf m = 2)
    (hi : integratorOf m = 1 ∨ integratorOf m = 2 ∨ integratorOf m = 3) (hk : m.k0 = m.h) (hh : 1e-8 ≤ |m.h|) (only : OnlyDipole m)
    (ha : 1e-10 < |m.h * m.length|) (hb : m.bodyActive = true)
    (hin : |(m.h * m.length - m.rbendAngleDiff) / 2| < Real.pi / 2) (hout : |(m.h * m.length + m.rbendAngleDiff) / 2| < Real.pi / 2)
    (tin : (m.h * m.length - m.rbendAngleDiff) / 2 = 0 ∨ 1e-10 < |(m.h * m.length - m.rbendAngleDiff) / 2|)
    (tout : (m.h * m.length + m.rbendAngleDiff) / 2 = 0 ∨ 1e-10 < |(m.h * m.length + m.rbendAngleDiff) / 2|)
    (hl : m.h * m.lengthStraight =
      Real.sin ((m.h * m.length - m.rbendAngleDiff) / 2) + Real.sin ((m.h * m.length + m.rbendAngleDiff) / 2))
    (he : m.entry.active = true ∧ m.entry.angle = 0 ∧ m.entry.model ≠ 1 ∧ m.entry.model ≠ 2)
    (hx : m.exit.active = true ∧ m.exit.angle = 0 ∧ m.exit.model ≠ 1 ∧ m.exit.model ≠ 2) :
    trackMagnet m fullEdge 1 false p = some { p with s := p.s + m.length } := by
  have sc : ∀ t : ℝ, t = 0 ∨ 1e-10 < |t| → sincos t = (Real.sin t, Real.cos t) := by
    intro t ht
    unfold sincos
    obtain rfl | ht := ht
    · simp
    · rw [if_pos ht]
  have cosPos : ∀ t : ℝ, |t| < Real.pi / 2 → 0 < Real.cos t := by
    intro t ht
    obtain ⟨h1, h2⟩ := abs_lt.1 ht
    exact Real.cos_pos_of_mem_Ioo ⟨h1, h2⟩
  have sqrtCos : ∀ t : ℝ, |t| < Real.pi / 2 → Real.sqrt (1 - Real.sin t ^ 2) = Real.cos t := by
    intro t ht
    rw [← Real.cos_sq', Real.sqrt_sq (cosPos t ht).le]
  have asin : ∀ t : ℝ, |t| < Real.pi / 2 → Real.arcsin (Real.sin t) = t := by
    intro t ht
    obtain ⟨h1, h2⟩ := abs_lt.1 ht
    exact Real.arcsin_sin h1.le h2.le
  have h0 : m.h ≠ 0 := by
    intro e
    rw [e, abs_zero] at hh
    norm_num at hh
  have total : m.h * m.length = (m.h * m.length - m.rbendAngleDiff) / 2 + (m.h * m.length + m.rbendAngleDiff) / 2 := by ring
  have g : geometry m = { straight := true, length := m.lengthStraight, lengthCurved := m.length, h := 0
                          tin := ⟨Real.sin ((m.h * m.length - m.rbendAngleDiff) / 2), Real.cos ((m.h * m.length - m.rbendAngleDiff) / 2),
                            x0Mid m - 1 / m.h * (sqrtMid m - Real.cos ((m.h * m.length - m.rbendAngleDiff) / 2))⟩
                          tout := ⟨Real.sin ((m.h * m.length + m.rbendAngleDiff) / 2), Real.cos ((m.h * m.length + m.rbendAngleDiff) / 2),
                            x0Mid m + 1 / m.h * (Real.cos ((m.h * m.length + m.rbendAngleDiff) / 2) - sqrtMid m)⟩
                          entry := { m.entry with fdown := m.entry.fdown + (m.h * m.length - m.rbendAngleDiff) / 2 }
                          exit := { m.exit with fdown := m.exit.fdown + (m.h * m.length + m.rbendAngleDiff) / 2 } } := by
    unfold geometry
    have c1 : ¬ (m.rbendModel = 0 ∨ m.rbendModel = 1) := by omega
    simp only [if_neg c1, if_pos hr, sc _ tin, sc _ tout]
    rw [if_pos ha, if_pos ha]
  generalize (m.h * m.length - m.rbendAngleDiff) / 2 = θ₁ at *
  generalize (m.h * m.length + m.rbendAngleDiff) / 2 = θ₂ at *
  have edge0 : ∀ (e : Edge) x (q : Part), e.angle = 0 → e.model ≠ 1 → e.model ≠ 2 → q.y = 0 →
      edge m fullEdge m.lengthStraight e x false q = some q := by
    intro e x q ha h1 h2 hy
    unfold edge
    by_cases c : e.model = 0
    · rw [if_pos c]
      simp only [Option.some.injEq]
      ext <;> simp [edgeKick, edgeCoefs, ha, hy]
    · rw [if_neg c, if_neg (by rintro (h | h); exacts [h1 h, h2 h])]
  -- the entry
  have pzIn : Real.sqrt (1 + 2 * (p.ptau / p.beta0 * p.beta0) / p.beta0 + p.ptau / p.beta0 * p.beta0 * (p.ptau / p.beta0 * p.beta0)
      - p.px * p.px - p.py * p.py) = 1 := by
    rw [h.ptau, h.px, h.py]
    norm_num
  have s1 : trackEntry m fullEdge (geometry m) (geometry m).entry (geometry m).tin false p =
      some (onArc m.h (Real.sin θ₁) (x0Mid m - 1 / m.h * (sqrtMid m - Real.cos θ₁)) p 0) := by
    rw [g]
    unfold trackEntry
    simp only [he.1, if_true]
    have e : tiltIn ⟨Real.sin θ₁, Real.cos θ₁, x0Mid m - 1 / m.h * (sqrtMid m - Real.cos θ₁)⟩ p =
        onArc m.h (Real.sin θ₁) (x0Mid m - 1 / m.h * (sqrtMid m - Real.cos θ₁)) p 0 := by
      unfold tiltIn yRot
      simp only [pzIn, hsx, hsz, ne_eq, not_true_eq_false, or_self, if_false]
      ext <;> simp [onArc, h.x, h.px, h.y, h.py, hb0, hsx, hsz]
    rw [e]
    exact edge0 _ _ _ he.2.1 he.2.2.1 he.2.2.2 rfl
  -- the body
  have s2 : trackBody m (geometry m) 1 1 (onArc m.h (Real.sin θ₁) (x0Mid m - 1 / m.h * (sqrtMid m - Real.cos θ₁)) p 0) =
      later (m.length - m.lengthStraight) (m.length - m.lengthStraight)
        (onArc m.h (Real.sin θ₁) (x0Mid m - 1 / m.h * (sqrtMid m - Real.cos θ₁)) p m.lengthStraight) := by
    rw [trackBody_eq]
    have gh : (geometry m).h = 0 := by rw [g]
    have gl : (geometry m).length = m.lengthStraight := by rw [g]
    have glc : (geometry m).lengthCurved = m.length := by rw [g]
    have gs : (geometry m).straight = true := by rw [g]
    have hc : configure 2 m.k0 m.k1 0 m.ks = ⟨m.h, 0, 0, 0, 0, 0, 0, 0, 0, false, 5⟩ := by
      rw [only.k1, hk]
      norm_num [configure, driftModelOf]
    simp only [gh, gl, glc, gs, hm]
    norm_num
    congr 1
    have hn : kickNumber m 1 0 m.lengthStraight ≠ 0 := by
      intro e
      have := (C61_no_kicks m 1 0 _ e).2.1
      rw [hk] at this
      exact h0 this
    have hkick : ∀ w q, magnetKick (kickArgs m ⟨m.h, 0, 0, 0, 0, 0, 0, 0, 0, false, 5⟩ m.lengthStraight 1 m.hxl) w q = q := by
      intro w q
      have z : (⟨0, 0⟩ : ℂ) = 0 := rfl
      rw [C58_kick]
      ext <;> simp [forceX, forceY, forceZ, bodyField, kickArgs, hTot, field_none only.knl only.ksl, only.relRef, only.k2, only.k3,
        only.k0s, only.k1s, only.k2s, only.k3s, only.hxl, z]
    unfold body
    rw [if_neg (fun e => hn e.1)]
    have := arc_steps (d := driftArgs m ⟨m.h, 0, 0, 0, 0, 0, 0, 0, 0, false, 5⟩) (u0 := Real.sin θ₁)
      (x0 := x0Mid m - 1 / m.h * (sqrtMid m - Real.cos θ₁)) rfl hkick (not_lt.2 hh) h.delta h.rvv h.chi m.lengthStraight
      (steps (integratorOf m) (kickNumber m 1 0 m.lengthStraight)) 0
    rw [(C61_weights _ hi _ (by omega)).1, one_mul, zero_add] at this
    have e : (driftArgs m ⟨m.h, 0, 0, 0, 0, 0, 0, 0, 0, false, 5⟩).k0 = m.h := rfl
    rw [e] at this
    rw [hc]
    simp only [one_div] at this ⊢
    exact this
  -- the exit
  unfold trackMagnet
  simp only [Bool.false_eq_true, if_false]
  rw [s1]
  simp only [hb, if_true]
  rw [s2, g]
  unfold trackExit
  simp only [hx.1, if_true]
  have edgeX : ∀ q : Part, q.y = 0 → edge m fullEdge m.lengthStraight ⟨true, m.exit.model, m.exit.angle, m.exit.fdown + θ₂, m.exit.fint,
      m.exit.hgap⟩ true false q = some q := fun q => edge0 ⟨true, m.exit.model, m.exit.angle, m.exit.fdown + θ₂, m.exit.fint,
      m.exit.hgap⟩ true q hx.2.1 hx.2.2.1 hx.2.2.2
  rw [edgeX _ rfl]
  simp only [Option.some.injEq]
  have hu : Real.sin θ₁ - m.h * m.lengthStraight = -Real.sin θ₂ := by
    rw [hl]
    ring
  have pzOut : Real.sqrt (1 + 2 * (p.ptau / p.beta0 * p.beta0) / p.beta0 + p.ptau / p.beta0 * p.beta0 * (p.ptau / p.beta0 * p.beta0)
      - -Real.sin θ₂ * -Real.sin θ₂ - 0 * 0) = Real.cos θ₂ := by
    rw [← sqrtCos θ₂ hout, h.ptau]
    congr 1
    ring
  have ex : x0Mid m - 1 / m.h * (sqrtMid m - Real.cos θ₁) + (Real.cos θ₂ - Real.cos θ₁) / m.h -
      (x0Mid m + 1 / m.h * (Real.cos θ₂ - sqrtMid m)) = 0 := by
    field_simp
    ring
  unfold tiltOut later onArc
  simp only [hu, neg_sq, sqrtCos θ₁ hin, sqrtCos θ₂ hout, Real.arcsin_neg, asin θ₁ hin, asin θ₂ hout]
  rw [ex]
  unfold yRot
  simp only [hsx, hsz, ne_eq, not_true_eq_false, or_self, if_false, pzOut]
  ext
  · simp [h.x]
  · simp only [h.px]
    ring
  · simp [h.y]
  · simp [h.py]
  · simp only [mul_zero, zero_mul, zero_div, add_zero]
    rw [div_mul_cancel₀ _ hb0]
    have : (θ₁ - -θ₂) / m.h = m.length := by
      rw [sub_neg_eq_add, ← total, mul_div_cancel_left₀ _ h0]
    rw [this]
    ring
  · ring
  all_goals rfl

/-- With `rbend_compensate_sagitta` the trajectory of the reference particle is centred in the straight body: half of the sagitta on one
side of the (shifted) axis at the ends, half of it on the other side in the middle.  Without, it touches the axis in the middle. -/
theorem C62_rbend_centred (m : Magnet) (p : Part) (h : Reference p) (hsx : p.spinX = 0) (hsz : p.spinZ = 0) (hr : m.rbendModel = 2)
    (hd : m.rbendAngleDiff = 0) (hh : 1e-8 ≤ |m.h|) (ha : 2e-10 < |m.h * m.length|) (hc : |m.h * m.length / 2| < Real.pi / 2)
    (hl : m.h * m.lengthStraight = 2 * Real.sin (m.h * m.length / 2)) :
    let sagitta := (1 - Real.cos (m.h * m.length / 2)) / m.h
    let q := tiltIn (geometry m).tin p
    let r := straightBend (m.lengthStraight / 2) m.h q
    q.x = -m.rbendShift - (if m.compensateSagitta then sagitta / 2 else sagitta) ∧
    r.x = -m.rbendShift + (if m.compensateSagitta then sagitta / 2 else 0) ∧ r.px = 0 := by
  intro sagitta q r
  have cosPos : 0 < Real.cos (m.h * m.length / 2) := by
    obtain ⟨h1, h2⟩ := abs_lt.1 hc
    exact Real.cos_pos_of_mem_Ioo ⟨h1, h2⟩
  have h0 : m.h ≠ 0 := by
    intro e
    rw [e, abs_zero] at hh
    norm_num at hh
  have ha' : |m.h * m.length| > 1e-10 := by
    refine lt_trans ?_ ha
    norm_num
  have ht : |m.h * m.length / 2| > 1e-10 := by
    rw [abs_div]
    norm_num at ha ⊢
    linarith
  have mid : sqrtMid m = 1 := by
    unfold sqrtMid
    rw [hd, sub_zero, hl]
    norm_num
  have g : (geometry m).tin = ⟨Real.sin (m.h * m.length / 2), Real.cos (m.h * m.length / 2),
      x0Mid m - 1 / m.h * (1 - Real.cos (m.h * m.length / 2))⟩ := by
    unfold geometry
    have c1 : ¬ (m.rbendModel = 0 ∨ m.rbendModel = 1) := by omega
    simp only [if_neg c1, if_pos hr, hd, sub_zero, sincos, if_pos ht, if_pos ha', mid]
  have pzIn : Real.sqrt (1 + 2 * (p.ptau / p.beta0 * p.beta0) / p.beta0 + p.ptau / p.beta0 * p.beta0 * (p.ptau / p.beta0 * p.beta0)
      - p.px * p.px - p.py * p.py) = 1 := by
    rw [h.ptau, h.px, h.py]
    norm_num
  have qx : q.x = x0Mid m - sagitta ∧ q.px = Real.sin (m.h * m.length / 2) ∧ q.py = 0 ∧ q.delta = 0 ∧ q.chi = 1 := by
    show (tiltIn (geometry m).tin p).x = _ ∧ (tiltIn (geometry m).tin p).px = _ ∧ (tiltIn (geometry m).tin p).py = _ ∧
      (tiltIn (geometry m).tin p).delta = _ ∧ (tiltIn (geometry m).tin p).chi = _
    rw [g]
    unfold tiltIn yRot
    simp only [pzIn, hsx, hsz, ne_eq, not_true_eq_false, or_self, if_false]
    refine ⟨?_, ?_, h.py, h.delta, h.chi⟩
    · rw [h.x]
      show _ = x0Mid m - (1 - Real.cos (m.h * m.length / 2)) / m.h
      field_simp
      ring
    · rw [h.px]
      ring
  obtain ⟨q1, q2, q3, q4, q5⟩ := qx
  have r1 : r.x = q.x + sagitta ∧ r.px = 0 := by
    show (straightBend (m.lengthStraight / 2) m.h q).x = _ ∧ (straightBend (m.lengthStraight / 2) m.h q).px = _
    unfold straightBend
    simp only [q5, mul_one, if_neg (not_lt.2 hh), q2, q3, q4]
    have e : Real.sin (m.h * m.length / 2) - m.h * (m.lengthStraight / 2) = 0 := by
      linear_combination -(1 / 2) * hl
    rw [e]
    refine ⟨?_, rfl⟩
    have : Real.sqrt ((0 + 1) ^ 2 - Real.sin (m.h * m.length / 2) ^ 2 - 0 ^ 2) = Real.cos (m.h * m.length / 2) := by
      rw [← Real.sqrt_sq cosPos.le, Real.cos_sq']
      norm_num
    rw [this]
    norm_num
    rfl
  have xm : x0Mid m = -m.rbendShift + if m.compensateSagitta then sagitta / 2 else 0 := by
    unfold x0Mid
    by_cases c : m.compensateSagitta = true
    · rw [if_pos ⟨c, ha'⟩, if_pos c]
      show _ = -m.rbendShift + (1 - Real.cos (m.h * m.length / 2)) / m.h / 2
      norm_num
      field_simp
    · rw [if_neg (fun h => c h.1), if_neg c, add_zero]
  refine ⟨?_, ?_, r1.2⟩
  · rw [q1, xm]
    by_cases c : m.compensateSagitta = true <;> simp only [c, if_true, if_false, Bool.false_eq_true] <;> ring
  · rw [r1.1, q1, xm]
    ring

/-! ## Examples -/

/-- A dipole with edges: `k0 = h = 0.1`, length 2, model 2 and a quadrupole component. -/
def someBend (model : ℤ) : Magnet :=
  { length := 2, order := 0, knl := fun _ => 0, ksl := fun _ => 0, orderRel := 0, knlRel := fun _ => 0, kslRel := fun _ => 0
    relRef := 0, numKicks := 3, model := model, defaultModel := 3, integrator := 0, defaultIntegrator := 2, h := 0.1, hxl := 0, k0 := 0.1
    k1 := 0.2, k2 := 0.3, k3 := 0, k0s := 0, k1s := 0, k2s := 0, k3s := 0, ks := 0, x0 := 0, y0 := 0, rbendModel := -1
    compensateSagitta := false, rbendShift := 0, rbendAngleDiff := 0, lengthStraight := 0, bodyActive := true
    entry := ⟨true, 0, 0.1, 0, 0.5, 0.02⟩, exit := ⟨true, 0, 0.1, 0, 0.5, 0.02⟩ }

theorem onAxis_reference : Reference onAxis := ⟨rfl, rfl, rfl, rfl, rfl, rfl, rfl, rfl, rfl⟩

example : trackMagnet (someBend 2) (fun _ p => p) (1 / 2) false onAxis = some { onAxis with s := 1 } := by
  rw [C62_bend (someBend 2) _ (1 / 2) false onAxis onAxis_reference rfl ⟨rfl, rfl, by simp [someBend], by simp [someBend], rfl, rfl⟩
    (by simp [someBend]) rfl (Or.inl (by simp [modelOf, someBend])) (by simp [integratorOf, modelOf, someBend])
    (by simp [someBend]) (by simp [someBend])]
  norm_num [someBend, onAxis]

/-- The conditions of C60 are met on the reference trajectory of this magnet. -/
theorem ref_stepsOk {d : DriftArgs} {k : KickArgs} (hd : KeepsReference d) (hk : ∀ w p, Reference p → magnetKick k w p = p)
    (ho : ∀ l p, Reference p → DriftOk d l p) (l : ℝ) (L : List Step) {p : Part} (h : Reference p) : StepsOk d k l L p := by
  refine stepsOk_of (I := Reference) ho (fun l q hq => ?_) (fun w q hq => ?_) L p h
  · rw [ref_drift hd hq]
    exact hq.later _ _
  · rw [hk w q hq]
    exact hq

example : Passes (someBend 2) (fun _ p => p) 1 onAxis := by
  refine ⟨fun _ h => absurd h (by simp [someBend]), fun _ q hq => ?_, fun _ h => absurd h (by simp [someBend])⟩
  have e : q = onAxis := by
    have hs : ¬ (geometry (someBend 2)).straight = true := by rw [straight_iff]; simp [someBend]
    unfold trackEntry at hq
    have ha : (geometry (someBend 2)).entry.active = true := by rw [(geometry_active _).1]; rfl
    rw [if_pos ha, if_neg hs, ref_edge onAxis_reference (by rw [(geometry_active _).2.2.1]; simp [someBend])] at hq
    exact (Option.some.inj hq).symm
  subst e
  have gh : (geometry (someBend 2)).h = 0.1 := by simp [geometry, someBend]
  have gl : (geometry (someBend 2)).length = 2 := by simp [geometry, someBend]
  unfold PassesBody
  have hm : modelOf (someBend 2) = 2 := by simp [modelOf, someBend]
  simp only [gh, gl, hm]
  have hc : configure 2 (someBend 2).k0 (someBend 2).k1 0.1 (someBend 2).ks =
      ⟨0.1, 0, 0.1, 0, 0, 0.2, 0.1, 0, 0.2, false, 4⟩ := by
    simp only [someBend]
    norm_num [configure, driftModelOf, abs_of_pos]
  rw [hc]
  have keeps : KeepsReference (driftArgs (someBend 2) ⟨0.1, 0, 0.1, 0, 0, 0.2, 0.1, 0, 0.2, false, 4⟩) :=
    Or.inr (Or.inr (Or.inr (Or.inl ⟨rfl, rfl, by norm_num [driftArgs, abs_of_pos]⟩)))
  have ok : ∀ l p, Reference p → DriftOk (driftArgs (someBend 2) ⟨0.1, 0, 0.1, 0, 0, 0.2, 0.1, 0, 0.2, false, 4⟩) l p := by
    intro l p hp
    refine Or.inr (Or.inr (Or.inr (Or.inr (Or.inr (Or.inl ⟨by norm_num [driftArgs], by norm_num [driftArgs], ?_⟩)))))
    simp only [DriftArgs.Regular, Regular]
    rw [ref_drift keeps hp]
    have hf : Part.Forward p := by
      rw [Part.Forward, hp.px, hp.py, hp.delta]
      norm_num
    have hf' : Part.Forward (later l 0 p) := hf
    simp only [driftArgs]
    norm_num
    left
    refine ⟨?_, hf, hf'⟩
    rw [hp.chi]
    norm_num [abs_of_pos]
  unfold BodyOk
  split_ifs
  · exact ok _ _ onAxis_reference
  · refine ref_stepsOk keeps (fun w p hp => ref_kick _ hp ?_ ?_ w) ok _ _ onAxis_reference
    · simp [kickArgs, someBend]
    · simp [kickArgs, someBend]

/-- A rectangular bend with straight body: 60 degrees, radius 10. -/
def someRBend : Magnet :=
  { someBend 2 with
    k1 := 0, k2 := 0, length := 10 * (Real.pi / 3), rbendModel := 2, lengthStraight := 10, compensateSagitta := true
    entry := ⟨true, 0, 0, 0, 0, 0⟩, exit := ⟨true, 0, 0, 0, 0, 0⟩ }

example : trackMagnet someRBend (fun _ p => p) 1 false onAxis = some { onAxis with s := 10 * (Real.pi / 3) } := by
  have hp := Real.pi_gt_three
  have e : someRBend.h * someRBend.length = Real.pi / 3 := by
    show (0.1 : ℝ) * (10 * (Real.pi / 3)) = _
    ring
  have d : someRBend.rbendAngleDiff = 0 := rfl
  have t : (Real.pi / 3 : ℝ) / 2 = Real.pi / 6 := by ring
  have p6 : |(Real.pi / 6 : ℝ)| = Real.pi / 6 := abs_of_pos (by positivity)
  rw [C62_rbend someRBend _ onAxis onAxis_reference (by simp [onAxis]) rfl rfl rfl (by simp [modelOf, someRBend, someBend])
    (by simp [integratorOf, modelOf, someRBend, someBend]) rfl (by norm_num [someRBend, someBend, abs_of_pos])
    ⟨fun _ => rfl, fun _ => rfl, rfl, rfl, rfl, rfl, rfl, rfl, rfl, rfl, rfl⟩]
  · simp [onAxis, someRBend]
  · rw [e, abs_of_pos (by positivity)]
    norm_num
    linarith
  · rfl
  · rw [e, d, sub_zero, t, p6]
    linarith
  · rw [e, d, add_zero, t, p6]
    linarith
  · right
    rw [e, d, sub_zero, t, p6]
    norm_num
    linarith
  · right
    rw [e, d, add_zero, t, p6]
    norm_num
    linarith
  · rw [e, d, sub_zero, add_zero, t, Real.sin_pi_div_six]
    norm_num [someRBend, someBend]
  · simp [someRBend]
  · simp [someRBend]

end

end Verif.Magnets
