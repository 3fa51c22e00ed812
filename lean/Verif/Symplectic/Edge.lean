import Verif.Symplectic.Body
import Verif.Symplectic.Wedge
import Verif.Symplectic.MultFringe
import Verif.Symplectic.Fringe
import Verif.Symplectic.Rotations

/-!
# Edges and whole magnets are symplectic
-/

namespace Verif.Symplectic

open Frames hiding curvature
open Magnets Edges Filter Topology

noncomputable section

/-! ### Conditions for rotations -/

/-- The particle moves towards the plane which is turned by `t` around the vertical axis. -/
structure TurnsY (t : ℝ) (p : Part) : Prop where
  forward : p.Forward
  cos : Real.cos t ≠ 0
  cross : 1 + Real.tan t * p.px / p.pz ≠ 0

/-- The particle moves towards the plane which is turned by `t` around the horizontal axis. -/
structure TurnsX (t : ℝ) (p : Part) : Prop where
  forward : p.Forward
  cos : Real.cos t ≠ 0
  cross : 1 - Real.tan t * p.py / p.pz ≠ 0

theorem good_yRot {p : Part} (k : p.Kin) {t : ℝ} (r : TurnsY t p) : Good (fun q => yRot q (Real.sin t) (Real.cos t) (Real.tan t)) p :=
  ⟨lawful_yRot _ _ _, symplectic_yRot k r.cos (Real.tan_eq_sin_div_cos t) r.forward r.cross⟩

theorem good_xRot {p : Part} (k : p.Kin) {t : ℝ} (r : TurnsX t p) : Good (fun q => xRot q (Real.sin t) (Real.cos t) (Real.tan t)) p :=
  ⟨lawful_xRot _ _ _, symplectic_xRot k r.cos (Real.tan_eq_sin_div_cos t) r.forward r.cross⟩

theorem good_sRot {p : Part} (k : p.Kin) (t : ℝ) : Good (fun q => sRot q (Real.sin t) (Real.cos t)) p :=
  ⟨lawful_sRot _ _, symplectic_sRot k (Real.sin_sq_add_cos_sq t)⟩

theorem good_yRot_neg {p : Part} (k : p.Kin) {t : ℝ} (r : TurnsY (-t) p) :
    Good (fun q => yRot q (-Real.sin t) (Real.cos t) (-Real.tan t)) p := by
  have h := good_yRot k r
  rwa [Real.sin_neg, Real.cos_neg, Real.tan_neg] at h

theorem good_xRot_neg {p : Part} (k : p.Kin) {t : ℝ} (r : TurnsX (-t) p) :
    Good (fun q => xRot q (-Real.sin t) (Real.cos t) (-Real.tan t)) p := by
  have h := good_xRot k r
  rwa [Real.sin_neg, Real.cos_neg, Real.tan_neg] at h

theorem Good.ite {c : Prop} [Decidable c] {F G : Part → Part} {p : Part} (h1 : c → Good F p) (h2 : ¬c → Good G p) :
    Good (fun q => if c then F q else G q) p := by
  by_cases h : c
  · simp only [if_pos h]
    exact h1 h
  · simp only [if_neg h]
    exact h2 h

theorem Good.kin {F : Part → Part} {p : Part} (h : Good F p) (k : p.Kin) : (F p).Kin := h.1.kin p k

/-! ### Kicks of edges -/

theorem good_edgeKick {p : Part} (k : p.Kin) (r21 r43 : ℝ) : Good (fun q => edgeKick r21 r43 q) p := by
  constructor
  · exact Lawful.of_kind (fun _ => ⟨rfl, rfl, rfl, rfl, rfl, rfl⟩) fun p q e => by
      simp only [edgeKick, coords, e.x, e.px, e.y, e.py, e.zeta, e.ptau, e.beta0, e.chi]
  · have hl := fun u : Z => line (coords p) u
    have h := canonical_kick (z := coords p) (A := fun z => p.chi * r21 * z 0) (B := fun z => p.chi * r43 * z 2) (C := fun _ => 0)
      (by fun_prop) (by fun_prop) (by fun_prop) (p.chi * r21) 0 0 (p.chi * r43) 0 0
      (fun u => ((hl u 0).const_mul (p.chi * r21)).congr_deriv (by ring))
      (fun u => ((hl u 2).const_mul (p.chi * r43)).congr_deriv (by ring))
      fun u => (hasDerivAt_const (0 : ℝ) _).congr_deriv (by ring)
    refine h.congr (Eventually.of_forall fun z => ?_)
    ext i
    fin_cases i <;> simp [coords, place, edgeKick, k.beta0.ne']

theorem good_quadWedge {p : Part} (k : p.Kin) (t k1 : ℝ) : Good (fun q => quadWedge t k1 q) p := by
  constructor
  · exact Lawful.of_kind (fun _ => ⟨rfl, rfl, rfl, rfl, rfl, rfl⟩) fun p q e => by
      simp only [quadWedge, coords, e.x, e.px, e.y, e.py, e.zeta, e.ptau, e.beta0, e.chi]
  · have hl := fun u : Z => line (coords p) u
    have h := canonical_kick (z := coords p) (A := fun z => k1 * p.chi * t * (-(z 0 * z 0) + z 2 * z 2 / 2))
      (B := fun z => k1 * p.chi * t * (z 0 * z 2)) (C := fun _ => 0)
      (by fun_prop) (by fun_prop) (by fun_prop) (-2 * (k1 * p.chi * t) * coords p 0) (k1 * p.chi * t * coords p 2) 0
      (k1 * p.chi * t * coords p 0) 0 0
      (fun u => by
        refine (((((hl u 0).mul (hl u 0)).neg.add (((hl u 2).mul (hl u 2)).div_const 2))).const_mul (k1 * p.chi * t)).congr_deriv ?_
        simp
        ring)
      (fun u => by
        refine (((hl u 0).mul (hl u 2)).const_mul (k1 * p.chi * t)).congr_deriv ?_
        simp
        ring)
      fun u => (hasDerivAt_const (0 : ℝ) _).congr_deriv (by ring)
    refine h.congr (Eventually.of_forall fun z => ?_)
    ext i
    fin_cases i <;> simp [coords, place, quadWedge, k.beta0.ne'] <;> ring

/-! ### The full edge -/

/-- The particle gets through the full edge. -/
def RunsFull (m : Magnet) (length : ℝ) (e : Edge) (isExit : Bool) (p : Part) : Prop :=
  let k0 := edgeK0 m length
  if !isExit then
    let p0 := faceRotate e.angle p
    let p1 := dipoleFringe e.fint e.hgap k0 p0
    let p2 := if e.model = 1 then faceQuadWedge e.angle m.k1 (multFringe (fringeArgs m length isExit) p1) else p1
    (|e.angle| > 10e-10 → TurnsY (-e.angle) p) ∧ (¬|k0| < 10e-10 → FringeOk e.fint e.hgap k0 p0)
      ∧ (e.model = 1 → MultOk (fringeArgs m length isExit) p1) ∧ (|e.angle| > 10e-10 → WedgeOk (-e.angle) m.k0 p2)
  else
    let p1 := faceWedge e.angle m.k0 p
    let p2 := if e.model = 1 then multFringe (fringeArgs m length isExit) (faceQuadWedge e.angle m.k1 p1) else p1
    let p3 := dipoleFringe e.fint e.hgap (-k0) p2
    (|e.angle| > 10e-10 → WedgeOk (-e.angle) m.k0 p)
      ∧ (e.model = 1 → MultOk (fringeArgs m length isExit) (faceQuadWedge e.angle m.k1 p1))
      ∧ (¬|-k0| < 10e-10 → FringeOk e.fint e.hgap (-k0) p2) ∧ (|e.angle| > 10e-10 → TurnsY (-e.angle) p3)

theorem good_faceRotate {p : Part} (k : p.Kin) {a : ℝ} (r : |a| > 10e-10 → TurnsY (-a) p) : Good (fun q => faceRotate a q) p :=
  Good.ite (fun h => good_yRot_neg k (r h)) fun _ => Good.id k

theorem good_faceWedge {p : Part} (k : p.Kin) {a k0 : ℝ} (r : |a| > 10e-10 → WedgeOk (-a) k0 p) : Good (fun q => faceWedge a k0 q) p :=
  Good.ite (fun h => ⟨lawful_wedge _ _, symplectic_wedge k (r h)⟩) fun _ => Good.id k

theorem good_faceQuadWedge {p : Part} (k : p.Kin) (a k1 : ℝ) : Good (fun q => faceQuadWedge a k1 q) p :=
  Good.ite (fun _ => good_quadWedge k _ _) fun _ => Good.id k

theorem good_dipoleFringe {p : Part} (k : p.Kin) {fint hgap k0 : ℝ} (ok : ¬|k0| < 10e-10 → FringeOk fint hgap k0 p) :
    Good (fun q => dipoleFringe fint hgap k0 q) p := ⟨lawful_dipoleFringe _ _ _, symplectic_dipoleFringe k ok⟩

theorem good_multFringe {p : Part} (k : p.Kin) (a : FringeArgs) (ok : MultOk a p) : Good (fun q => multFringe a q) p :=
  ⟨lawful_multFringe a, symplectic_multFringe k a ok⟩

theorem good_fullEdge {m : Magnet} {length : ℝ} {e : Edge} {isExit : Bool} {p : Part} (k : p.Kin)
    (r : RunsFull m length e isExit p) : Good (fun q => fullEdge m length e isExit q) p := by
  cases isExit
  · obtain ⟨r1, r2, r3, r4⟩ := r
    have g1 := good_faceRotate k r1
    have g2 := Good.comp k g1 (good_dipoleFringe (g1.kin k) r2)
    have g3 : Good (fun q => if e.model = 1 then faceQuadWedge e.angle m.k1 (multFringe (fringeArgs m length false)
        (dipoleFringe e.fint e.hgap (edgeK0 m length) (faceRotate e.angle q)))
        else dipoleFringe e.fint e.hgap (edgeK0 m length) (faceRotate e.angle q)) p :=
      Good.ite (fun h => by
        have g3 := Good.comp k g2 (good_multFringe (g2.kin k) _ (r3 h))
        exact Good.comp k g3 (good_faceQuadWedge (g3.kin k) e.angle m.k1)) fun _ => g2
    exact Good.comp (G := fun q => faceWedge e.angle m.k0 q) k g3 (good_faceWedge (g3.kin k) r4)
  · obtain ⟨r1, r2, r3, r4⟩ := r
    have g1 := good_faceWedge k r1
    have g2 : Good (fun q => if e.model = 1 then multFringe (fringeArgs m length true) (faceQuadWedge e.angle m.k1
        (faceWedge e.angle m.k0 q)) else faceWedge e.angle m.k0 q) p :=
      Good.ite (fun h => by
        have g2 := Good.comp k g1 (good_faceQuadWedge (g1.kin k) e.angle m.k1)
        exact Good.comp k g2 (good_multFringe (g2.kin k) _ (r2 h))) fun _ => g1
    have g3 := Good.comp k g2 (good_dipoleFringe (g2.kin k) r3)
    exact Good.comp (G := fun q => faceRotate e.angle q) k g3 (good_faceRotate (g3.kin k) r4)

/-! ### Elements in which particles may be lost -/

/-- No particle is lost, and the motion is good at `p`. -/
def GoodO (F : Part → Option Part) (p : Part) : Prop := ∃ G, (∀ q, F q = some (G q)) ∧ Good G p

theorem GoodO.symplectic {F : Part → Option Part} {p : Part} (h : GoodO F p) : SymplecticAtO F p := by
  obtain ⟨G, e, g⟩ := h
  exact ⟨G, Eventually.of_forall fun z => e _, g.2⟩

theorem Good.some {F : Part → Part} {p : Part} (h : Good F p) : GoodO (fun q => Option.some (F q)) p := ⟨F, fun _ => rfl, h⟩

theorem GoodO.bind {F G : Part → Option Part} {p : Part} (k : p.Kin) (hF : GoodO F p) (hG : ∀ q, F p = Option.some q → GoodO G q) :
    GoodO (fun q => (F q).bind G) p := by
  obtain ⟨f, ef, gf⟩ := hF
  obtain ⟨g, eg, gg⟩ := hG (f p) (ef p)
  refine ⟨fun q => g (f q), fun q => ?_, Good.comp k gf gg⟩
  simp [ef, eg]

theorem GoodO.kin {F : Part → Option Part} {p q : Part} (h : GoodO F p) (k : p.Kin) (e : F p = Option.some q) : q.Kin := by
  obtain ⟨G, eG, g⟩ := h
  rw [eG] at e
  cases e
  exact g.kin k

/-! ### The edges of a magnet -/

/-- The particle gets through the edge; full edges cannot be backtracked. -/
def RunsEdge (m : Magnet) (length : ℝ) (e : Edge) (isExit back : Bool) (p : Part) : Prop :=
  e.model = 1 ∨ e.model = 2 → back = false ∧ RunsFull m length e isExit p

theorem good_edge {m : Magnet} {length : ℝ} {e : Edge} {isExit back : Bool} {F : Bool → Part → Part}
    (hF : back = false → F isExit = fullEdge m length e isExit) {p : Part} (k : p.Kin)
    (r : RunsEdge m length e isExit back p) : GoodO (fun q => edge m F length e isExit back q) p := by
  unfold edge
  by_cases h0 : e.model = 0
  · simp only [if_pos h0]
    exact (good_edgeKick k _ _).some
  · simp only [if_neg h0]
    by_cases h1 : e.model = 1 ∨ e.model = 2
    · obtain ⟨hb, rf⟩ := r h1
      simp only [if_pos h1, hb, Bool.false_eq_true, if_false, hF hb]
      exact (good_fullEdge k rf).some
    · simp only [if_neg h1]
      exact (Good.id k).some

/-- The particle gets through the face of a straight body. -/
structure TiltOk (t : Tilt) (p : Part) : Prop where
  forward : p.Forward
  cos : t.cos ≠ 0
  cross : 1 + -t.sin / t.cos * p.px / p.pz ≠ 0

theorem good_tiltIn {t : Tilt} {p : Part} (k : p.Kin) (r : TiltOk t p) : Good (fun q => tiltIn t q) p := by
  have g : Good (fun q => yRot q (-t.sin) t.cos (-t.sin / t.cos)) p :=
    ⟨lawful_yRot _ _ _, symplectic_yRot k r.cos rfl r.forward r.cross⟩
  have g2 := Good.comp k g ⟨lawful_xyShift (-t.x0) 0, symplectic_xyShift (g.kin k) (-t.x0) 0⟩
  have e : (fun q => tiltIn t q) = fun q => xyShift (yRot q (-t.sin) t.cos (-t.sin / t.cos)) (-t.x0) 0 := by
    funext q
    simp [tiltIn, xyShift]
  rw [e]
  exact g2

theorem good_tiltOut {t : Tilt} {p : Part} (k : p.Kin) (r : TiltOk t { p with x := p.x - t.x0 }) : Good (fun q => tiltOut t q) p := by
  have e : (fun q => tiltOut t q) = fun q => yRot (xyShift q t.x0 0) (-t.sin) t.cos (-t.sin / t.cos) := by
    funext q
    simp [tiltOut, xyShift]
  have e1 : ({ p with x := p.x - t.x0 } : Part) = xyShift p t.x0 0 := by simp [xyShift]
  rw [e1] at r
  have g : Good (fun q => xyShift q t.x0 0) p := ⟨lawful_xyShift t.x0 0, symplectic_xyShift k t.x0 0⟩
  rw [e]
  exact Good.comp k g ⟨lawful_yRot _ _ _, symplectic_yRot (g.kin k) r.cos rfl r.forward r.cross⟩

/-- The particle gets through the entry of the magnet. -/
def RunsEntry (m : Magnet) (g : Geometry) (e : Edge) (t : Tilt) (back : Bool) (p : Part) : Prop :=
  e.active → (g.straight → TiltOk t p) ∧ RunsEdge m g.length e false back (if g.straight then tiltIn t p else p)

/-- The particle gets through the exit of the magnet. -/
def RunsExit (m : Magnet) (F : Bool → Part → Part) (g : Geometry) (e : Edge) (t : Tilt) (back : Bool) (p : Part) : Prop :=
  e.active → RunsEdge m g.length e true back p
    ∧ ∀ q, edge m F g.length e true back p = some q → g.straight → TiltOk t { q with x := q.x - t.x0 }

theorem good_entry {m : Magnet} {g : Geometry} {e : Edge} {t : Tilt} {back : Bool} {F : Bool → Part → Part}
    (hF : back = false → F false = fullEdge m g.length e false) {p : Part} (k : p.Kin)
    (r : RunsEntry m g e t back p) : GoodO (fun q => trackEntry m F g e t back q) p := by
  unfold trackEntry
  by_cases ha : e.active = true
  · obtain ⟨r1, r2⟩ := r ha
    simp only [if_pos ha]
    have g1 : Good (fun q => if g.straight = true then tiltIn t q else q) p :=
      Good.ite (fun h => good_tiltIn k (r1 h)) fun _ => Good.id k
    obtain ⟨G, eG, gG⟩ := good_edge hF (g1.kin k) r2
    exact ⟨fun q => G (if g.straight = true then tiltIn t q else q), fun q => eG _, Good.comp k g1 gG⟩
  · simp only [if_neg ha]
    exact (Good.id k).some

theorem good_exit {m : Magnet} {g : Geometry} {e : Edge} {t : Tilt} {back : Bool} {F : Bool → Part → Part}
    (hF : back = false → F true = fullEdge m g.length e true) {p : Part} (k : p.Kin)
    (r : RunsExit m F g e t back p) : GoodO (fun q => trackExit m F g e t back q) p := by
  unfold trackExit
  by_cases ha : e.active = true
  · obtain ⟨r1, r2⟩ := r ha
    simp only [if_pos ha]
    obtain ⟨G, eG, gG⟩ := good_edge hF k r1
    have g2 : Good (fun q => if g.straight = true then tiltOut t q else q) (G p) :=
      Good.ite (fun h => good_tiltOut (gG.kin k) (r2 (G p) (eG p) h)) fun _ => Good.id (gG.kin k)
    exact ⟨fun q => if g.straight = true then tiltOut t (G q) else G q, fun q => by
      simp only [show edge m F g.length e true back q = some (G q) from eG q], Good.comp k gG g2⟩
  · simp only [if_neg ha]
    exact (Good.id k).some

/-! ### Whole magnets -/

/-- The full edges at the ends of a magnet. -/
def magnetEdges (m : Magnet) (isExit : Bool) (p : Part) : Part :=
  fullEdge m (geometry m).length (if isExit then (geometry m).exit else (geometry m).entry) isExit p

/-- The particle gets through the magnet. -/
def RunsMagnet (m : Magnet) (w : ℝ) (back : Bool) (p : Part) : Prop :=
  let g := geometry m
  let sg : ℝ := if back then -1 else 1
  let ein := if back then g.exit else g.entry
  let eout := if back then g.entry else g.exit
  let tin := if back then ⟨-g.tout.sin, g.tout.cos, g.tout.x0⟩ else g.tin
  let tout := if back then ⟨-g.tin.sin, g.tin.cos, g.tin.x0⟩ else g.tout
  RunsEntry m g ein tin back p
    ∧ ∀ q, trackEntry m (magnetEdges m) g ein tin back p = some q →
      (m.bodyActive → RunsTrackBody m g w sg q)
        ∧ RunsExit m (magnetEdges m) g eout tout back (if m.bodyActive then trackBody m g w sg q else q)

theorem good_magnet {m : Magnet} {w : ℝ} {back : Bool} {p : Part} (k : p.Kin) (r : RunsMagnet m w back p) :
    GoodO (fun q => trackMagnet m (magnetEdges m) w back q) p := by
  obtain ⟨r1, r2⟩ := r
  have f1 : back = false → magnetEdges m false = fullEdge m (geometry m).length (if back then (geometry m).exit else (geometry m).entry)
      false := by
    rintro rfl
    rfl
  have f2 : back = false → magnetEdges m true = fullEdge m (geometry m).length (if back then (geometry m).entry else (geometry m).exit)
      true := by
    rintro rfl
    rfl
  obtain ⟨G, eG, gG⟩ := good_entry f1 k r1
  obtain ⟨r3, r4⟩ := r2 (G p) (eG p)
  have kG := gG.kin k
  have gB : Good (fun q => if m.bodyActive then trackBody m (geometry m) w (if back then -1 else 1) q else q) (G p) :=
    Good.ite (fun h => good_trackBody kG (r3 h)) fun _ => Good.id kG
  have g2 := Good.comp k gG gB
  obtain ⟨H, eH, gH⟩ := good_exit f2 (g2.kin k) r4
  refine ⟨fun q => H (if m.bodyActive then trackBody m (geometry m) w (if back then -1 else 1) (G q) else G q), fun q => ?_,
    Good.comp k g2 gH⟩
  unfold trackMagnet
  simp only [eG]
  exact eH _

end

end Verif.Symplectic
