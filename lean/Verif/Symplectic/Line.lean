import Verif.Symplectic.Frame
import Verif.Rf.Symplectic
import Verif.Thin.Symplectic

/-!
# Elements, lines and turns are symplectic

The elements are those of the models of frames (`Frames`, elements_src/{drift,xyshift,zeta_shift,xrotation,yrotation,srotation,rotation}.h),
magnets (`Magnets`, track_magnet.h), edges (`Edges`, dipole_edge.h, wedge.h), misalignments (`Frames`, track_misalignments.h), RF (`Rf`,
track_rf.h) and thin elements (`Thin`).  A line is a list of elements which are tracked one after the other, and a turn adds one to `at_turn`
(/repo/xtrack/tracker.py:621-732, the loops of the generated `track_line`; the model of these loops with their bounds, counters and losses
is in `Tracker`).
-/

namespace Verif.Symplectic

open Frames hiding curvature
open Magnets Edges Rf Filter Topology

noncomputable section

/-- The elements of a line. -/
inductive Elem
  | marker
  | drift (useExact : Bool) (model : DriftModel) (length : ℝ)
  | magnet (m : Magnet) (weight : ℝ)
  | dipoleEdge (d : DipoleEdge)
  | wedge (angle k k1 : ℝ) (order : ℤ)
  | translation (sx sy : ℝ)
  | zetaShift (dzeta : ℝ)
  | xRotation (angle : ℝ)
  | yRotation (angle : ℝ)
  | sRotation (angle : ℝ)
  | rotation (rs rx ry : ℝ) (first second third : Axis)
  | rf (e : RfElement) (weight : ℝ)
  | thin (t : Thin.Element)
  | placed (e : Placed) (el : Elem)

/-- Tracking of one particle through one element; `none`: the particle is lost. -/
def Elem.track (c : Ctx) : Elem → Bool → Part → Option Part
  | .marker, _, p => some p
  | .drift u m l, b, p => some (driftElement u m l b p)
  | .magnet m w, b, p => trackMagnet m (magnetEdges m) w b p
  | .dipoleEdge d, b, p => d.track b p
  | .wedge t k k1 o, _, p => some (wedgeElement t k k1 o p)
  | .translation sx sy, b, p => some (translationElement sx sy b p)
  | .zetaShift d, b, p => some (zetaShiftElement d b p)
  | .xRotation t, b, p => some (xRotationElement t b p)
  | .yRotation t, b, p => some (yRotationElement t b p)
  | .sRotation t, b, p => some (sRotationElement t b p)
  | .rotation rs rx ry a1 a2 a3, b, p => some (rotationElement rs rx ry a1 a2 a3 b p)
  | .rf e w, b, p => some (e.track c w b p)
  | .thin t, b, p => some (t.track c b p)
  | .placed e el, b, p => trackPlacedO e (fun b q => el.track c b q) b p

/-- A line, forward or backtracking. -/
def trackLine (c : Ctx) (back : Bool) : List Elem → Part → Option Part
  | [], p => some p
  | e :: l, p => (e.track c back p).bind fun q => trackLine c back l q

/-- Turns `t`, `t + 1`, ..., `n` of them; the turn number enters the phases of the RF elements. -/
def trackTurns (c : Ctx) (l : List Elem) : ℕ → ℕ → Part → Option Part
  | _, 0, p => some p
  | t, n + 1, p => (trackLine { c with atTurn := t } false l p).bind fun q => trackTurns c l (t + 1) n q

/-! ### Getting through -/

/-- The particle gets through a full `DipoleEdge`. -/
def RunsNonLinear (k e1 fint hgap : ℝ) (side : ℤ) (p : Part) : Prop :=
  let rot := fun q : Part => if |e1| < 10e-10 then q else yRot q (-Real.sin e1) (Real.cos e1) (-Real.tan e1)
  let wdg := fun q : Part => if |e1| < 10e-10 then q else Edges.wedge (-e1) k q
  (side = 0 → (¬|e1| < 10e-10 → TurnsY (-e1) p) ∧ (¬|k| < 10e-10 → FringeOk fint hgap k (rot p))
    ∧ (¬|e1| < 10e-10 → WedgeOk (-e1) k (dipoleFringe fint hgap k (rot p))))
  ∧ (side = 1 → (¬|e1| < 10e-10 → WedgeOk (-e1) k p) ∧ (¬|-k| < 10e-10 → FringeOk fint hgap (-k) (wdg p))
    ∧ (¬|e1| < 10e-10 → TurnsY (-e1) (dipoleFringe fint hgap (-k) (wdg p))))

/-- The particle gets through the rotations. -/
def RunsAxes (rs rx ry : ℝ) : List Axis → Part → Prop
  | [], _ => True
  | .x :: l, p => (rx ≠ 0 → TurnsX rx p) ∧ RunsAxes rs rx ry l (rotStep rs rx ry p .x)
  | .y :: l, p => (ry ≠ 0 → TurnsY ry p) ∧ RunsAxes rs rx ry l (rotStep rs rx ry p .y)
  | .s :: l, p => RunsAxes rs rx ry l (rotStep rs rx ry p .s)

/-- The particle gets through the element: it moves forward, towards the faces which it meets, is not lost, and keeps some energy. -/
def Elem.Runs (c : Ctx) : Elem → Bool → Part → Prop
  | .marker, _, _ => True
  | .drift u m _, _, p => u = true ∨ m = .exact → p.Forward
  | .magnet m w, b, p => RunsMagnet m w b p
  | .dipoleEdge d, b, p => d.model = 1 → b = false ∧ RunsNonLinear d.k d.e1 d.fint d.hgap d.side p
  | .wedge t k k1 o, b, p => b = false ∧ (o = 0 → WedgeOk t k p) ∧ (o = 1 → WedgeOk t k (quadWedge t k1 p))
  | .translation _ _, _, _ => True
  | .zetaShift _, _, _ => True
  | .xRotation t, b, p => TurnsX (if b then -t else t) p
  | .yRotation t, b, p => TurnsY (if b then -t else t) p
  | .sRotation _, _, _ => True
  | .rotation rs rx ry a1 a2 a3, b, p => if b then RunsAxes (-rs) (-rx) (-ry) [a3, a2, a1] p else RunsAxes rs rx ry [a1, a2, a3] p
  | .rf e w, b, p => RfOk c e.args ∧ e.Runs c w b p
  | .thin t, _, p => t.Runs c p
  | .placed e el, b, p => RunsPlaced e (fun b q => el.track c b q) (fun b q => el.Runs c b q) b p

/-- The particle gets through the line. -/
def RunsLine (c : Ctx) (back : Bool) : List Elem → Part → Prop
  | [], _ => True
  | e :: l, p => e.Runs c back p ∧ ∀ q, e.track c back p = some q → RunsLine c back l q

/-- The particle gets through all turns. -/
def RunsTurns (c : Ctx) (l : List Elem) : ℕ → ℕ → Part → Prop
  | _, 0, _ => True
  | t, n + 1, p => RunsLine { c with atTurn := t } false l p
      ∧ ∀ q, trackLine { c with atTurn := t } false l p = some q → RunsTurns c l (t + 1) n q

/-! ### Proofs -/

theorem good_nonLinear {k e1 fint hgap : ℝ} {side : ℤ} {p : Part} (kp : p.Kin) (r : RunsNonLinear k e1 fint hgap side p) :
    Good (fun q => dipoleEdgeNonLinear k e1 fint hgap side q) p := by
  have rot : ∀ {q : Part}, q.Kin → (¬|e1| < 10e-10 → TurnsY (-e1) q) →
      Good (fun q : Part => if |e1| < 10e-10 then q else yRot q (-Real.sin e1) (Real.cos e1) (-Real.tan e1)) q :=
    fun kq h => Good.ite (fun _ => Good.id kq) fun h' => good_yRot_neg kq (h h')
  have wdg : ∀ {q : Part}, q.Kin → (¬|e1| < 10e-10 → WedgeOk (-e1) k q) →
      Good (fun q : Part => if |e1| < 10e-10 then q else Edges.wedge (-e1) k q) q :=
    fun kq h => Good.ite (fun _ => Good.id kq) fun h' => ⟨lawful_wedge _ _, symplectic_wedge kq (h h')⟩
  unfold dipoleEdgeNonLinear
  refine Good.ite (fun h => ?_) fun h0 => Good.ite (fun h => ?_) fun _ => Good.id kp
  · obtain ⟨r1, r2, r3⟩ := r.1 h
    have g1 := rot kp r1
    have g2 := Good.comp kp g1 (good_dipoleFringe (g1.kin kp) r2)
    exact Good.comp (G := fun q : Part => if |e1| < 10e-10 then q else Edges.wedge (-e1) k q) kp g2 (wdg (g2.kin kp) r3)
  · obtain ⟨r1, r2, r3⟩ := r.2 h
    have g1 := wdg kp r1
    have g2 := Good.comp kp g1 (good_dipoleFringe (g1.kin kp) r2)
    exact Good.comp (G := fun q : Part => if |e1| < 10e-10 then q else yRot q (-Real.sin e1) (Real.cos e1) (-Real.tan e1)) kp g2
      (rot (g2.kin kp) r3)

theorem good_axes (rs rx ry : ℝ) : ∀ (l : List Axis) {p : Part}, p.Kin → RunsAxes rs rx ry l p →
    Good (fun q => l.foldl (rotStep rs rx ry) q) p
  | [], _, k, _ => Good.id k
  | .x :: l, p, k, r => by
    have g : Good (fun q => rotStep rs rx ry q .x) p := Good.ite (fun h => good_xRot k (r.1 h)) fun _ => Good.id k
    exact Good.comp (G := fun q => l.foldl (rotStep rs rx ry) q) k g (good_axes rs rx ry l (g.kin k) r.2)
  | .y :: l, p, k, r => by
    have g : Good (fun q => rotStep rs rx ry q .y) p := Good.ite (fun h => good_yRot k (r.1 h)) fun _ => Good.id k
    exact Good.comp (G := fun q => l.foldl (rotStep rs rx ry) q) k g (good_axes rs rx ry l (g.kin k) r.2)
  | .s :: l, p, k, r => by
    have g : Good (fun q => rotStep rs rx ry q .s) p := Good.ite (fun _ => good_sRot k _) fun _ => Good.id k
    exact Good.comp (G := fun q => l.foldl (rotStep rs rx ry) q) k g (good_axes rs rx ry l (g.kin k) r)

theorem good_zeta {p : Part} (k : p.Kin) (c : ℝ) : Good (fun q : Part => { q with zeta := q.zeta - c }) p := by
  constructor
  · exact Lawful.of_kind (fun _ => ⟨rfl, rfl, rfl, rfl, rfl, rfl⟩) fun p q e => by
      simp only [coords, e.x, e.px, e.y, e.py, e.zeta, e.ptau, e.beta0]
  · exact (good_zetaShift k (-c)).2.congr (Eventually.of_forall fun z => by simp only [coords, sub_eq_add_neg])

/-- Every element. -/
theorem Elem.fair (c : Ctx) : ∀ (e : Elem) (back : Bool) {p : Part}, p.Kin → e.Runs c back p → FairO (fun q => e.track c back q) p
  | .marker, _, _, k, _ => (Fair.id k).some
  | .drift u m l, b, p, k, r => by
    have g : Good (fun q => driftElement u m l b q) p := by
      unfold driftElement
      cases u
      · cases m
        · exact ⟨lawful_expanded _, symplectic_expanded k _⟩
        · exact ⟨lawful_expanded _, symplectic_expanded k _⟩
        · exact ⟨lawful_exact _, symplectic_exact k (r (Or.inr rfl)) _⟩
      · exact ⟨lawful_exact _, symplectic_exact k (r (Or.inl rfl)) _⟩
    exact (g.fair k).some
  | .magnet m w, b, p, k, r => (good_magnet k r).fair k
  | .dipoleEdge d, b, p, k, r => by
    show FairO (fun q => d.track b q) p
    unfold DipoleEdge.track
    by_cases h0 : d.model = 0
    · simp only [if_pos h0]
      exact ((good_edgeKick k _ _).fair k).some
    · simp only [if_neg h0]
      by_cases h1 : d.model = 1
      · obtain ⟨hb, rn⟩ := r h1
        simp only [if_pos h1, hb, Bool.false_eq_true, if_false]
        exact ((good_nonLinear k rn).fair k).some
      · simp only [if_neg h1]
        exact (Fair.id k).some
  | .wedge t kk k1 o, b, p, k, r => by
    obtain ⟨_, r0, r1⟩ := r
    have g : Good (fun q => wedgeElement t kk k1 o q) p := by
      unfold wedgeElement
      refine Good.ite (fun h => ?_) fun _ => Good.ite (fun h => ?_) fun _ => Good.id k
      · have g : Good (Edges.wedge t kk) p := ⟨lawful_wedge _ _, symplectic_wedge k (r0 h)⟩
        exact Good.comp k g (good_quadWedge (g.kin k) t k1)
      · have g := good_quadWedge k t k1
        exact Good.comp k g ⟨lawful_wedge _ _, symplectic_wedge (g.kin k) (r1 h)⟩
    exact (g.fair k).some
  | .translation sx sy, b, p, k, _ => (Good.fair (F := fun q => xyShift q _ _) k ⟨lawful_xyShift _ _, symplectic_xyShift k _ _⟩).some
  | .zetaShift d, b, p, k, _ => ((good_zeta k _).fair k).some
  | .xRotation t, b, p, k, r => by
    have g : Good (fun q => xRotationElement t b q) p := by
      unfold xRotationElement
      cases b
      · exact good_xRot k r
      · exact good_xRot_neg k r
    exact (g.fair k).some
  | .yRotation t, b, p, k, r => by
    have g : Good (fun q => yRotationElement t b q) p := by
      unfold yRotationElement
      cases b
      · exact good_yRot k r
      · exact good_yRot_neg k r
    exact (g.fair k).some
  | .sRotation t, b, p, k, _ => by
    have g : Good (fun q => sRotationElement t b q) p := by
      unfold sRotationElement
      cases b
      · exact good_sRot k t
      · have h := good_sRot k (-t)
        rw [Real.sin_neg, Real.cos_neg] at h
        exact h
    exact (g.fair k).some
  | .rotation rs rx ry a1 a2 a3, b, p, k, r => by
    have g : Good (fun q => rotationElement rs rx ry a1 a2 a3 b q) p := by
      unfold rotationElement
      cases b
      · exact good_axes _ _ _ _ k r
      · exact good_axes _ _ _ _ k r
    exact (g.fair k).some
  | .rf e w, b, p, k, r => (RfElement.fair r.1 k r.2).some
  | .thin t, b, p, k, r => ((t.good c b k r).fair k).some
  | .placed e el, b, p, k, r => fair_placed k (fun _ kq hq => Elem.fair c el b kq hq) r

theorem fair_line (c : Ctx) (back : Bool) : ∀ (l : List Elem) {p : Part}, p.Kin → RunsLine c back l p →
    FairO (fun q => trackLine c back l q) p
  | [], _, k, _ => (Fair.id k).some
  | e :: l, p, k, r => by
    have g := e.fair c back k r.1
    exact FairO.bind k g fun q hq => fair_line c back l (g.kin hq) (r.2 q hq)

theorem fair_turns (c : Ctx) (l : List Elem) : ∀ (n t : ℕ) {p : Part}, p.Kin → RunsTurns c l t n p →
    FairO (fun q => trackTurns c l t n q) p
  | 0, _, _, k, _ => (Fair.id k).some
  | n + 1, t, p, k, r => by
    have g := fair_line { c with atTurn := t } false l k r.1
    exact FairO.bind k g fun q hq => fair_turns c l n (t + 1) (g.kin hq) (r.2 q hq)

end

end Verif.Symplectic
