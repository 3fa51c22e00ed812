import Verif.Symplectic.Edge

/-!
# Misalignments and changes of frame are symplectic; composition of elements which change the energy
-/

namespace Verif.Symplectic

open Frames hiding curvature
open Magnets Edges Filter Topology

noncomputable section

/-! ### Composition around one particle -/

/-- What a motion respects around the particle `p`: it may change the energy, but not so much that nothing is left. -/
structure LawfulAt (F : Part → Part) (p : Part) : Prop where
  kin : (F p).Kin
  near : ∀ᶠ z in 𝓝 (coords p), (F (place p z)).Kin
  beta0 : ∀ q, (F q).beta0 = q.beta0
  chi : ∀ q, (F q).chi = q.chi
  alike : ∀ q r, Alike q r → Alike (F q) (F r)

/-- Lawful and symplectic around `p`. -/
def Fair (F : Part → Part) (p : Part) : Prop := LawfulAt F p ∧ SymplecticAt F p

theorem Good.fair {F : Part → Part} {p : Part} (k : p.Kin) (h : Good F p) : Fair F p :=
  ⟨⟨h.kin k, by filter_upwards [fine_near (fine_coords k)] with z hz using h.1.kin _ (kin_place k.beta0 hz), h.1.beta0, h.1.chi,
    h.1.alike⟩, h.2⟩

theorem Fair.kin {F : Part → Part} {p : Part} (h : Fair F p) : (F p).Kin := h.1.kin

theorem Fair.id {p : Part} (k : p.Kin) : Fair (fun q => q) p := (Good.id k).fair k

/-- One motion after another. -/
theorem Fair.comp {F G : Part → Part} {p : Part} (k : p.Kin) (hF : Fair F p) (hG : Fair G (F p)) : Fair (fun q => G (F q)) p := by
  have hz : coords (F (place p (coords p))) = coords (F p) := by rw [place_coords k]
  have al : ∀ᶠ z in 𝓝 (coords p), Alike (G (F (place p z))) (G (place (F p) (coords (F (place p z))))) := by
    filter_upwards [hF.1.near] with z kz
    refine hG.1.alike _ _ (place_alike kz ?_ ?_)
    · rw [hF.1.beta0, hF.1.beta0]
      rfl
    · rw [hF.1.chi, hF.1.chi]
      rfl
  obtain ⟨M, hM, _⟩ : Canonical _ _ := hF.2
  have ct : Tendsto (fun z => coords (F (place p z))) (𝓝 (coords p)) (𝓝 (coords (F p))) := by
    have : Tendsto (fun z => coords (F (place p z))) (𝓝 (coords p)) (𝓝 (coords (F (place p (coords p))))) := hM.continuousAt
    rwa [hz] at this
  constructor
  · refine ⟨hG.1.kin, ?_, fun q => (hG.1.beta0 _).trans (hF.1.beta0 q), fun q => (hG.1.chi _).trans (hF.1.chi q),
      fun q r e => hG.1.alike _ _ (hF.1.alike q r e)⟩
    filter_upwards [al, ct.eventually hG.1.near] with z h1 h2
    exact h1.symm.kin h2
  · have c : Canonical (fun z => coords (G (place (F p) (coords (F (place p z)))))) (coords p) := by
      refine Canonical.comp (g := fun z => coords (G (place (F p) z))) (f := fun z => coords (F (place p z))) ?_ hF.2
      rw [hz]
      exact hG.2
    refine c.congr ?_
    filter_upwards [al] with z h1
    exact h1.coords.symm

/-- No particle is lost, and the motion is fair at `p`. -/
def FairO (F : Part → Option Part) (p : Part) : Prop := ∃ G, (∀ q, F q = some (G q)) ∧ Fair G p

theorem GoodO.fair {F : Part → Option Part} {p : Part} (k : p.Kin) (h : GoodO F p) : FairO F p := by
  obtain ⟨G, e, g⟩ := h
  exact ⟨G, e, g.fair k⟩

theorem Fair.some {F : Part → Part} {p : Part} (h : Fair F p) : FairO (fun q => Option.some (F q)) p := ⟨F, fun _ => rfl, h⟩

theorem FairO.kin {F : Part → Option Part} {p q : Part} (h : FairO F p) (e : F p = Option.some q) : q.Kin := by
  obtain ⟨G, eG, g⟩ := h
  rw [eG] at e
  cases e
  exact g.kin

theorem FairO.symplectic {F : Part → Option Part} {p : Part} (h : FairO F p) : SymplecticAtO F p := by
  obtain ⟨G, e, g⟩ := h
  exact ⟨G, Eventually.of_forall fun z => e _, g.2⟩

theorem FairO.bind {F G : Part → Option Part} {p : Part} (k : p.Kin) (hF : FairO F p) (hG : ∀ q, F p = Option.some q → FairO G q) :
    FairO (fun q => (F q).bind G) p := by
  obtain ⟨f, ef, gf⟩ := hF
  obtain ⟨g, eg, gg⟩ := hG (f p) (ef p)
  refine ⟨fun q => g (f q), fun q => ?_, Fair.comp k gf gg⟩
  simp [ef, eg]

/-! ### Steps of a change of frame -/

/-- The steps out of which misalignments are made. -/
inductive Move
  | shift (dx dy : ℝ)
  | along (ds : ℝ)
  | yaw (t : ℝ)
  | pitch (t : ℝ)
  | roll (t : ℝ)

/-- The macros of track_misalignments.h:16-31. -/
def Move.run : Move → Part → Part
  | .shift dx dy, p => xyShift p dx dy
  | .along ds, p => sShift p ds
  | .yaw t, p => yRotate p t
  | .pitch t, p => xRotate p t
  | .roll t, p => sRotate p t

/-- The particle moves forward and towards the plane into which the step takes it. -/
def Move.Ok : Move → Part → Prop
  | .shift _ _, _ => True
  | .along ds, p => ds ≠ 0 → p.Forward
  | .yaw t, p => t ≠ 0 → TurnsY t p
  | .pitch t, p => t ≠ 0 → TurnsX (-t) p
  | .roll _, _ => True

def runMoves : List Move → Part → Part
  | [], p => p
  | m :: l, p => runMoves l (m.run p)

/-- The same at every step. -/
def MovesOk : List Move → Part → Prop
  | [], _ => True
  | m :: l, p => m.Ok p ∧ MovesOk l (m.run p)

theorem good_sShift {p : Part} (k : p.Kin) {ds : ℝ} (r : ds ≠ 0 → p.Forward) : Good (fun q => sShift q ds) p := by
  refine Good.ite (F := fun q => { driftExact q ds with zeta := (driftExact q ds).zeta - ds, s := (driftExact q ds).s - ds })
    (fun h => ?_) fun _ => Good.id k
  have g : Good (fun q => driftExact q ds) p := ⟨lawful_exact ds, symplectic_exact k (r h) ds⟩
  have g2 := Good.comp k g (good_zetaShift (g.kin k) (-ds))
  simpa only [sub_eq_add_neg] using g2

theorem good_move {m : Move} {p : Part} (k : p.Kin) (r : m.Ok p) : Good (fun q => m.run q) p := by
  cases m with
  | shift dx dy => exact ⟨lawful_xyShift _ _, symplectic_xyShift k _ _⟩
  | along ds => exact good_sShift k r
  | yaw t => exact Good.ite (fun h => good_yRot k (r h)) fun _ => Good.id k
  | pitch t => exact Good.ite (fun h => good_xRot_neg k (r h)) fun _ => Good.id k
  | roll t => exact Good.ite (fun _ => good_sRot k t) fun _ => Good.id k

theorem good_moves : ∀ (l : List Move) {p : Part}, p.Kin → MovesOk l p → Good (fun q => runMoves l q) p
  | [], _, k, _ => Good.id k
  | m :: l, _, k, r => by
    have g := good_move k r.1
    exact Good.comp (G := fun q => runMoves l q) k g (good_moves l (g.kin k) r.2)

/-! ### Misalignments -/

/-- The steps of the entry of a straight element. -/
def entryStraightMoves (m : Mis) (back : Bool) : List Move :=
  let misX := m.dx - m.anchor * Real.cos m.phi * Real.sin m.theta
  let misY := m.dy - m.anchor * Real.sin m.phi
  let misS := m.ds - m.anchor * (Real.cos m.phi * Real.cos m.theta - 1)
  if !back then [.shift misX misY, .along misS, .yaw m.theta, .pitch m.phi, .roll m.psi, .roll m.tilt]
  else [.roll (-m.tilt), .roll (-m.psi), .pitch (-m.phi), .yaw (-m.theta), .along (-misS), .shift (-misX) (-misY)]

/-- The steps of the exit of a straight element. -/
def exitStraightMoves (m : Mis) (back : Bool) : List Move :=
  let npl := m.anchor - m.length
  let misX := npl * Real.cos m.phi * Real.sin m.theta - m.dx
  let misY := npl * Real.sin m.phi - m.dy
  let misS := npl * (Real.cos m.phi * Real.cos m.theta - 1) - m.ds
  if !back then [.roll (-m.tilt), .roll (-m.psi), .pitch (-m.phi), .yaw (-m.theta), .along misS, .shift misX misY]
  else [.shift (-misX) (-misY), .along (-misS), .yaw m.theta, .pitch m.phi, .roll m.psi, .roll m.tilt]

/-- The steps of the entry of a curved element. -/
def entryCurvedMoves (m : Mis) (angle h : ℝ) (back : Bool) : List Move :=
  if angle = 0 ∧ (m.length ≠ 0 ∨ h = 0) then entryStraightMoves m back
  else
    let a := entryMatrix m angle h
    if !back then [.shift (a 0 3) (a 1 3), .along (a 2 3), .yaw (rotTheta a), .pitch (rotPhi a), .roll (rotPsi a), .roll m.tilt]
    else [.roll (-m.tilt), .roll (-rotPsi a), .pitch (-rotPhi a), .yaw (-rotTheta a), .along (-a 2 3), .shift (-a 0 3) (-a 1 3)]

/-- The steps of the exit of a curved element. -/
def exitCurvedMoves (m : Mis) (angle h : ℝ) (back : Bool) : List Move :=
  if angle = 0 ∧ (m.length ≠ 0 ∨ h = 0) then exitStraightMoves m back
  else
    let a := exitMatrix m angle h
    if !back then [.roll (-m.tilt), .shift (a 0 3) (a 1 3), .along (a 2 3), .yaw (rotTheta a), .pitch (rotPhi a), .roll (rotPsi a)]
    else [.roll (-rotPsi a), .pitch (-rotPhi a), .yaw (-rotTheta a), .along (-a 2 3), .shift (-a 0 3) (-a 1 3), .roll m.tilt]

theorem entryStraight_moves (m : Mis) (back : Bool) (p : Part) : entryStraight m back p = runMoves (entryStraightMoves m back) p := by
  cases back <;> rfl

theorem exitStraight_moves (m : Mis) (back : Bool) (p : Part) : exitStraight m back p = runMoves (exitStraightMoves m back) p := by
  cases back <;> rfl

theorem entryCurved_moves (m : Mis) (angle h : ℝ) (back : Bool) (p : Part) :
    entryCurved m angle h back p = runMoves (entryCurvedMoves m angle h back) p := by
  unfold entryCurved entryCurvedMoves
  split_ifs
  · exact entryStraight_moves m back p
  all_goals cases back <;> rfl

theorem exitCurved_moves (m : Mis) (angle h : ℝ) (back : Bool) (p : Part) :
    exitCurved m angle h back p = runMoves (exitCurvedMoves m angle h back) p := by
  unfold exitCurved exitCurvedMoves
  split_ifs
  · exact exitStraight_moves m back p
  all_goals cases back <;> rfl

/-- The steps at the entry of a placed element. -/
def entryMoves (e : Placed) (back : Bool) : List Move :=
  match e.curved with
  | some (angle, h) => entryCurvedMoves (sliceMis e) (angle * e.weight) h back
  | none => entryStraightMoves (sliceMis e) back

/-- The steps at the exit of a placed element. -/
def exitMoves (e : Placed) (back : Bool) : List Move :=
  match e.curved with
  | some (angle, h) => exitCurvedMoves (sliceMis e) (angle * e.weight) h back
  | none => exitStraightMoves (sliceMis e) back

theorem entry_moves (e : Placed) (back : Bool) (p : Part) : misalignEntry e back p = runMoves (entryMoves e back) p := by
  unfold misalignEntry entryMoves
  rcases e.curved with _ | ⟨a, h⟩
  · exact entryStraight_moves _ _ _
  · exact entryCurved_moves _ _ _ _ _

theorem exit_moves (e : Placed) (back : Bool) (p : Part) : misalignExit e back p = runMoves (exitMoves e back) p := by
  unfold misalignExit exitMoves
  rcases e.curved with _ | ⟨a, h⟩
  · exact exitStraight_moves _ _ _
  · exact exitCurved_moves _ _ _ _ _

open Classical in
/-- `trackPlaced` for elements in which particles may be lost; track_local_particle_with_transformations.h:98-222. -/
def trackPlacedO (e : Placed) (body : Bool → Part → Option Part) (back : Bool) (p : Part) : Option Part :=
  if active e.mis then
    if !back then (body back (misalignEntry e back p)).map (misalignExit e back)
    else (body back (misalignExit e back p)).map (misalignEntry e back)
  else body back p

/-- Without losses this is `trackPlaced`. -/
theorem trackPlacedO_some (e : Placed) (body : Bool → Part → Part) (back : Bool) (p : Part) :
    trackPlacedO e (fun b q => some (body b q)) back p = some (trackPlaced e body back p) := by
  unfold trackPlacedO trackPlaced
  split_ifs <;> rfl

/-- The steps before the body of the element, and those after it. -/
def movesBefore (e : Placed) (back : Bool) : List Move := if back then exitMoves e back else entryMoves e back
@[inherit_doc movesBefore]
def movesAfter (e : Placed) (back : Bool) : List Move := if back then entryMoves e back else exitMoves e back

/-- The particle gets through a placed element, the body of which asks for `R`. -/
def RunsPlaced (e : Placed) (body : Bool → Part → Option Part) (R : Bool → Part → Prop) (back : Bool) (p : Part) : Prop :=
  (active e.mis → MovesOk (movesBefore e back) p ∧ R back (runMoves (movesBefore e back) p)
    ∧ ∀ q, body back (runMoves (movesBefore e back) p) = some q → MovesOk (movesAfter e back) q) ∧ (¬active e.mis → R back p)

theorem fair_placed {e : Placed} {body : Bool → Part → Option Part} {R : Bool → Part → Prop} {back : Bool} {p : Part} (k : p.Kin)
    (hR : ∀ q, q.Kin → R back q → FairO (fun r => body back r) q) (r : RunsPlaced e body R back p) :
    FairO (fun q => trackPlacedO e body back q) p := by
  unfold trackPlacedO
  by_cases h : active e.mis
  · simp only [if_pos h]
    obtain ⟨r1, r2, r3⟩ := r.1 h
    have g1 := good_moves _ k r1
    obtain ⟨G, eG, fG⟩ := hR _ (g1.kin k) r2
    have g3 := good_moves _ fG.kin (r3 _ (eG _))
    refine ⟨fun q => runMoves (movesAfter e back) (G (runMoves (movesBefore e back) q)), fun q => ?_,
      Fair.comp k (Fair.comp k (g1.fair k) fG) (g3.fair fG.kin)⟩
    cases back
    · simp only [movesAfter, movesBefore, Bool.not_false, if_true, Bool.false_eq_true, if_false]
      rw [entry_moves, show body false _ = some _ from eG _, Option.map_some, exit_moves]
    · simp only [movesAfter, movesBefore, Bool.not_true, if_true, Bool.false_eq_true, if_false]
      rw [exit_moves, show body true _ = some _ from eG _, Option.map_some, entry_moves]
  · simp only [if_neg h]
    exact hR p k (r.2 h)

end

end Verif.Symplectic
