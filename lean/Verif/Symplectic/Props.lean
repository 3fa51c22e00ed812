import Verif.Symplectic.Line
import Verif.Symplectic.Violations
import Verif.Magnets.DriftProps
import Mathlib.LinearAlgebra.Matrix.NonsingularInverse
import Mathlib.LinearAlgebra.Determinant

/-!
# Tracking is symplectic: the theorems
-/

namespace Verif.Symplectic

open Frames hiding curvature
open Magnets Edges Rf Filter Topology

noncomputable section

/-! ### C74: bodies of magnets -/

/-- **C74.**  Every drift part of a magnet is symplectic: expanded and exact drift, polar drift, combined function magnet, bend in
curved and in straight coordinates, solenoid, and the nested integrators. -/
theorem C74_drift_partial {a : DriftArgs} {l : ℝ} {p : Part} (k : p.Kin) (r : Runs a l p) : SymplecticAt (fun q => magnetDrift a l q) p :=
  symplectic_magnetDrift k r

/-- **C74.**  Every kick of a magnet is symplectic, with all multipoles, the curvature and the rotation of the frame: for every particle
and all strengths. -/
theorem C74_kick {p : Part} (k : p.Kin) (a : KickArgs) (w : ℝ) : SymplecticAt (fun q => magnetKick a w q) p := (symplectic_magnetKick k a w).1

/-- **C74.**  The body of a magnet is symplectic for every model, integrator, number of kicks, weight (slice) and direction.  `RunsTrackBody`
asks for the particle to move forward all the way and, in the model `mat-kick-mat`, for the focusing not to vanish where there is curvature or
a dipole field (`C74_combined_violated`). -/
theorem C74_body_partial {m : Magnet} {w sg : ℝ} {p : Part} (k : p.Kin) (r : RunsTrackBody m (geometry m) w sg p) :
    SymplecticAt (fun q => trackBody m (geometry m) w sg q) p := (good_trackBody k r).2

/-- **C74 fails for `mat-kick-mat` without focusing:** if `k0 h + k1 = 0` and the field does not match the curvature for the momentum of the
particle (a bend which is switched off; a straight magnet with a dipole field), then the drift part of any length is not symplectic for any
particle. -/
theorem C74_combined_violated {p : Part} (k : p.Kin) {a : DriftArgs} (hm : a.model = 3) {L : ℝ} (flat : p.chi * (a.k0 * a.h + a.k1) = 0)
    (off : p.chi * a.k0 ≠ a.h * (1 + p.delta)) (hL : L ≠ 0) : ¬SymplecticAt (fun q => magnetDrift a L q) p := by
  rw [magnetDrift_eq]
  norm_num [hm, hL]
  exact combined_violated k flat off hL

/-! ### C75: edges and whole magnets -/

/-- **C75.**  The edges of a magnet are symplectic: linear edges, and full edges with rotations, the fringe fields of dipole and multipoles and the
wedges. -/
theorem C75_edge {m : Magnet} {length : ℝ} {e : Edge} {isExit : Bool} {p : Part} (k : p.Kin) (r : RunsEdge m length e isExit false p) :
    SymplecticAtO (fun q => edge m (fun x => fullEdge m length e x) length e isExit false q) p := (good_edge (fun _ => rfl) k r).symplectic

/-- **C75.**  Whole magnets with their edges and bodies, thick or sliced, curved or straight (`rbend_model`), forward or backtracking. -/
theorem C75_magnet_partial {m : Magnet} {w : ℝ} {back : Bool} {p : Part} (k : p.Kin) (r : RunsMagnet m w back p) :
    SymplecticAtO (fun q => trackMagnet m (magnetEdges m) w back q) p := (good_magnet k r).symplectic

/-- **C75.**  Wedges and dipole edges as elements of their own. -/
theorem C75_elements (c : Ctx) {p : Part} (k : p.Kin) (d : DipoleEdge) (back : Bool) (t kk k1 : ℝ) (o : ℤ) :
    ((Elem.dipoleEdge d).Runs c back p → SymplecticAtO (fun q => d.track back q) p)
    ∧ ((Elem.wedge t kk k1 o).Runs c false p → SymplecticAt (fun q => wedgeElement t kk k1 o q) p) := by
  refine ⟨fun r => (Elem.fair c (.dipoleEdge d) back k r).symplectic, fun r => ?_⟩
  obtain ⟨G, e, g⟩ := Elem.fair c (.wedge t kk k1 o) false k r
  have : (fun q => wedgeElement t kk k1 o q) = G := by
    funext q
    have := e q
    simpa [Elem.track] using this
  rw [this]
  exact g.2

/-! ### C76: frames -/

/-- **C76.**  A misaligned element is symplectic where the element without misalignment is: tilts, shifts, rotations around any axis and anchor,
for straight and curved elements, forward and backtracking, do not break symplecticity. -/
theorem C76_placed {e : Placed} {body : Bool → Part → Option Part} {R : Bool → Part → Prop} {back : Bool} {p : Part} (k : p.Kin)
    (hR : ∀ q, q.Kin → R back q → FairO (fun r => body back r) q) (r : RunsPlaced e body R back p) :
    SymplecticAtO (fun q => trackPlacedO e body back q) p := (fair_placed k hR r).symplectic

/-- **C76.**  Changes of the frame as elements of their own: translations, shifts of `zeta`, rotations around each of the axes, and three
rotations in a row. -/
theorem C76_elements (c : Ctx) {p : Part} (k : p.Kin) (back : Bool) (el : Elem)
    (h : (∃ sx sy, el = .translation sx sy) ∨ (∃ d, el = .zetaShift d) ∨ (∃ t, el = .sRotation t)
      ∨ (∃ t, el = .xRotation t ∧ TurnsX (if back then -t else t) p) ∨ (∃ t, el = .yRotation t ∧ TurnsY (if back then -t else t) p)
      ∨ ∃ rs rx ry a1 a2 a3, el = .rotation rs rx ry a1 a2 a3
        ∧ if back then RunsAxes (-rs) (-rx) (-ry) [a3, a2, a1] p else RunsAxes rs rx ry [a1, a2, a3] p) :
    SymplecticAtO (fun q => el.track c back q) p := by
  refine (el.fair c back k ?_).symplectic
  rcases h with ⟨sx, sy, rfl⟩ | ⟨d, rfl⟩ | ⟨t, rfl⟩ | ⟨t, rfl, h⟩ | ⟨t, rfl, h⟩ | ⟨rs, rx, ry, a1, a2, a3, rfl, h⟩
  · trivial
  · trivial
  · trivial
  · exact h
  · exact h
  · exact h

/-! ### C78: lines and turns -/

/-- **C78.**  Tracking through any line of these elements is symplectic, forward and backtracking. -/
theorem C78_line_partial (c : Ctx) (back : Bool) (l : List Elem) {p : Part} (k : p.Kin) (r : RunsLine c back l p) :
    SymplecticAtO (fun q => trackLine c back l q) p := (fair_line c back l k r).symplectic

/-- **C78.**  Tracking for any number of turns is symplectic. -/
theorem C78_turns_partial (c : Ctx) (l : List Elem) (t n : ℕ) {p : Part} (k : p.Kin) (r : RunsTurns c l t n p) :
    SymplecticAtO (fun q => trackTurns c l t n q) p := (fair_turns c l n t k r).symplectic

/-- The matrix of the symplectic form. -/
def J : Matrix (Fin 6) (Fin 6) ℝ :=
  !![0, 1, 0, 0, 0, 0; -1, 0, 0, 0, 0, 0; 0, 0, 0, 1, 0, 0; 0, 0, -1, 0, 0, 0; 0, 0, 0, 0, 0, 1; 0, 0, 0, 0, -1, 0]

theorem omega_J (v w : Z) : omega v w = v ⬝ᵥ J.mulVec w := by
  simp [omega, J, Matrix.mulVec, dotProduct, Fin.sum_univ_succ]
  ring

theorem J_sq : J * J = -1 := by
  ext i j
  fin_cases i <;> fin_cases j <;> simp [J, Matrix.mul_apply, Fin.sum_univ_succ]

/-- **C78, Liouville.**  The Jacobian determinant of tracking for any number of turns is `± 1`: phase space volume is conserved. -/
theorem C78_volume (c : Ctx) (l : List Elem) (t n : ℕ) {p : Part} (k : p.Kin) (r : RunsTurns c l t n p) :
    ∃ (G : Part → Part) (M : Z →L[ℝ] Z), (∀ᶠ z in 𝓝 (coords p), trackTurns c l t n (place p z) = some (G (place p z)))
      ∧ HasFDerivAt (fun z => coords (G (place p z))) M (coords p) ∧ |LinearMap.det (M : Z →ₗ[ℝ] Z)| = 1 := by
  obtain ⟨G, e, M, hM, o⟩ := C78_turns_partial c l t n k r
  refine ⟨G, M, e, hM, ?_⟩
  let A := LinearMap.toMatrix' (M : Z →ₗ[ℝ] Z)
  have hA : ∀ v, M v = A.mulVec v := fun v => by
    simp only [A]
    rw [LinearMap.toMatrix'_mulVec]
    rfl
  have key : A.transpose * J * A = J := by
    have h : ∀ v w : Z, v ⬝ᵥ (A.transpose * J * A).mulVec w = v ⬝ᵥ J.mulVec w := by
      intro v w
      have := o v w
      rw [omega_J, omega_J, hA, hA] at this
      rw [← this, ← Matrix.mulVec_mulVec, ← Matrix.mulVec_mulVec, Matrix.dotProduct_mulVec v A.transpose, Matrix.vecMul_transpose]
    ext i j
    have := h (Pi.single i 1) (Pi.single j 1)
    simpa using this
  have d := congrArg Matrix.det key
  rw [Matrix.det_mul, Matrix.det_mul, Matrix.det_transpose] at d
  have dJ : J.det * J.det = 1 := by
    rw [← Matrix.det_mul, J_sq]
    norm_num [Matrix.det_neg]
  have hJ : J.det ≠ 0 := fun h => by simp [h] at dJ
  have d2 : A.det * A.det = 1 := by
    have : (A.det * A.det - 1) * J.det = 0 := by linear_combination d
    rcases mul_eq_zero.1 this with h | h
    · linarith
    · exact absurd h hJ
  have : LinearMap.det (M : Z →ₗ[ℝ] Z) = A.det := (LinearMap.det_toMatrix' _).symm
  rw [this]
  rcases mul_self_eq_one_iff.1 d2 with h | h <;> simp [h]

/-! ### Examples -/

/-- A thick magnet of 1 m with a quadrupole and a sextupole field, ten kicks between expanded drifts, linear edges. -/
def thick : Magnet where
  length := 1
  order := 5
  knl := 0
  ksl := 0
  orderRel := 0
  knlRel := 0
  kslRel := 0
  relRef := 0
  numKicks := 10
  model := 6
  defaultModel := 4
  integrator := 2
  defaultIntegrator := 2
  h := 0
  hxl := 0
  k0 := 0
  k1 := 0.1
  k2 := 3
  k3 := 0
  k0s := 0
  k1s := 0
  k2s := 0
  k3s := 0
  ks := 0
  x0 := 0
  y0 := 0
  rbendModel := -1
  compensateSagitta := false
  rbendShift := 0
  rbendAngleDiff := 0
  lengthStraight := 1
  bodyActive := true
  entry := ⟨true, 0, 0.1, 0, 0, 0⟩
  exit := ⟨true, 0, 0.1, 0, 0, 0⟩

theorem runs_expanded {a : DriftArgs} (h : a.model = 0) (l : ℝ) (p : Part) : Runs a l p := by
  constructor <;> intro h' <;> rw [h] at h' <;> norm_num at h'

theorem steps_expanded {d : DriftArgs} (h : d.model = 0) (a : KickArgs) (l : ℝ) : ∀ (s : List Step) (p : Part), RunsSteps d a l s p
  | [], _ => trivial
  | .drift _ :: s, _ => ⟨runs_expanded h _ _, steps_expanded h a l s _⟩
  | .kick _ :: s, _ => steps_expanded h a l s _

theorem runs_thick (w : ℝ) (p : Part) : RunsMagnet thick w false p := by
  have h : (driftArgs thick (configure (modelOf thick) thick.k0 thick.k1 (geometry thick).h thick.ks)).model = 0 := by
    norm_num [thick, modelOf, geometry, configure, driftModelOf, driftArgs]
  refine ⟨fun _ => ⟨fun g => ?_, fun g => ?_⟩, fun q _ => ⟨fun _ => ?_, fun _ => ⟨fun g => ?_, fun r _ g => ?_⟩⟩⟩
  · norm_num [thick, geometry] at g
  · norm_num [thick, geometry] at g
  · unfold RunsTrackBody RunsBody
    simp only
    split_ifs <;> first | exact runs_expanded h _ _ | exact steps_expanded h _ _ _ _
  · norm_num [thick, geometry] at g
  · norm_num [thick, geometry] at g

/-- A ring of thick magnets, drifts and shifts of the frame: every particle gets through any number of turns. -/
example (c : Ctx) (n : ℕ) (p : Part) :
    RunsTurns c [.drift false .expanded 2, .magnet thick 1, .translation 1e-3 0, .magnet thick 0.5, .sRotation 0.1, .marker] 0 n p := by
  have h : ∀ (n t : ℕ) (p : Part), RunsTurns c
      [.drift false .expanded 2, .magnet thick 1, .translation 1e-3 0, .magnet thick 0.5, .sRotation 0.1, .marker] t n p := by
    intro n
    induction n with
    | zero => exact fun _ _ => trivial
    | succ n ih =>
      intro t p
      refine ⟨⟨by simp [Elem.Runs], fun q _ => ⟨runs_thick 1 q, fun q _ => ⟨trivial, fun q _ => ⟨runs_thick _ q, fun q _ =>
        ⟨trivial, fun q _ => ⟨trivial, fun _ _ => trivial⟩⟩⟩⟩⟩⟩, fun q _ => ih _ _⟩
  exact h n 0 p

/-- A quadrupole and a bend in the combined function model, on and off axis; a bend which is switched off violates the condition. -/
example (a b : ℝ) : Runs ⟨0, 1, 0, 0, 0, 0, 3⟩ 1 { onAxis with x := a, px := b } ∧ Runs ⟨0.1, 0, 0, 0.1, 0, 0, 3⟩ 1 { onAxis with x := a, px := b }
    ∧ (onAxis.chi * ((0 : ℝ) * 0.1 + 0) = 0 ∧ onAxis.chi * 0 ≠ 0.1 * (1 + onAxis.delta)) := by
  refine ⟨?_, ?_, by norm_num [onAxis]⟩
  · constructor <;> norm_num [onAxis]
  · constructor <;> norm_num [onAxis]

/-- A rotation of the frame around the vertical axis, and a wedge. -/
example : TurnsY (Real.pi / 4) onAxis ∧ TurnsX (Real.pi / 4) onAxis ∧ WedgeOk (Real.pi / 4) 0 onAxis := by
  have h : Real.cos (Real.pi / 4) ≠ 0 := (Real.cos_pos_of_mem_Ioo ⟨by linarith [Real.pi_pos], by linarith [Real.pi_pos]⟩).ne'
  have f : onAxis.Forward := by norm_num [Part.Forward, onAxis]
  refine ⟨⟨f, h, by simp [onAxis]⟩, ⟨f, h, by simp [onAxis]⟩, ?_⟩
  unfold WedgeOk
  rw [if_pos (by norm_num [onAxis])]
  exact ⟨f, h, by simp [onAxis]⟩

end

end Verif.Symplectic
