import Verif.Symplectic.Focus
import Verif.Symplectic.Kicks

/-!
# Bodies of magnets are symplectic

`Runs` and `RunsSteps` say that a particle gets through the body: it moves forward all the way.
-/

namespace Verif.Symplectic

open Frames hiding curvature
open Magnets Filter Topology

noncomputable section

/-- A map which treats alike particles alike and is symplectic at `p`. -/
def Good (F : Part → Part) (p : Part) : Prop := Lawful F ∧ SymplecticAt F p

theorem Good.comp {F G : Part → Part} {p : Part} (k : p.Kin) (hF : Good F p) (hG : Good G (F p)) : Good (fun q => G (F q)) p :=
  ⟨hG.1.comp hF.1, SymplecticAt.comp k hF.1 hG.1 hG.2 hF.2⟩

theorem Good.id {p : Part} (k : p.Kin) : Good (fun q => q) p := ⟨Lawful.id, SymplecticAt.id k⟩

/-! ### The drift parts -/

theorem lawful_exact (l : ℝ) : Lawful fun q => driftExact q l :=
  Lawful.of_kind (fun _ => ⟨rfl, rfl, rfl, rfl, rfl, rfl⟩) fun p q e => by
    simp only [driftExact, coords, e.x, e.px, e.y, e.py, e.zeta, e.delta, e.rvv, e.ptau, e.beta0]

theorem lawful_expanded (l : ℝ) : Lawful fun q => driftExpanded q l :=
  Lawful.of_kind (fun _ => ⟨rfl, rfl, rfl, rfl, rfl, rfl⟩) fun p q e => by
    simp only [driftExpanded, coords, e.x, e.px, e.y, e.py, e.zeta, e.rpp, e.rvv, e.ptau, e.beta0]

theorem lawful_polar (l h : ℝ) : Lawful fun q => polarDrift q l h :=
  Lawful.of_kind (fun _ => ⟨rfl, rfl, rfl, rfl, rfl, rfl⟩) fun p q e => by
    simp only [polarDrift, coords, e.x, e.px, e.y, e.py, e.zeta, e.delta, e.rvv, e.ptau, e.beta0]

theorem lawful_combined (l k0 k1 h : ℝ) : Lawful fun q => combined l k0 k1 h q :=
  Lawful.of_kind (fun _ => ⟨rfl, rfl, rfl, rfl, rfl, rfl⟩) fun p q e => by
    simp only [combined, coords, e.x, e.px, e.y, e.py, e.zeta, e.delta, e.rvv, e.ptau, e.beta0, e.chi]

theorem lawful_curved (l k0 h : ℝ) : Lawful fun q => curvedBend l k0 h q :=
  Lawful.of_kind (fun q => by
      unfold curvedBend
      simp only
      split_ifs <;> exact ⟨rfl, rfl, rfl, rfl, rfl, rfl⟩) fun p q e => by
    unfold curvedBend
    by_cases hk : |k0 * p.chi| < 1e-8
    · simp only [e.chi, if_pos hk]
      exact ((lawful_polar l h).alike _ _ e).coords.symm
    · simp only [e.chi, if_neg hk, coords, e.x, e.px, e.y, e.py, e.zeta, e.delta, e.rvv, e.ptau, e.beta0]

theorem lawful_straight (l k0 : ℝ) : Lawful fun q => straightBend l k0 q :=
  Lawful.of_kind (fun q => by
      unfold straightBend
      simp only
      split_ifs <;> exact ⟨rfl, rfl, rfl, rfl, rfl, rfl⟩) fun p q e => by
    unfold straightBend
    by_cases hk : |k0 * p.chi| < 1e-8
    · simp only [e.chi, if_pos hk]
      exact ((lawful_exact l).alike _ _ e).coords.symm
    · simp only [e.chi, if_neg hk, coords, e.x, e.px, e.y, e.py, e.zeta, e.delta, e.rvv, e.ptau, e.beta0]

theorem lawful_solenoid (l ks x0 y0 : ℝ) : Lawful fun q => solenoid l ks x0 y0 q :=
  Lawful.of_kind (fun q => by
      unfold solenoid
      simp only
      split_ifs <;> exact ⟨rfl, rfl, rfl, rfl, rfl, rfl⟩) fun p q e => by
    unfold solenoid
    by_cases h1 : |ks / 2| < 1e-9
    · simp only [if_pos h1]
      exact ((lawful_exact l).alike _ _ e).coords.symm
    · by_cases h2 : |l| < 1e-9
      · simp only [if_neg h1, if_pos h2]
        exact e.coords.symm
      · simp only [if_neg h1, if_neg h2, coords, e.x, e.px, e.y, e.py, e.zeta, e.delta, e.rvv, e.ptau, e.beta0]

theorem lawful_k0Kick (c l k0 : ℝ) : Lawful fun q => k0Kick c l k0 q :=
  Lawful.of_kind (fun _ => ⟨rfl, rfl, rfl, rfl, rfl, rfl⟩) fun p q e => by
    simp only [k0Kick, coords, e.x, e.px, e.y, e.py, e.zeta, e.ptau, e.beta0, e.chi]

theorem symplectic_k0Kick {p : Part} (k : p.Kin) (c l k0 : ℝ) : SymplecticAt (fun q => k0Kick c l k0 q) p := by
  have h := canonical_kick (z := coords p) (A := fun _ => -(c * k0 * p.chi * l)) (B := fun _ => 0) (C := fun _ => 0)
    (by fun_prop) (by fun_prop) (by fun_prop) 0 0 0 0 0 0 (fun u => (hasDerivAt_const (0 : ℝ) _).congr_deriv (by ring))
    (fun u => (hasDerivAt_const (0 : ℝ) _).congr_deriv (by ring)) fun u => (hasDerivAt_const (0 : ℝ) _).congr_deriv (by ring)
  refine h.congr (Eventually.of_forall fun z => ?_)
  ext i
  fin_cases i <;> simp [coords, k0Kick, place, k.beta0.ne', sub_eq_add_neg]

theorem lawful_nested (l k0 h : ℝ) : ∀ (s : List (ℝ × ℝ)) (last : ℝ), Lawful fun q => nested l k0 h s last q
  | [], last => lawful_polar (last * l) h
  | (d, c) :: rest, last => (lawful_nested l k0 h rest last).comp ((lawful_k0Kick c l k0).comp (lawful_polar (d * l) h))

/-- The particle gets through the sequence of polar drifts and kicks. -/
def NestedRuns (l k0 h : ℝ) : List (ℝ × ℝ) → ℝ → Part → Prop
  | [], last, p => ∀ t ∈ Set.uIcc 0 (last * l), Reaches h t p
  | (d, c) :: rest, last, p => (∀ t ∈ Set.uIcc 0 (d * l), Reaches h t p)
      ∧ NestedRuns l k0 h rest last (k0Kick c l k0 (polarDrift p (d * l) h))

theorem symplectic_nested (l k0 h : ℝ) : ∀ (s : List (ℝ × ℝ)) (last : ℝ) {p : Part}, p.Kin → NestedRuns l k0 h s last p →
    SymplecticAt (fun q => nested l k0 h s last q) p
  | [], _, _, _, r => symplectic_polar r
  | (d, c) :: rest, last, p, k, r => by
    have k1 := (lawful_polar (d * l) h).kin p k
    have k2 := (lawful_k0Kick c l k0).kin _ k1
    have g1 : Good (fun q => k0Kick c l k0 (polarDrift q (d * l) h)) p :=
      Good.comp k ⟨lawful_polar _ _, symplectic_polar r.1⟩ ⟨lawful_k0Kick c l k0, symplectic_k0Kick k1 c l k0⟩
    exact (Good.comp k g1 ⟨lawful_nested l k0 h rest last, symplectic_nested l k0 h rest last k2 r.2⟩).2

/-- The particle gets through the drift part of length `l`; nothing is asked of the models -1 (thin), 0 (expanded) and of unknown
ones. -/
structure Runs (a : DriftArgs) (l : ℝ) (p : Part) : Prop where
  exact : a.model = 1 → p.Forward
  polar : a.model = 2 → ∀ t ∈ Set.uIcc 0 l, Reaches a.h t p
  combined : a.model = 3 → p.chi * (a.k0 * a.h + a.k1) ≠ 0 ∨ p.chi * a.k0 = 0 ∧ a.h = 0
  curved : a.model = 4 → ¬|a.k0 * p.chi| < 1e-8 → a.h ≠ 0 ∧ ∀ t ∈ Set.uIcc 0 l, (curvedBend t a.k0 a.h p).Forward
  curvedOff : a.model = 4 → |a.k0 * p.chi| < 1e-8 → ∀ t ∈ Set.uIcc 0 l, Reaches a.h t p
  straight : a.model = 5 → ∀ t ∈ Set.uIcc 0 l, (straightBend t a.k0 p).Forward
  solenoid : a.model = 6 → 0 < solPz a.ks a.x0 a.y0 p ∧ (|a.ks / 2| < 1e-9 → p.Forward)
  nested4 : a.model = 7 → NestedRuns l a.k0 a.h nested4 0.6756035959798289 p
  nested6 : a.model = 8 → NestedRuns l a.k0 a.h nested6 3.922568052387799819591407413100e-01 p

theorem magnetDrift_eq (a : DriftArgs) (l : ℝ) : (fun q => magnetDrift a l q)
    = if a.model = -1 then fun q => q else if l = 0 then fun q => q else if a.model = 0 then fun q => driftExpanded q l
      else if a.model = 1 then fun q => driftExact q l else if a.model = 2 then fun q => polarDrift q l a.h
      else if a.model = 3 then fun q => combined l a.k0 a.k1 a.h q else if a.model = 4 then fun q => curvedBend l a.k0 a.h q
      else if a.model = 5 then fun q => straightBend l a.k0 q else if a.model = 6 then fun q => solenoid l a.ks a.x0 a.y0 q
      else if a.model = 7 then fun q => nested l a.k0 a.h nested4 0.6756035959798289 q
      else if a.model = 8 then fun q => nested l a.k0 a.h nested6 3.922568052387799819591407413100e-01 q else fun q => q := by
  funext q
  simp only [magnetDrift, apply_ite (fun f : Part → Part => f q)]

theorem ite_elim {α : Type*} {c : Prop} [Decidable c] (P : α → Prop) {f g : α} (h1 : c → P f) (h2 : ¬c → P g) :
    P (if c then f else g) := by
  by_cases h : c
  · rw [if_pos h]
    exact h1 h
  · rw [if_neg h]
    exact h2 h

theorem lawful_magnetDrift (a : DriftArgs) (l : ℝ) : Lawful fun q => magnetDrift a l q := by
  rw [magnetDrift_eq]
  exact ite_elim Lawful (fun _ => Lawful.id) fun _ => ite_elim Lawful (fun _ => Lawful.id) fun _ =>
    ite_elim Lawful (fun _ => lawful_expanded l) fun _ => ite_elim Lawful (fun _ => lawful_exact l) fun _ =>
    ite_elim Lawful (fun _ => lawful_polar l a.h) fun _ => ite_elim Lawful (fun _ => lawful_combined l a.k0 a.k1 a.h) fun _ =>
    ite_elim Lawful (fun _ => lawful_curved l a.k0 a.h) fun _ => ite_elim Lawful (fun _ => lawful_straight l a.k0) fun _ =>
    ite_elim Lawful (fun _ => lawful_solenoid l a.ks a.x0 a.y0) fun _ =>
    ite_elim Lawful (fun _ => lawful_nested l a.k0 a.h nested4 0.6756035959798289) fun _ =>
    ite_elim Lawful (fun _ => lawful_nested l a.k0 a.h nested6 3.922568052387799819591407413100e-01) fun _ => Lawful.id

theorem symplectic_curvedPart {p : Part} (k : p.Kin) {a : DriftArgs} {l : ℝ} (r : Runs a l p) (h7 : a.model = 4) :
    SymplecticAt (fun q => curvedBend l a.k0 a.h q) p := by
  by_cases hk : |a.k0 * p.chi| < 1e-8
  · refine (symplectic_polar (r.curvedOff h7 hk)).congr (Eventually.of_forall fun z => ?_)
    have hk' : |a.k0 * (place p z).chi| < 1e-8 := hk
    simp only [curvedBend, if_pos hk']
  · obtain ⟨hh, hf⟩ := r.curved h7 hk
    have f : ∀ t ∈ Set.uIcc 0 l, 0 < (p.delta + 1) ^ 2 - bendPx (a.k0 * p.chi) a.h t p ^ 2 - p.py ^ 2 := by
      intro t ht
      have h := hf t ht
      simp only [Part.Forward, curvedBend, if_neg hk] at h
      rw [add_comm p.delta 1]
      simp only [bendPx, bendC, add_comm p.delta 1] at h ⊢
      exact h
    have f0 : 0 < (p.delta + 1) ^ 2 - p.px ^ 2 - p.py ^ 2 := by
      have h := f 0 Set.left_mem_uIcc
      simpa [bendPx] using h
    exact symplectic_curved k hh fun t ht => ⟨hk, f0, f t ht⟩

theorem symplectic_straightPart {p : Part} (k : p.Kin) {a : DriftArgs} {l : ℝ} (r : Runs a l p) (h8 : a.model = 5) :
    SymplecticAt (fun q => straightBend l a.k0 q) p := by
  by_cases hk : |a.k0 * p.chi| < 1e-8
  · have f0 : p.Forward := by
      have h := r.straight h8 0 Set.left_mem_uIcc
      simp only [straightBend, if_pos hk] at h
      exact h
    refine (symplectic_exact k f0 l).congr (Eventually.of_forall fun z => ?_)
    have hk' : |a.k0 * (place p z).chi| < 1e-8 := hk
    simp only [straightBend, if_pos hk']
  · have f : ∀ t ∈ Set.uIcc 0 l, 0 < (p.delta + 1) ^ 2 - (p.px - a.k0 * p.chi * t) ^ 2 - p.py ^ 2 := by
      intro t ht
      have h := r.straight h8 t ht
      simp only [Part.Forward, straightBend, if_neg hk] at h
      rw [add_comm p.delta 1]
      exact h
    have f0 : 0 < (p.delta + 1) ^ 2 - p.px ^ 2 - p.py ^ 2 := by
      have h := f 0 Set.left_mem_uIcc
      simpa using h
    exact symplectic_straight k hk fun t ht => ⟨f0, f t ht⟩

/-- Drift parts of all models. -/
theorem symplectic_magnetDrift {p : Part} (k : p.Kin) {a : DriftArgs} {l : ℝ} (r : Runs a l p) :
    SymplecticAt (fun q => magnetDrift a l q) p := by
  rw [magnetDrift_eq]
  let P : (Part → Part) → Prop := fun F => SymplecticAt F p
  exact ite_elim P (fun _ => SymplecticAt.id k) fun _ => ite_elim P (fun _ => SymplecticAt.id k) fun _ =>
    ite_elim P (fun _ => symplectic_expanded k l) fun _ => ite_elim P (fun h => symplectic_exact k (r.exact h) l) fun _ =>
    ite_elim P (fun h => symplectic_polar (r.polar h)) fun _ => ite_elim P (fun h => symplectic_combined k (r.combined h)) fun _ =>
    ite_elim P (fun h => symplectic_curvedPart k r h) fun _ => ite_elim P (fun h => symplectic_straightPart k r h) fun _ =>
    ite_elim P (fun h => symplectic_solenoid k (r.solenoid h).1 (r.solenoid h).2) fun _ =>
    ite_elim P (fun h => symplectic_nested l a.k0 a.h nested4 0.6756035959798289 k (r.nested4 h)) fun _ =>
    ite_elim P (fun h => symplectic_nested l a.k0 a.h nested6 3.922568052387799819591407413100e-01 k (r.nested6 h)) fun _ =>
    SymplecticAt.id k

/-! ### Integrators -/

/-- The particle gets through the steps of an integrator. -/
def RunsSteps (d : DriftArgs) (a : KickArgs) (length : ℝ) : List Step → Part → Prop
  | [], _ => True
  | .drift r :: l, p => Runs d (r * length) p ∧ RunsSteps d a length l (magnetDrift d (r * length) p)
  | .kick w :: l, p => RunsSteps d a length l (magnetKick a w p)

theorem good_runSteps (d : DriftArgs) (a : KickArgs) (length : ℝ) : ∀ (l : List Step) {p : Part}, p.Kin → RunsSteps d a length l p →
    Good (fun q => runSteps d a length l q) p
  | [], _, k, _ => Good.id k
  | .drift r :: l, p, k, h =>
    Good.comp (F := fun q => magnetDrift d (r * length) q) (G := fun q => runSteps d a length l q) k
      ⟨lawful_magnetDrift d (r * length), symplectic_magnetDrift k h.1⟩
      (good_runSteps d a length l ((lawful_magnetDrift d (r * length)).kin p k) h.2)
  | .kick w :: l, p, k, h =>
    Good.comp (F := fun q => magnetKick a w q) (G := fun q => runSteps d a length l q) k
      ⟨(symplectic_magnetKick k a w).2, (symplectic_magnetKick k a w).1⟩
      (good_runSteps d a length l ((symplectic_magnetKick k a w).2.kin p k) h)

/-- The particle gets through the body. -/
def RunsBody (d : DriftArgs) (a : KickArgs) (length : ℝ) (n : ℕ) (integrator : ℤ) (p : Part) : Prop :=
  if n = 0 ∧ a.k0 = 0 ∧ a.k1 = 0 ∧ a.h = 0 then Runs d length p else RunsSteps d a length (steps integrator n) p

theorem good_body {d : DriftArgs} {a : KickArgs} {length : ℝ} {n : ℕ} {integrator : ℤ} {p : Part} (k : p.Kin)
    (h : RunsBody d a length n integrator p) : Good (fun q => body d a length n integrator q) p := by
  unfold body
  unfold RunsBody at h
  split_ifs with h0
  · rw [if_pos h0] at h
    exact ⟨lawful_magnetDrift d length, symplectic_magnetDrift k h⟩
  · rw [if_neg h0] at h
    exact good_runSteps d a length _ k h

theorem good_zetaShift {p : Part} (k : p.Kin) (c : ℝ) : Good (fun q : Part => { q with s := q.s + c, zeta := q.zeta + c }) p := by
  constructor
  · exact Lawful.of_kind (fun _ => ⟨rfl, rfl, rfl, rfl, rfl, rfl⟩) fun p q e => by
      simp only [coords, e.x, e.px, e.y, e.py, e.zeta, e.ptau, e.beta0]
  · have h := canonical_kick (z := coords p) (A := fun _ => 0) (B := fun _ => 0) (C := fun _ => c)
      (by fun_prop) (by fun_prop) (by fun_prop) 0 0 0 0 0 0 (fun u => (hasDerivAt_const (0 : ℝ) _).congr_deriv (by ring))
      (fun u => (hasDerivAt_const (0 : ℝ) _).congr_deriv (by ring)) fun u => (hasDerivAt_const (0 : ℝ) _).congr_deriv (by ring)
    refine h.congr (Eventually.of_forall fun z => ?_)
    ext i
    fin_cases i <;> simp [coords, place, k.beta0.ne']

/-- The particle gets through the body of the magnet; `sg`: 1, or -1 under backtracking. -/
def RunsTrackBody (m : Magnet) (g : Geometry) (w sg : ℝ) (p : Part) : Prop :=
  let core := sg * g.length * w
  let c := configure (modelOf m) m.k0 m.k1 g.h m.ks
  RunsBody (driftArgs m c) (kickArgs m c core (sg * w) (sg * m.hxl)) core (kickNumber m w g.h core) (integratorOf m) p

theorem good_trackBody {m : Magnet} {g : Geometry} {w sg : ℝ} {p : Part} (k : p.Kin) (h : RunsTrackBody m g w sg p) :
    Good (fun q => trackBody m g w sg q) p := by
  have b := good_body k h
  unfold trackBody
  simp only
  split_ifs with h0
  · exact Good.comp k b (good_zetaShift (b.1.kin p k) (sg * g.lengthCurved * w - sg * g.length * w))
  · exact b

end

end Verif.Symplectic
