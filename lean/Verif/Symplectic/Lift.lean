import Verif.Symplectic.Theory
import Mathlib.Analysis.Real.Sqrt
import Mathlib.Tactic.FieldSimp
import Mathlib.Tactic.Linarith
import Mathlib.Tactic.NormNum

/-!
# Symplectic maps of particles: composition
-/

namespace Verif.Symplectic

open Frames Filter Topology

noncomputable section

/-- The particles agree in everything but `s` and spin. -/
structure Alike (p q : Part) : Prop where
  x : q.x = p.x
  px : q.px = p.px
  y : q.y = p.y
  py : q.py = p.py
  zeta : q.zeta = p.zeta
  delta : q.delta = p.delta
  ptau : q.ptau = p.ptau
  rpp : q.rpp = p.rpp
  rvv : q.rvv = p.rvv
  beta0 : q.beta0 = p.beta0
  chi : q.chi = p.chi

theorem Alike.coords {p q : Part} (h : Alike p q) : coords q = coords p := by
  simp [Symplectic.coords, h.x, h.px, h.y, h.py, h.zeta, h.ptau, h.beta0]

theorem Alike.symm {p q : Part} (h : Alike p q) : Alike q p :=
  ⟨h.x.symm, h.px.symm, h.y.symm, h.py.symm, h.zeta.symm, h.delta.symm, h.ptau.symm, h.rpp.symm, h.rvv.symm, h.beta0.symm, h.chi.symm⟩

theorem Alike.refl (p : Part) : Alike p p := ⟨rfl, rfl, rfl, rfl, rfl, rfl, rfl, rfl, rfl, rfl, rfl⟩

theorem Alike.trans {p q r : Part} (h : Alike p q) (g : Alike q r) : Alike p r :=
  ⟨g.x.trans h.x, g.px.trans h.px, g.y.trans h.y, g.py.trans h.py, g.zeta.trans h.zeta, g.delta.trans h.delta, g.ptau.trans h.ptau,
    g.rpp.trans h.rpp, g.rvv.trans h.rvv, g.beta0.trans h.beta0, g.chi.trans h.chi⟩

theorem Alike.kin {p q : Part} (h : Alike p q) (k : p.Kin) : q.Kin := by
  obtain ⟨k1, k2, k3, k4, k5, k6⟩ := k
  constructor <;> simp only [h.delta, h.ptau, h.rpp, h.rvv, h.beta0] <;> assumption

/-- The energy of the coordinates is that of a moving particle. -/
structure Fine (beta0 : ℝ) (z : Z) : Prop where
  rad : 0 < 1 + 2 * z 5 + beta0 ^ 2 * z 5 ^ 2
  energy : 0 < 1 + beta0 ^ 2 * z 5

theorem opdOf_pos {b z : ℝ} (h : 0 < 1 + 2 * z + b ^ 2 * z ^ 2) : 0 < opdOf b z := Real.sqrt_pos.2 h

theorem opdOf_sq {b z : ℝ} (h : 0 < 1 + 2 * z + b ^ 2 * z ^ 2) : opdOf b z ^ 2 = 1 + 2 * z + b ^ 2 * z ^ 2 := Real.sq_sqrt h.le

theorem kin_place {p : Part} (hb : 0 < p.beta0) {z : Z} (h : Fine p.beta0 z) : (place p z).Kin := by
  have h1 := opdOf_pos h.rad
  have h2 := opdOf_sq h.rad
  have h3 := h.energy
  constructor <;> simp only [place]
  · exact hb
  · positivity
  · linarith
  · rw [add_sub_cancel, h2]
    field_simp
  · field_simp
    ring
  · rw [add_sub_cancel]
    field_simp

theorem coords_place {p : Part} (hb : p.beta0 ≠ 0) (z : Z) : coords (place p z) = z := by
  ext i
  fin_cases i <;> simp [coords, place, hb]

theorem opd_coords {p : Part} (k : p.Kin) : opdOf p.beta0 (p.ptau / p.beta0) = 1 + p.delta := by
  have hb := k.beta0.ne'
  have e : 1 + 2 * (p.ptau / p.beta0) + p.beta0 ^ 2 * (p.ptau / p.beta0) ^ 2 = (1 + p.delta) ^ 2 := by
    rw [k.shell]
    field_simp
  rw [opdOf, e, Real.sqrt_sq k.delta.le]

theorem fine_coords {p : Part} (k : p.Kin) : Fine p.beta0 (coords p) := by
  have hb := k.beta0.ne'
  have e : 1 + 2 * (p.ptau / p.beta0) + p.beta0 ^ 2 * (p.ptau / p.beta0) ^ 2 = (1 + p.delta) ^ 2 := by
    rw [k.shell]
    field_simp
  have e2 : 1 + p.beta0 ^ 2 * (p.ptau / p.beta0) = (1 + p.delta) / p.rvv := by
    rw [k.energy]
    have := k.rvv.ne'
    field_simp
  have h1 := k.delta
  have h2 := k.rvv
  constructor
  · show 0 < 1 + 2 * (p.ptau / p.beta0) + p.beta0 ^ 2 * (p.ptau / p.beta0) ^ 2
    rw [e]
    positivity
  · show 0 < 1 + p.beta0 ^ 2 * (p.ptau / p.beta0)
    rw [e2]
    positivity

/-- Particles around `p` are made of their coordinates. -/
theorem place_alike {p q : Part} (k : q.Kin) (hb : q.beta0 = p.beta0) (hc : q.chi = p.chi) : Alike q (place p (coords q)) := by
  have h := opd_coords k
  rw [hb] at h
  have hb0 : p.beta0 ≠ 0 := by rw [← hb]; exact k.beta0.ne'
  have e5 : coords q 5 = q.ptau / p.beta0 := by rw [← hb]; rfl
  constructor <;> simp only [place, e5, h]
  · rfl
  · rfl
  · rfl
  · rfl
  · rfl
  · ring
  · field_simp
  · rw [eq_comm, eq_div_iff k.delta.ne']
    exact k.rpp
  · have := k.energy
    have hr := k.rvv.ne'
    rw [hb] at this
    have e : 1 + p.beta0 ^ 2 * (q.ptau / p.beta0) = 1 + p.beta0 * q.ptau := by field_simp
    have hE : (1 + p.beta0 * q.ptau) ≠ 0 := by
      intro h0
      rw [h0, mul_zero] at this
      exact k.delta.ne' this
    rw [e, div_eq_iff hE]
    exact this
  · exact hb.symm
  · exact hc.symm

theorem place_coords {p : Part} (k : p.Kin) : place p (coords p) = p := by
  have h := place_alike k rfl rfl
  ext
  · exact h.x
  · exact h.px
  · exact h.y
  · exact h.py
  · exact h.zeta
  · rfl
  · exact h.delta
  · exact h.ptau
  · exact h.rpp
  · exact h.rvv
  · rfl
  · rfl
  · rfl
  · rfl
  · rfl

theorem fine_near {b : ℝ} {z : Z} (h : Fine b z) : ∀ᶠ y in 𝓝 z, Fine b y := by
  have c1 : ContinuousAt (fun y : Z => 1 + 2 * y 5 + b ^ 2 * y 5 ^ 2) z := by fun_prop
  have c2 : ContinuousAt (fun y : Z => 1 + b ^ 2 * y 5) z := (Continuous.add continuous_const (by fun_prop)).continuousAt
  filter_upwards [c1.eventually (lt_mem_nhds h.rad), c2.eventually (lt_mem_nhds h.energy)] with y h1 h2
  exact ⟨h1, h2⟩

/-- Motions which respect the energy variables and which read neither `s` nor spin. -/
structure Lawful (F : Part → Part) : Prop where
  kin : ∀ p, p.Kin → (F p).Kin
  beta0 : ∀ p, (F p).beta0 = p.beta0
  chi : ∀ p, (F p).chi = p.chi
  alike : ∀ p q, Alike p q → Alike (F p) (F q)

theorem Lawful.id : Lawful fun p => p := ⟨fun _ h => h, fun _ => rfl, fun _ => rfl, fun _ _ h => h⟩

theorem Lawful.comp {F G : Part → Part} (hG : Lawful G) (hF : Lawful F) : Lawful fun p => G (F p) :=
  ⟨fun p h => hG.kin _ (hF.kin p h), fun p => (hG.beta0 _).trans (hF.beta0 p), fun p => (hG.chi _).trans (hF.chi p),
    fun p q h => hG.alike _ _ (hF.alike p q h)⟩

/-- Energy variables which nothing touches. -/
theorem Lawful.of_kind {F : Part → Part} (h : ∀ p, SameKind p (F p)) (a : ∀ p q, Alike p q → coords (F p) = coords (F q)) : Lawful F where
  kin p k := by
    obtain ⟨h1, h2, h3, h4, h5, h6⟩ := h p
    obtain ⟨k1, k2, k3, k4, k5, k6⟩ := k
    constructor <;> simp only [h1, h2, h3, h4, h5] <;> assumption
  beta0 p := (h p).beta0
  chi p := (h p).chi
  alike p q e := by
    have c := a p q e
    have c' := fun i => congrFun c i
    have h1 := h p
    have h2 := h q
    constructor
    · exact (c' 0).symm
    · exact (c' 1).symm
    · exact (c' 2).symm
    · exact (c' 3).symm
    · exact (c' 4).symm
    · rw [h1.delta, h2.delta, e.delta]
    · rw [h1.ptau, h2.ptau, e.ptau]
    · rw [h1.rpp, h2.rpp, e.rpp]
    · rw [h1.rvv, h2.rvv, e.rvv]
    · rw [h1.beta0, h2.beta0, e.beta0]
    · rw [h1.chi, h2.chi, e.chi]

theorem SymplecticAt.id {p : Part} (k : p.Kin) : SymplecticAt (fun p => p) p := by
  have e : (fun z => Symplectic.coords (place p z)) = fun z => z := funext fun z => coords_place k.beta0.ne' z
  unfold SymplecticAt
  rw [e]
  exact Canonical.id _

theorem SymplecticAt.congr {F G : Part → Part} {p : Part} (h : SymplecticAt F p)
    (e : ∀ᶠ z in 𝓝 (coords p), Symplectic.coords (G (place p z)) = Symplectic.coords (F (place p z))) : SymplecticAt G p :=
  Canonical.congr h e

/-- One motion after another. -/
theorem SymplecticAt.comp {F G : Part → Part} {p : Part} (k : p.Kin) (lF : Lawful F) (lG : Lawful G) (hG : SymplecticAt G (F p))
    (hF : SymplecticAt F p) : SymplecticAt (fun p => G (F p)) p := by
  have hz : Symplectic.coords (F (place p (Symplectic.coords p))) = Symplectic.coords (F p) := by rw [place_coords k]
  have c : Canonical (fun z => Symplectic.coords (G (place (F p) (Symplectic.coords (F (place p z)))))) (Symplectic.coords p) := by
    refine Canonical.comp (g := fun z => Symplectic.coords (G (place (F p) z))) (f := fun z => Symplectic.coords (F (place p z))) ?_ hF
    rw [hz]
    exact hG
  refine c.congr ?_
  filter_upwards [fine_near (fine_coords k)] with z hz
  have kz := lF.kin _ (kin_place k.beta0 hz)
  refine (lG.alike _ _ (place_alike kz ?_ ?_)).coords.symm
  · rw [lF.beta0, lF.beta0]
    rfl
  · rw [lF.chi, lF.chi]
    rfl

end

end Verif.Symplectic
