import Verif.Magnets.Body
import Verif.Magnets.DriftProps
import Verif.Magnets.KickProps

/-!
# Auxiliary facts about the body of a magnet
-/

namespace Verif.Magnets

open Frames

noncomputable section

/-! ## Shifts of `s` and `zeta` -/

/-- The same particle, later and further. -/
def later (ds dz : ℝ) (p : Part) : Part := { p with s := p.s + ds, zeta := p.zeta + dz }

theorem later_expanded (ds dz l : ℝ) (p : Part) : driftExpanded (later ds dz p) l = later ds dz (driftExpanded p l) := by
  ext <;> simp only [driftExpanded, later] <;> ring

theorem later_exact (ds dz l : ℝ) (p : Part) : driftExact (later ds dz p) l = later ds dz (driftExact p l) := by
  ext <;> simp only [driftExact, later] <;> ring

theorem later_polar (ds dz l h : ℝ) (p : Part) : polarDrift (later ds dz p) l h = later ds dz (polarDrift p l h) := by
  ext <;> simp only [polarDrift, later] <;> ring

theorem later_combined (ds dz l k0 k1 h : ℝ) (p : Part) :
    combined l k0 k1 h (later ds dz p) = later ds dz (combined l k0 k1 h p) := by
  ext <;> simp only [combined, later] <;> ring

theorem later_curved (ds dz l k0 h : ℝ) (p : Part) : curvedBend l k0 h (later ds dz p) = later ds dz (curvedBend l k0 h p) := by
  unfold curvedBend
  by_cases c : |k0 * p.chi| < 1e-8
  · have c' : |k0 * (later ds dz p).chi| < 1e-8 := c
    simp only [if_pos c, if_pos c', later_polar]
  · have c' : ¬ |k0 * (later ds dz p).chi| < 1e-8 := c
    simp only [if_neg c, if_neg c']
    ext <;> simp only [later] <;> ring

theorem later_straight (ds dz l k0 : ℝ) (p : Part) : straightBend l k0 (later ds dz p) = later ds dz (straightBend l k0 p) := by
  unfold straightBend
  by_cases c : |k0 * p.chi| < 1e-8
  · have c' : |k0 * (later ds dz p).chi| < 1e-8 := c
    simp only [if_pos c, if_pos c', later_exact]
  · have c' : ¬ |k0 * (later ds dz p).chi| < 1e-8 := c
    simp only [if_neg c, if_neg c']
    ext <;> simp only [later] <;> ring

theorem later_solenoid (ds dz l ks x0 y0 : ℝ) (p : Part) :
    solenoid l ks x0 y0 (later ds dz p) = later ds dz (solenoid l ks x0 y0 p) := by
  unfold solenoid
  simp only
  by_cases c : |ks / 2| < 1e-9
  · simp only [if_pos c, later_exact]
  · simp only [if_neg c]
    by_cases c2 : |l| < 1e-9
    · simp only [if_pos c2]
    · simp only [if_neg c2]
      ext <;> simp only [later] <;> ring

theorem later_nested (ds dz l k0 h : ℝ) (L : List (ℝ × ℝ)) (last : ℝ) (p : Part) :
    nested l k0 h L last (later ds dz p) = later ds dz (nested l k0 h L last p) := by
  induction L generalizing p with
  | nil => exact later_polar ..
  | cons dc rest ih =>
    simp only [nested]
    rw [later_polar]
    exact ih (k0Kick dc.2 l k0 (polarDrift p (dc.1 * l) h))

theorem later_drift (a : DriftArgs) (ds dz l : ℝ) (p : Part) :
    magnetDrift a l (later ds dz p) = later ds dz (magnetDrift a l p) := by
  by_cases c : a.model = -1
  · simp only [magnetDrift, if_pos c]
  by_cases c0 : l = 0
  · simp only [magnetDrift, if_neg c, if_pos c0]
  by_cases c1 : a.model = 0
  · simp only [magnetDrift, if_neg c, if_neg c0, if_pos c1, later_expanded]
  by_cases c2 : a.model = 1
  · simp only [magnetDrift, if_neg c, if_neg c0, if_neg c1, if_pos c2, later_exact]
  by_cases c3 : a.model = 2
  · simp only [magnetDrift, if_neg c, if_neg c0, if_neg c1, if_neg c2, if_pos c3, later_polar]
  by_cases c4 : a.model = 3
  · simp only [magnetDrift, if_neg c, if_neg c0, if_neg c1, if_neg c2, if_neg c3, if_pos c4, later_combined]
  by_cases c5 : a.model = 4
  · simp only [magnetDrift, if_neg c, if_neg c0, if_neg c1, if_neg c2, if_neg c3, if_neg c4, if_pos c5, later_curved]
  by_cases c6 : a.model = 5
  · simp only [magnetDrift, if_neg c, if_neg c0, if_neg c1, if_neg c2, if_neg c3, if_neg c4, if_neg c5, if_pos c6, later_straight]
  by_cases c7 : a.model = 6
  · simp only [magnetDrift, if_neg c, if_neg c0, if_neg c1, if_neg c2, if_neg c3, if_neg c4, if_neg c5, if_neg c6, if_pos c7,
      later_solenoid]
  by_cases c8 : a.model = 7
  · simp only [magnetDrift, if_neg c, if_neg c0, if_neg c1, if_neg c2, if_neg c3, if_neg c4, if_neg c5, if_neg c6, if_neg c7,
      if_pos c8, later_nested]
  by_cases c9 : a.model = 8
  · simp only [magnetDrift, if_neg c, if_neg c0, if_neg c1, if_neg c2, if_neg c3, if_neg c4, if_neg c5, if_neg c6, if_neg c7,
      if_neg c8, if_pos c9, later_nested]
  simp only [magnetDrift, if_neg c, if_neg c0, if_neg c1, if_neg c2, if_neg c3, if_neg c4, if_neg c5, if_neg c6, if_neg c7,
    if_neg c8, if_neg c9]

theorem later_kick (k : KickArgs) (ds dz w : ℝ) (p : Part) : magnetKick k w (later ds dz p) = later ds dz (magnetKick k w p) := by
  rw [C58_kick, C58_kick]
  ext <;> simp only [later, forceX, forceY, forceZ]
  ring

theorem later_steps (d : DriftArgs) (k : KickArgs) (ds dz l : ℝ) (L : List Step) (p : Part) :
    runSteps d k l L (later ds dz p) = later ds dz (runSteps d k l L p) := by
  induction L generalizing p with
  | nil => rfl
  | cons o rest ih =>
    have e : o.run d k l (later ds dz p) = later ds dz (o.run d k l p) := by
      cases o
      · exact later_drift ..
      · exact later_kick ..
    show runSteps d k l rest (o.run d k l (later ds dz p)) = _
    rw [e]
    exact ih _

theorem later_body (d : DriftArgs) (k : KickArgs) (ds dz l : ℝ) (n : ℕ) (i : ℤ) (p : Part) :
    body d k l n i (later ds dz p) = later ds dz (body d k l n i p) := by
  unfold body
  split_ifs
  · exact later_drift ..
  · exact later_steps ..

theorem later_later (a b c d : ℝ) (p : Part) : later a b (later c d p) = later (c + a) (d + b) p := by
  ext <;> simp only [later] <;> ring

theorem later_zero (p : Part) : later 0 0 p = p := by
  ext <;> simp [later]

/-! ## The integrators are symmetric -/

theorem reverse_replicate_flatten (n : ℕ) (L : List Step) : (List.replicate n L).flatten.reverse = (List.replicate n L.reverse).flatten := by
  induction n with
  | zero => rfl
  | succ n ih =>
    rw [List.replicate_succ', List.flatten_append, List.reverse_append, ih, List.replicate_succ]
    simp

theorem replicate_shift (n : ℕ) (a b : Step) :
    (List.replicate n [a, b]).flatten ++ [a] = a :: (List.replicate n [b, a]).flatten := by
  induction n with
  | zero => rfl
  | succ n ih =>
    rw [List.replicate_succ, List.replicate_succ, List.flatten_cons, List.flatten_cons]
    simp only [List.cons_append, List.nil_append]
    rw [ih]

theorem steps_reverse (i : ℤ) (n : ℕ) : (steps i n).reverse = steps i n := by
  unfold steps
  split_ifs
  · unfold teapot
    simp only
    generalize (if n > 1 then 1 / (2 * (1 + (n : ℝ))) else 0.5 : ℝ) = e
    generalize (if n > 1 then (n : ℝ) / ((n : ℝ) * n - 1) else 0 : ℝ) = m
    rw [List.reverse_append, List.reverse_append, reverse_replicate_flatten]
    simp only [List.reverse_cons, List.reverse_nil, List.nil_append, List.cons_append]
    have := replicate_shift (n - 1) (.kick (1 / (n : ℝ))) (.drift m)
    rw [← List.cons_append, ← List.cons_append]
    rw [← this]
    simp
  · unfold uniform
    rw [reverse_replicate_flatten]
    rfl
  · unfold yoshida
    simp only
    rw [reverse_replicate_flatten]
    rfl
  · rfl

/-! ## The opposite kick -/

/-- The arguments of the kicks under backtracking. -/
def KickArgs.opposite (k : KickArgs) : KickArgs := { k with length := -k.length, factor := -k.factor, hxl := -k.hxl }

theorem hTot_opposite (k : KickArgs) : hTot k.opposite = hTot k := by
  unfold hTot KickArgs.opposite
  simp only [ne_eq, neg_eq_zero]
  split_ifs
  · rfl
  · rw [neg_div_neg_eq]

theorem bodyField_opposite (k : KickArgs) (x y : ℝ) : bodyField k.opposite x y = -bodyField k x y := by
  unfold bodyField KickArgs.opposite
  push_cast
  ring

theorem force_opposite (k : KickArgs) (p : Part) :
    forceX k.opposite p = -forceX k p ∧ forceY k.opposite p = -forceY k p ∧ forceZ k.opposite p = -forceZ k p := by
  have h0 : k0lMult k.opposite = -k0lMult k := by
    simp only [k0lMult, KickArgs.opposite]
    ring
  have h1 : k1lMult k.opposite = -k1lMult k := by
    simp only [k1lMult, KickArgs.opposite]
    by_cases c : 1 ≤ k.order <;> by_cases c' : 1 ≤ k.orderRel <;> simp [c, c']
    ring
  refine ⟨?_, ?_, ?_⟩
  · simp only [forceX, hTot_opposite, bodyField_opposite, h0, h1, Complex.neg_re]
    simp only [KickArgs.opposite]
    by_cases c : k.rotFrame = true <;> simp [c] <;> ring
  · simp only [forceY, hTot_opposite, bodyField_opposite, h1, Complex.neg_im]
    simp only [KickArgs.opposite]
    ring
  · simp only [forceZ]
    simp only [KickArgs.opposite]
    by_cases c : k.rotFrame = true <;> simp [c]
    ring

theorem kick_opposite (k : KickArgs) (w : ℝ) (p : Part) : magnetKick k.opposite w p = magnetKick k (-w) p := by
  obtain ⟨h1, h2, h3⟩ := force_opposite k p
  rw [C58_kick, C58_kick, h1, h2, h3]
  ext <;> simp

/-! ## The steps backwards -/

/-- The drift part of length `l` can be undone: nothing to show for the expanded drift, the exact drift and the straight bend; the
conditions of C59 for the others. -/
def DriftOk (d : DriftArgs) (l : ℝ) (p : Part) : Prop :=
  l = 0 ∨ d.model = -1 ∨ d.model = 0 ∨ d.model = 1 ∨ d.model = 5 ∨ (0 ≤ d.model ∧ d.model ≤ 6 ∧ d.Regular l p) ∨
    ((d.model = 7 ∨ d.model = 8) ∧ OpsOk l d.k0 d.h (nestedOps d.model) p)

theorem drift_undo {d : DriftArgs} {l : ℝ} {p : Part} (h : DriftOk d l p) : magnetDrift d (-l) (magnetDrift d l p) = p := by
  obtain h | h | h | h | h | ⟨h1, h2, h3⟩ | ⟨h1, h2⟩ := h
  · subst h
    simp [magnetDrift]
  · simp [magnetDrift, h]
  · have e := fun q l => congrFun (md0 h q) l
    simp only [e]
    rw [(C50_compose p l (-l)).2, add_neg_cancel, expanded_zero]
  · have e := fun q l => congrFun (md1 h q) l
    simp only [e]
    rw [(C50_compose p l (-l)).1, add_neg_cancel, exact_zero]
  · have e := fun q l => congrFun (md5 h q) l
    simp only [e]
    rw [straightBend_add, add_neg_cancel, straight_zero]
  · exact C59_inverse d ⟨h1, h2⟩ l p h3
  · exact C59_nested_inverse d h1 l p h2

/-- All drifts on the way can be undone. -/
def StepsOk (d : DriftArgs) (k : KickArgs) (l : ℝ) : List Step → Part → Prop
  | [], _ => True
  | .drift r :: rest, p => DriftOk d (r * l) p ∧ StepsOk d k l rest (magnetDrift d (r * l) p)
  | .kick w :: rest, p => StepsOk d k l rest (magnetKick k w p)

theorem steps_undo (d : DriftArgs) (k : KickArgs) (l : ℝ) (L : List Step) (p : Part) (ok : StepsOk d k l L p) :
    runSteps d k.opposite (-l) L.reverse (runSteps d k l L p) = p := by
  induction L generalizing p with
  | nil => rfl
  | cons o rest ih =>
    cases o with
    | drift r =>
      have := ih _ ok.2
      simp only [runSteps, List.foldl_cons, List.reverse_cons, List.foldl_append, List.foldl_nil] at this ⊢
      simp only [Step.run] at this ⊢
      rw [this, show r * -l = -(r * l) by ring]
      exact drift_undo ok.1
    | kick w =>
      have := ih _ ok
      simp only [runSteps, List.foldl_cons, List.reverse_cons, List.foldl_append, List.foldl_nil] at this ⊢
      simp only [Step.run] at this ⊢
      rw [this, kick_opposite]
      exact C58_undo k w p

/-- The drifts of the body can be undone. -/
def BodyOk (d : DriftArgs) (k : KickArgs) (l : ℝ) (n : ℕ) (i : ℤ) (p : Part) : Prop :=
  if n = 0 ∧ k.k0 = 0 ∧ k.k1 = 0 ∧ k.h = 0 then DriftOk d l p else StepsOk d k l (steps i n) p

theorem body_undo (d : DriftArgs) (k : KickArgs) (l : ℝ) (n : ℕ) (i : ℤ) (p : Part) (ok : BodyOk d k l n i p) :
    body d k.opposite (-l) n i (body d k l n i p) = p := by
  unfold BodyOk at ok
  by_cases c : n = 0 ∧ k.k0 = 0 ∧ k.k1 = 0 ∧ k.h = 0
  · rw [if_pos c] at ok
    have c' : n = 0 ∧ k.opposite.k0 = 0 ∧ k.opposite.k1 = 0 ∧ k.opposite.h = 0 := c
    simp only [body, if_pos c, if_pos c']
    exact drift_undo ok
  · rw [if_neg c] at ok
    have c' : ¬ (n = 0 ∧ k.opposite.k0 = 0 ∧ k.opposite.k1 = 0 ∧ k.opposite.h = 0) := c
    simp only [body, if_neg c, if_neg c']
    have := steps_undo d k l _ p ok
    rwa [steps_reverse] at this

end

end Verif.Magnets
