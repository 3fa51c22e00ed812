import Mathlib.Topology.Order.Compact
import Verif.Apertures.Impact
import Verif.Apertures.Props

/-! # C57: the impact point on a polygon -/

namespace Verif.Apertures

open Classical Topology

noncomputable section

/-- The point of the line from `p` to `q` at the parameter `t`. -/
def along (p q : Pnt) (t : ℝ) : Pnt := (p.1 + t * (q.1 - p.1), p.2 + t * (q.2 - p.2))

theorem along_segment {p q r : Pnt} : r ∈ segment ℝ p q ↔ ∃ t, 0 ≤ t ∧ t ≤ 1 ∧ r = along p q t := by
  constructor
  · rintro ⟨a, b, ha, hb, hab, rfl⟩
    refine ⟨b, hb, by linarith, ?_⟩
    have : a = 1 - b := by linarith
    subst this
    ext <;> simp only [along, Prod.fst_add, Prod.smul_fst, Prod.snd_add, Prod.smul_snd,
      smul_eq_mul] <;> ring
  · rintro ⟨t, h0, h1, rfl⟩
    refine ⟨1 - t, t, by linarith, h0, by ring, ?_⟩
    ext <;> simp only [along, Prod.fst_add, Prod.smul_fst, Prod.snd_add, Prod.smul_snd,
      smul_eq_mul] <;> ring

theorem pairs_sides (vs : List Pnt) : pairs vs = sides vs := by
  cases vs <;> simp [pairs, sides]

/-- The path from `pin` to `pout`, shifted sideways by `s`. -/
def shifted (pin pout : Pnt) (s t : ℝ) : Pnt :=
  (pin.1 + t * (pout.1 - pin.1) - s * (pout.2 - pin.2),
    pin.2 + t * (pout.2 - pin.2) + s * (pout.1 - pin.1))

theorem shifted_continuous (pin pout : Pnt) :
    Continuous (fun z : ℝ × ℝ => shifted pin pout z.2 z.1) := by
  unfold shifted; fun_prop

/-- A small sideways shift avoids a side which the path does not cross. -/
theorem shift_avoids {pin pout v w : Pnt} (hne : pin ≠ pout)
    (h : impactDen pin pout v w ≠ 0 → ∀ t, 0 ≤ t → t ≤ 1 → along pin pout t ∉ segment ℝ v w) :
    ∀ᶠ s in 𝓝[≠] (0 : ℝ), ∀ t ∈ Set.Icc (0 : ℝ) 1, shifted pin pout s t ∉ segment ℝ v w := by
  by_cases hd : impactDen pin pout v w = 0
  · -- parallel
    have hpos : 0 < (pout.1 - pin.1) ^ 2 + (pout.2 - pin.2) ^ 2 := by
      by_contra hc
      apply hne
      have h1 : pout.1 - pin.1 = 0 := by nlinarith [sq_nonneg (pout.1 - pin.1), sq_nonneg (pout.2 - pin.2)]
      have h2 : pout.2 - pin.2 = 0 := by nlinarith [sq_nonneg (pout.1 - pin.1), sq_nonneg (pout.2 - pin.2)]
      exact Prod.ext (by linarith) (by linarith)
    obtain ⟨c, hc⟩ : ∃ c, c = (v.1 - pin.1) * (pout.2 - pin.2) - (v.2 - pin.2) * (pout.1 - pin.1) :=
      ⟨_, rfl⟩
    have hev : ∀ᶠ s in 𝓝[≠] (0 : ℝ),
        -s * ((pout.1 - pin.1) ^ 2 + (pout.2 - pin.2) ^ 2) ≠ c := by
      by_cases hc0 : c = 0
      · filter_upwards [self_mem_nhdsWithin] with s hs
        rw [hc0]
        exact mul_ne_zero (neg_ne_zero.2 hs) hpos.ne'
      · refine (Filter.Eventually.filter_mono nhdsWithin_le_nhds ?_)
        have : Continuous (fun s : ℝ => -s * ((pout.1 - pin.1) ^ 2 + (pout.2 - pin.2) ^ 2)) := by
          fun_prop
        refine this.continuousAt.eventually_ne ?_
        simpa using Ne.symm hc0
    filter_upwards [hev] with s hs t _ hmem
    apply hs
    obtain ⟨k, -, -, e⟩ := along_segment.1 hmem
    have e1 := congrArg Prod.fst e
    have e2 := congrArg Prod.snd e
    simp only [shifted, along] at e1 e2
    rw [hc]
    simp only [impactDen] at hd
    linear_combination (pout.2 - pin.2) * e1 - (pout.1 - pin.1) * e2 + k * hd
  · have hcl : IsClosed (segment ℝ v w) := by
      have : segment ℝ v w = (fun t : ℝ => along v w t) '' Set.Icc 0 1 := by
        ext r
        rw [along_segment]
        constructor
        · rintro ⟨t, h0, h1, rfl⟩; exact ⟨t, ⟨h0, h1⟩, rfl⟩
        · rintro ⟨t, ⟨h0, h1⟩, rfl⟩; exact ⟨t, h0, h1, rfl⟩
      rw [this]
      refine (isCompact_Icc.image ?_).isClosed
      unfold along; fun_prop
    refine Filter.Eventually.filter_mono nhdsWithin_le_nhds ?_
    refine isCompact_Icc.eventually_forall_of_forall_eventually (x₀ := (0 : ℝ))
      (P := fun s t => shifted pin pout s t ∉ segment ℝ v w) ?_
    intro t ht
    have hc : Continuous (fun z : ℝ × ℝ => shifted pin pout z.1 z.2) := by
      unfold shifted; fun_prop
    refine hc.continuousAt.eventually (hcl.isOpen_compl.mem_nhds ?_)
    have := h hd t ht.1 ht.2
    simpa [shifted, along] using this

/-- If one end is inside and the other outside, the path crosses a side which is not parallel to
it. -/
theorem crosses_side {vs : List Pnt} {pin pout : Pnt} (hin : ¬ OnBoundary vs pin)
    (hout : ¬ OnBoundary vs pout) (hne : polyAlive vs pin ≠ polyAlive vs pout) :
    ∃ e ∈ sides vs, impactDen pin pout e.1 e.2 ≠ 0 ∧
      ∃ t, 0 ≤ t ∧ t ≤ 1 ∧ along pin pout t ∈ segment ℝ e.1 e.2 := by
  by_contra hcon
  push Not at hcon
  have hpp : pin ≠ pout := fun h => hne (by rw [h])
  have all : ∀ es : List (Pnt × Pnt), (∀ e ∈ es, e ∈ sides vs) →
      ∀ᶠ s in 𝓝[≠] (0 : ℝ), ∀ e ∈ es, ∀ t ∈ Set.Icc (0 : ℝ) 1,
        shifted pin pout s t ∉ segment ℝ e.1 e.2 := by
    intro es
    induction es with
    | nil => intro _; simp
    | cons e es ih =>
      intro hes
      filter_upwards [ih (fun d hd => hes d (by simp [hd])),
        shift_avoids hpp (fun hd => hcon e (hes e (by simp)) hd)] with s h1 h2 d hd
      rcases List.mem_cons.1 hd with rfl | hd
      · exact h2
      · exact h1 d hd
  have e0 : ∀ᶠ s in 𝓝[≠] (0 : ℝ), polyAlive vs (shifted pin pout s 0) = polyAlive vs pin := by
    refine Filter.Eventually.filter_mono nhdsWithin_le_nhds ?_
    have hc : Continuous (fun s : ℝ => shifted pin pout s 0) := by unfold shifted; fun_prop
    have h0 : shifted pin pout 0 0 = pin := by ext <;> simp [shifted]
    have := hc.tendsto 0
    rw [h0] at this
    exact this.eventually (alive_near hin)
  have e1 : ∀ᶠ s in 𝓝[≠] (0 : ℝ), polyAlive vs (shifted pin pout s 1) = polyAlive vs pout := by
    refine Filter.Eventually.filter_mono nhdsWithin_le_nhds ?_
    have hc : Continuous (fun s : ℝ => shifted pin pout s 1) := by unfold shifted; fun_prop
    have h0 : shifted pin pout 0 1 = pout := by ext <;> simp [shifted]
    have := hc.tendsto 0
    rw [h0] at this
    exact this.eventually (alive_near hout)
  obtain ⟨s, h1, h2, h3⟩ := ((all (sides vs) (fun _ h => h)).and (e0.and e1)).exists
  have hS : IsPreconnected ((fun t => shifted pin pout s t) '' Set.Icc (0 : ℝ) 1) := by
    refine isPreconnected_Icc.image _ (Continuous.continuousOn ?_)
    unfold shifted; fun_prop
  have := alive_connected (vs := vs) hS (by
    rintro _ ⟨t, ht, rfl⟩ ⟨e, he, hm⟩
    exact h1 e he t ht hm) (q := shifted pin pout s 0) (r := shifted pin pout s 1)
    ⟨0, by simp, rfl⟩ ⟨1, by simp, rfl⟩
  rw [h2, h3] at this
  exact hne this

/-- A side with a normal: not of length zero, and the normal is orthogonal and of length one. -/
structure Edge.Good (e : Edge) : Prop where
  ne : e.v ≠ e.w
  orth : e.n.1 * (e.w.1 - e.v.1) + e.n.2 * (e.w.2 - e.v.2) = 0
  unit : e.n.1 ^ 2 + e.n.2 ^ 2 = 1

theorem normal_good {flip : Bool} {v w : Pnt} (h : v ≠ w) : (Edge.mk v w (normal flip v w)).Good := by
  have hp : 0 < (w.1 - v.1) ^ 2 + (w.2 - v.2) ^ 2 := by
    by_contra hc
    apply h
    have h1 : w.1 - v.1 = 0 := by nlinarith [sq_nonneg (w.1 - v.1), sq_nonneg (w.2 - v.2)]
    have h2 : w.2 - v.2 = 0 := by nlinarith [sq_nonneg (w.1 - v.1), sq_nonneg (w.2 - v.2)]
    exact Prod.ext (by linarith) (by linarith)
  obtain ⟨s, hs⟩ : ∃ s, s = Real.sqrt ((w.1 - v.1) ^ 2 + (w.2 - v.2) ^ 2) := ⟨_, rfl⟩
  have hs0 : 0 < s := hs ▸ Real.sqrt_pos.2 hp
  have hss : s ^ 2 = (w.1 - v.1) ^ 2 + (w.2 - v.2) ^ 2 := hs ▸ Real.sq_sqrt hp.le
  cases flip
  · have hq : Real.sqrt ((-(w.2 - v.2)) ^ 2 + (w.1 - v.1) ^ 2) = s := by
      rw [hs]; congr 1; ring
    refine ⟨h, ?_, ?_⟩ <;>
      simp only [normal, Bool.false_eq_true, if_false, hq] <;> field_simp
    · ring
    · rw [hss]; ring
  · have hq : Real.sqrt ((w.2 - v.2) ^ 2 + (-(w.1 - v.1)) ^ 2) = s := by
      rw [hs]; congr 1; ring
    refine ⟨h, ?_, ?_⟩ <;>
      simp only [normal, if_true, hq] <;> field_simp
    · ring
    · rw [hss]; ring

/-- The sides stored by the constructor are those of the polygon, with normals. -/
theorem newPolygon_spec {vs : List Pnt} {es : List Edge} (h : newPolygon vs = some es) :
    es.map (fun e => (e.v, e.w)) = sides vs ∧ ∀ e ∈ es, e.Good := by
  unfold newPolygon at h
  split_ifs at h with hc
  cases h
  constructor
  · rw [List.map_map, ← pairs_sides]
    exact List.map_id' _
  · intro e he
    obtain ⟨d, hd, rfl⟩ := List.mem_map.1 he
    refine normal_good ?_
    intro heq
    have := hc d hd
    rw [heq] at this
    simp at this

/-- With a good side the two parameters solve for the crossing point. -/
theorem cross_point {pin pout : Pnt} {e : Edge} (g : e.Good)
    (hd : impactDen pin pout e.v e.w ≠ 0) :
    along pin pout (tAlong pin pout e) = along e.v e.w (tBorder pin pout e.v e.w) ∧
    (∀ s t, along pin pout t = along e.v e.w s →
      t = tAlong pin pout e ∧ s = tBorder pin pout e.v e.w) := by
  obtain ⟨k, hk1, hk2⟩ : ∃ k, e.n.1 = -k * (e.w.2 - e.v.2) ∧ e.n.2 = k * (e.w.1 - e.v.1) := by
    have hp : (e.w.1 - e.v.1) ^ 2 + (e.w.2 - e.v.2) ^ 2 ≠ 0 := by
      intro hc
      apply g.ne
      have h1 : e.w.1 - e.v.1 = 0 := by nlinarith [sq_nonneg (e.w.1 - e.v.1), sq_nonneg (e.w.2 - e.v.2)]
      have h2 : e.w.2 - e.v.2 = 0 := by nlinarith [sq_nonneg (e.w.1 - e.v.1), sq_nonneg (e.w.2 - e.v.2)]
      exact Prod.ext (by linarith) (by linarith)
    refine ⟨(e.n.2 * (e.w.1 - e.v.1) - e.n.1 * (e.w.2 - e.v.2))
      / ((e.w.1 - e.v.1) ^ 2 + (e.w.2 - e.v.2) ^ 2), ?_, ?_⟩
    · rw [neg_mul, div_mul_eq_mul_div, ← neg_div, eq_div_iff hp]
      linear_combination (e.w.1 - e.v.1) * g.orth
    · rw [div_mul_eq_mul_div, eq_div_iff hp]
      linear_combination (e.w.2 - e.v.2) * g.orth
  have hk : k ≠ 0 := by
    rintro rfl
    have := g.unit
    rw [hk1, hk2] at this
    norm_num at this
  have hden : e.n.1 * (pout.1 - pin.1) + e.n.2 * (pout.2 - pin.2)
      = k * impactDen pin pout e.v e.w := by
    rw [hk1, hk2, impactDen]; ring
  have ht : tAlong pin pout e = (-(e.w.2 - e.v.2) * (e.v.1 - pin.1)
      + (e.w.1 - e.v.1) * (e.v.2 - pin.2)) / impactDen pin pout e.v e.w := by
    rw [tAlong, hden, hk1, hk2, div_eq_div_iff (mul_ne_zero hk hd) hd]; ring
  have hs : tBorder pin pout e.v e.w = ((pout.2 - pin.2) * (pin.1 - e.v.1)
      + (pin.1 - pout.1) * (pin.2 - e.v.2)) / impactDen pin pout e.v e.w := by
    rw [tBorder, if_neg hd]
  constructor
  · rw [ht, hs]
    ext
    · simp only [along]; field_simp; simp only [impactDen]; ring
    · simp only [along]; field_simp; simp only [impactDen]; ring
  · intro s t hst
    have e1 := congrArg Prod.fst hst
    have e2 := congrArg Prod.snd hst
    simp only [along] at e1 e2
    rw [ht, hs, eq_div_iff hd, eq_div_iff hd]
    simp only [impactDen]
    constructor
    · linear_combination (e.w.1 - e.v.1) * e2 - (e.w.2 - e.v.2) * e1
    · linear_combination (pout.1 - pin.1) * e2 - (pout.2 - pin.2) * e1

/-- What the loop has found so far. -/
structure LoopInv (tol : ℝ) (pin pout : Pnt) (all : List Edge) (n : ℕ) (s : ℝ × Option ℕ) : Prop where
  none_one : s.2 = none → s.1 = 1
  sound : ∀ i, s.2 = some i → ∃ e, all[i]? = some e ∧ tBorder pin pout e.v e.w ≥ 0 - tol ∧
    tBorder pin pout e.v e.w ≤ 1 + tol ∧ s.1 = tAlong pin pout e ∧ s.1 ≥ 0 - tol
  bound : s.1 ≤ 1 + n * tol
  first : ∀ i e, i < n → all[i]? = some e → tBorder pin pout e.v e.w ≥ 0 - tol →
    tBorder pin pout e.v e.w ≤ 1 + tol → tAlong pin pout e ≥ 0 - tol →
    s.1 ≤ tAlong pin pout e + n * tol
  found : ∀ i e, i < n → all[i]? = some e → tBorder pin pout e.v e.w ≥ 0 - tol →
    tBorder pin pout e.v e.w ≤ 1 + tol → tAlong pin pout e ≥ 0 - tol →
    tAlong pin pout e < 1 + tol → s.2 ≠ none

theorem loop_inv {tol : ℝ} (ht : 0 ≤ tol) {pin pout : Pnt} (all : List Edge) : ∀ (es : List Edge)
    (n : ℕ) (s : ℝ × Option ℕ), all.drop n = es → LoopInv tol pin pout all n s →
    LoopInv tol pin pout all all.length (impactLoop tol pin pout es n s) ∨ all.length < n := by
  intro es
  induction es with
  | nil =>
    intro n s hd inv
    have hn : all.length ≤ n := by simpa using hd
    rcases Nat.lt_or_ge all.length n with h | h
    · exact Or.inr h
    · have : n = all.length := by omega
      subst this
      exact Or.inl inv
  | cons e es ih =>
    intro n s hd inv
    have hlt : n < all.length := by
      by_contra hc
      rw [List.drop_eq_nil_of_le (by omega)] at hd
      simp at hd
    have hget : all[n]? = some e := by
      have := congrArg List.head? hd
      simpa using this
    have hd' : all.drop (n + 1) = es := by
      rw [← List.tail_drop, hd]; rfl
    simp only [impactLoop]
    refine (ih (n + 1) _ hd' ?_).imp id (fun h => by omega)
    have hn : ((n + 1 : ℕ) : ℝ) * tol = n * tol + tol := by push_cast; ring
    have hnt : (0 : ℝ) ≤ n * tol := mul_nonneg (Nat.cast_nonneg _) ht
    have keep : ∀ (_ : tBorder pin pout e.v e.w ≥ 0 - tol → tBorder pin pout e.v e.w ≤ 1 + tol →
        tAlong pin pout e ≥ 0 - tol → s.1 + tol ≤ tAlong pin pout e),
        LoopInv tol pin pout all (n + 1) s := by
      intro hno
      refine ⟨inv.none_one, inv.sound, by rw [hn]; linarith [inv.bound], ?_, ?_⟩
      · intro i d hi hget' b1 b2 b3
        rw [hn]
        rcases Nat.lt_or_ge i n with h | h
        · linarith [inv.first i d h hget' b1 b2 b3]
        · have : i = n := by omega
          subst this
          rw [hget] at hget'; cases hget'
          linarith [hno b1 b2 b3]
      · intro i d hi hget' b1 b2 b3 b4
        rcases Nat.lt_or_ge i n with h | h
        · exact inv.found i d h hget' b1 b2 b3 b4
        · have : i = n := by omega
          subst this
          rw [hget] at hget'; cases hget'
          intro hnone
          have := hno b1 b2 b3
          rw [inv.none_one hnone] at this
          linarith
    by_cases c1 : tBorder pin pout e.v e.w ≥ 0 - tol ∧ tBorder pin pout e.v e.w ≤ 1 + tol
    · rw [if_pos c1]
      by_cases c2 : tAlong pin pout e ≥ 0 - tol ∧ tAlong pin pout e < s.1 + tol
      · rw [if_pos c2]
        refine ⟨by simp, ?_, ?_, ?_, by simp⟩
        · rintro i ⟨⟩
          exact ⟨e, hget, c1.1, c1.2, rfl, c2.1⟩
        · rw [hn]; simp only; linarith [inv.bound, c2.2]
        · intro i d hi hget' b1 b2 b3
          rw [hn]
          rcases Nat.lt_or_ge i n with h | h
          · simp only; linarith [inv.first i d h hget' b1 b2 b3, c2.2]
          · have : i = n := by omega
            subst this
            rw [hget] at hget'; cases hget'
            simp only; linarith
      · rw [if_neg c2]
        refine keep fun _ _ h3 => ?_
        by_contra hc
        exact c2 ⟨h3, not_le.1 hc⟩
    · rw [if_neg c1]
      exact keep fun h1 h2 _ => absurd ⟨h1, h2⟩ c1

theorem loop_result {tol : ℝ} (ht : 0 ≤ tol) (pin pout : Pnt) (es : List Edge) :
    LoopInv tol pin pout es es.length (impactLoop tol pin pout es 0 (1, none)) := by
  refine (loop_inv ht es es 0 (1, none) (by simp) ?_).resolve_right (by omega)
  refine ⟨fun _ => rfl, by simp, by simp, ?_, ?_⟩
  · intro i e hi; omega
  · intro i e hi; omega

/-- **An impact is found.** For every polygon which the constructor accepts, if one of the two points
is inside and the other outside, and neither is on the boundary, the method finds a side, so that
its assertion does not fail. -/
theorem C57_found {vs : List Pnt} {es : List Edge} (new : newPolygon vs = some es) {tol resc : ℝ}
    (ht : 0 < tol) {pin pout : Pnt} (hin : ¬ OnBoundary vs pin) (hout : ¬ OnBoundary vs pout)
    (hne : polyAlive vs pin ≠ polyAlive vs pout) (zin zout : ℝ) :
    (impact tol resc es pin pout zin zout).found ≠ none := by
  obtain ⟨hs, hg⟩ := newPolygon_spec new
  obtain ⟨d, hd, hden, t, t0, t1, hm⟩ := crosses_side hin hout hne
  rw [← hs] at hd
  obtain ⟨e, he, rfl⟩ := List.mem_map.1 hd
  obtain ⟨i, hi, hget⟩ := List.mem_iff_getElem.1 he
  obtain ⟨s, s0, s1, hm⟩ := along_segment.1 hm
  obtain ⟨h1, h2⟩ := (cross_point (hg e he) hden).2 s t hm
  exact (loop_result ht.le pin pout es).found i e hi
    (by rw [List.getElem?_eq_getElem hi, hget])
    (by simp only at *; linarith) (by simp only at *; linarith) (by linarith) (by linarith)

/-- **Where the impact is.** The side which is found is a side of the polygon, the normal is the one
stored for it, orthogonal to it and of length one; with `resc_fac` one the point returned is on the
straight line between the two points and, up to the tolerance, on that side. -/
theorem C57_point {vs : List Pnt} {es : List Edge} (new : newPolygon vs = some es) {tol : ℝ}
    (ht : 0 ≤ tol) (ht2 : tol < 2) {pin pout : Pnt} {zin zout : ℝ} {i : ℕ}
    (hf : (impact tol 1 es pin pout zin zout).found = some i) :
    let m := impact tol 1 es pin pout zin zout
    ∃ v w n, (sides vs)[i]? = some (v, w) ∧ m.normal = some n ∧
      n.1 * (w.1 - v.1) + n.2 * (w.2 - v.2) = 0 ∧ n.1 ^ 2 + n.2 ^ 2 = 1 ∧
      ∃ t s, (m.x, m.y) = along pin pout t ∧ (m.x, m.y) = along v w s ∧
        -tol ≤ s ∧ s ≤ 1 + tol ∧ -tol ≤ t ∧ t ≤ 1 + es.length * tol := by
  intro m
  obtain ⟨hs, hg⟩ := newPolygon_spec new
  have inv := loop_result ht pin pout es
  obtain ⟨e, hget, b1, b2, b3, b4⟩ := inv.sound i hf
  have he : e ∈ es := List.mem_of_getElem? hget
  have hden : impactDen pin pout e.v e.w ≠ 0 := by
    intro h0
    rw [tBorder, if_pos h0] at b1
    linarith
  have hm : (m.x, m.y) = along pin pout (impactLoop tol pin pout es 0 (1, none)).1 := by
    ext <;> simp only [m, impact, along] <;> ring
  refine ⟨e.v, e.w, e.n, ?_, ?_, (hg e he).orth, (hg e he).unit,
    (impactLoop tol pin pout es 0 (1, none)).1, tBorder pin pout e.v e.w, hm, ?_, by linarith,
    b2, by linarith, inv.bound⟩
  · rw [← hs, List.getElem?_map, hget]; rfl
  · have hf' : (impactLoop tol pin pout es 0 (1, none)).2 = some i := hf
    simp only [m, impact, hf', Option.bind_some, hget, Option.map_some]
  · rw [hm, b3]; exact (cross_point (hg e he) hden).1

/-- **It is the first one.** No side which is not parallel to the path is crossed earlier, up to
the tolerance for each side. -/
theorem C57_first {vs : List Pnt} {es : List Edge} (new : newPolygon vs = some es) {tol : ℝ}
    (ht : 0 ≤ tol) {pin pout : Pnt} {zin zout : ℝ} {v w : Pnt} (hside : (v, w) ∈ sides vs)
    (hden : impactDen pin pout v w ≠ 0) {t' : ℝ} (t0 : 0 ≤ t')
    (hmeet : along pin pout t' ∈ segment ℝ v w) :
    ∃ t, ((impact tol 1 es pin pout zin zout).x, (impact tol 1 es pin pout zin zout).y)
      = along pin pout t ∧ t ≤ t' + es.length * tol := by
  obtain ⟨hs, hg⟩ := newPolygon_spec new
  rw [← hs] at hside
  obtain ⟨e, he, hvw⟩ := List.mem_map.1 hside
  cases hvw
  obtain ⟨i, hi, hget⟩ := List.mem_iff_getElem.1 he
  obtain ⟨s, s0, s1, hm⟩ := along_segment.1 hmeet
  obtain ⟨h1, h2⟩ := (cross_point (hg e he) hden).2 s t' hm
  refine ⟨(impactLoop tol pin pout es 0 (1, none)).1, ?_, ?_⟩
  · ext <;> simp only [impact, along] <;> ring
  · have := (loop_result ht pin pout es).first i e hi
      (by rw [List.getElem?_eq_getElem hi, hget])
      (by linarith) (by linarith) (by linarith)
    linarith

/-- **The longitudinal position is not interpolated**: the third value returned is zero whatever
the longitudinal positions given. -/
theorem C57_z_violated : ∃ (es : List Edge) (pin pout : Pnt),
    newPolygon arrow = some es ∧ polyAlive arrow pin = true ∧ polyAlive arrow pout = false ∧
    (impact (1 / 10 ^ 13) 1 es pin pout 5 6).z = 0 := by
  have hp : ∀ e ∈ pairs arrow, Real.sqrt ((e.2.1 - e.1.1) ^ 2 + (e.2.2 - e.1.2) ^ 2) > 0 := by
    intro e he
    rw [pairs_sides] at he
    simp only [sides, arrow, List.cons_append, List.nil_append, List.zip_cons_cons,
      List.zip_nil_right, List.mem_cons, List.not_mem_nil, or_false] at he
    apply Real.sqrt_pos.2
    rcases he with rfl | rfl | rfl | rfl <;> norm_num
  refine ⟨_, (0, 0), (0, 3), by unfold newPolygon; rw [if_pos hp], ?_, ?_, rfl⟩
  · norm_num [polyAlive, arrow, polyLoop, crossed]
  · norm_num [polyAlive, arrow, polyLoop, crossed]

end

end Verif.Apertures
