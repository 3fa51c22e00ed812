import Verif.Polar.Model

/-!
# Radiative polarization: properties (C131)

Specification: the formula of Derbenev and Kondratenko in terms of the motion alone.  The axis is along velocity times acceleration, with the sign for the spin of
electrons and positrons alike: reversing the charge together with all fields changes neither the motion of the particles nor that of their spins, so that it cannot
change the polarization.
-/

namespace Verif.Polar

open Classical

noncomputable section

/-- Acceleration divided by the square of the velocity: positive curvatures bend towards negative x and y. -/
def acceleration (r : Row) : V3 := ⟨-r.kx, -r.ky, 0⟩

/-- Direction of acceleration times direction of the reference orbit (along z), of length one where there is a curvature. -/
def axis (r : Row) : V3 :=
  let a := acceleration r
  let len := √(a.x ^ 2 + a.y ^ 2)
  ⟨a.y / len, -a.x / len, 0⟩

/-- Integrals over the ring of the rates in the formula of Derbenev and Kondratenko. -/
def dkUp (rows : List Row) : ℝ := (rows.map fun r => r.length * r.kappa ^ 3 * (r.n.dot (axis r) - r.d.dot (axis r))).sum

def dkDown (rows : List Row) : ℝ := (rows.map fun r => r.length * r.kappa ^ 3 * (1 - 2 / 9 * r.n.dot r.v ^ 2 + 11 / 18 * r.d.dot r.d)).sum

/-- Equilibrium polarization. -/
def dk (rows : List Row) : ℝ := 8 / (5 * √3) * dkUp rows / dkDown rows

/-! ## The reported value -/

/-- No longitudinal field anywhere. -/
def Transverse (rows : List Row) : Prop := ∀ r ∈ rows, r.ks = 0 ∧ r.bs = 0

theorem kappa_nonneg (r : Row) : 0 ≤ r.kappa := Real.sqrt_nonneg _

/-- The direction of the field, weighted with the curvature, is the axis times the sign of the rigidity. -/
theorem ib_axis (p : Ref) (r : Row) (u : V3) (hb : p.brhoPart ≠ 0) (hr : r.ks = 0 ∧ r.bs = 0) :
    r.kappa ^ 3 * u.dot (ib p r) = (p.brhoPart / |p.brhoPart|) * (r.kappa ^ 3 * u.dot (axis r)) := by
  obtain ⟨h1, h2⟩ := hr
  have hsq : (field p r).x ^ 2 + (field p r).y ^ 2 + (field p r).z ^ 2 = (r.kx ^ 2 + r.ky ^ 2) * p.brhoPart ^ 2 := by
    simp only [field, h1, h2]; ring
  have hmod : √((field p r).x ^ 2 + (field p r).y ^ 2 + (field p r).z ^ 2) = r.kappa * |p.brhoPart| := by
    rw [hsq, Real.sqrt_mul (by positivity), Real.sqrt_sq_eq_abs]; rfl
  have hax : √((acceleration r).x ^ 2 + (acceleration r).y ^ 2) = r.kappa := by
    simp [acceleration, Row.kappa]
  by_cases hk : r.kappa = 0
  · rw [hk]; simp
  · have hne : r.kappa * |p.brhoPart| ≠ 0 := mul_ne_zero hk (abs_ne_zero.mpr hb)
    have hm : fieldMod p r = r.kappa * |p.brhoPart| := by
      simp only [fieldMod, hmod]
      rw [if_neg hne]
    have ha : |p.brhoPart| ≠ 0 := abs_ne_zero.mpr hb
    simp only [V3.dot, ib, hm, axis, hax]
    simp only [field, h1, h2, acceleration]
    field_simp
    ring

theorem total_mul (f g : Row → ℝ) (s : ℝ) (rows : List Row) (h : ∀ r ∈ rows, f r = s * g r) : total f rows = s * total g rows := by
  induction rows with
  | nil => simp [total]
  | cons r rs ih =>
    have ih := ih fun a ha => h a (List.mem_cons_of_mem _ ha)
    have hr := h r List.mem_cons_self
    simp only [total, List.map_cons, List.sum_cons] at ih ⊢
    rw [ih, hr]; ring

theorem dkUp_eq (rows : List Row) : dkUp rows = total (fun r => r.kappa ^ 3 * r.n.dot (axis r)) rows - total (fun r => r.kappa ^ 3 * r.d.dot (axis r)) rows := by
  induction rows with
  | nil => simp [dkUp, total]
  | cons r rs ih =>
    simp only [dkUp, total, List.map_cons, List.sum_cons] at ih ⊢
    rw [ih]; ring

theorem dkDown_eq (rows : List Row) : dkDown rows = total (fun r => r.kappa ^ 3 * (1 - 2 / 9 * r.n.dot r.v ^ 2)) rows
    + 11 / 18 * total (fun r => r.kappa ^ 3 * r.d.dot r.d) rows := by
  induction rows with
  | nil => simp [dkDown, total]
  | cons r rs ih =>
    simp only [dkDown, total, List.map_cons, List.sum_cons] at ih ⊢
    rw [ih]; ring

/-- The reported value is the formula times the sign of the rigidity. -/
theorem polEq_sign (p : Ref) (rows : List Row) (hb : p.brhoPart ≠ 0) (ht : Transverse rows) (hl : lineLength rows ≠ 0) :
    polEq p rows = (p.brhoPart / |p.brhoPart|) * dk rows := by
  have e1 : alphaMinus p rows = (p.brhoPart / |p.brhoPart|) * dkUp rows / lineLength rows := by
    unfold alphaMinus alphaMinusCo
    rw [total_mul _ (fun r => r.kappa ^ 3 * r.n.dot (axis r)) _ rows fun r hr => ib_axis p r r.n hb (ht r hr),
      total_mul _ (fun r => r.kappa ^ 3 * r.d.dot (axis r)) _ rows fun r hr => ib_axis p r r.d hb (ht r hr), dkUp_eq]
    ring
  have e2 : alphaPlus rows = dkDown rows / lineLength rows := by
    unfold alphaPlus alphaPlusCo
    rw [dkDown_eq]; ring
  unfold polEq dk
  rw [e1, e2]
  by_cases hd : dkDown rows = 0
  · rw [hd]; simp
  · have h3 : √3 ≠ 0 := by positivity
    have ha : |p.brhoPart| ≠ 0 := abs_ne_zero.mpr hb
    field_simp

/-- **C131, positive charges.**  Without longitudinal fields the reported equilibrium polarization of particles with positive charge is the one of Derbenev and
Kondratenko. -/
theorem C131_positive_partial (p : Ref) (rows : List Row) (hp : 0 < p.p0c) (hc : 0 < p.clight) (hs : 0 < p.scale) (hq : 0 < p.q0) (ht : Transverse rows)
    (hl : lineLength rows ≠ 0) : polEq p rows = dk rows := by
  have hb : 0 < p.brhoPart := by unfold Ref.brhoPart Ref.brhoRef; positivity
  rw [polEq_sign p rows hb.ne' ht hl, abs_of_pos hb, div_self hb.ne', one_mul]

/-- **C131, violated: negative charges.**  For negative charges the reported polarization has the wrong sign: the direction of the field is taken where the direction of
the magnetic moment in the field decides. -/
theorem C131_charge_violated (p : Ref) (rows : List Row) (hp : 0 < p.p0c) (hc : 0 < p.clight) (hs : 0 < p.scale) (hq : p.q0 < 0) (ht : Transverse rows)
    (hl : lineLength rows ≠ 0) : polEq p rows = -dk rows := by
  have hb : p.brhoPart < 0 := by
    unfold Ref.brhoPart Ref.brhoRef
    exact mul_neg_of_neg_of_pos (div_neg_of_pos_of_neg (by positivity) hq) hs
  rw [polEq_sign p rows hb.ne ht hl, abs_of_neg hb]
  have : p.brhoPart / -p.brhoPart = -1 := by rw [div_neg, div_self hb.ne]
  rw [this, neg_one_mul]

/-! ## Bounds -/

/-- `(a · (b × c))²` is the determinant of the scalar products. -/
theorem gram (a b c : V3) : 0 ≤ a.dot a * (b.dot b * c.dot c - b.dot c ^ 2) - a.dot b * (a.dot b * c.dot c - b.dot c * a.dot c)
    + a.dot c * (a.dot b * b.dot c - b.dot b * a.dot c) := by
  have h : a.dot a * (b.dot b * c.dot c - b.dot c ^ 2) - a.dot b * (a.dot b * c.dot c - b.dot c * a.dot c) + a.dot c * (a.dot b * b.dot c - b.dot b * a.dot c)
      = (a.x * (b.y * c.z - b.z * c.y) + a.y * (b.z * c.x - b.x * c.z) + a.z * (b.x * c.y - b.y * c.x)) ^ 2 := by
    simp only [V3.dot]; ring
  rw [h]
  positivity

/-- The constant `8 / (5 √3)` is below one. -/
theorem const_bounds : 0 ≤ 8 / (5 * √3) ∧ (8 / (5 * √3)) ^ 2 = 64 / 75 := by
  refine ⟨by positivity, ?_⟩
  rw [div_pow, mul_pow, Real.sq_sqrt (by norm_num)]
  norm_num

/-- The rates of one place: for a unit spin axis `n`, a derivative `d` orthogonal to it, a unit velocity `v` and a unit field axis `b` orthogonal to the velocity. -/
theorem row_bound (n d v b : V3) (hn : n.dot n = 1) (hd : d.dot n = 0) (hv : v.dot v = 1) (hb : b.dot b = 1) (hbv : b.dot v = 0) :
    8 / (5 * √3) * |n.dot b - d.dot b| ≤ 1 - 2 / 9 * n.dot v ^ 2 + 11 / 18 * d.dot d := by
  obtain ⟨k0, k2⟩ := const_bounds
  set k := 8 / (5 * √3)
  have g1 := gram n b v
  rw [hn, hb, hv, hbv] at g1
  have g2 := gram b n d
  have hnd : n.dot d = 0 := by rw [← hd]; simp only [V3.dot]; ring
  have hbn : b.dot n = n.dot b := by simp only [V3.dot]; ring
  have hbd : b.dot d = d.dot b := by simp only [V3.dot]; ring
  rw [hb, hn, hnd, hbn, hbd] at g2
  set a := n.dot b
  set e := d.dot b
  set w := n.dot v
  set D := d.dot d
  have hD : 0 ≤ D := by show 0 ≤ d.dot d; simp only [V3.dot]; nlinarith [sq_nonneg d.x, sq_nonneg d.y, sq_nonneg d.z]
  have h1 : a ^ 2 + w ^ 2 ≤ 1 := by nlinarith
  have h2 : e ^ 2 ≤ D * (1 - a ^ 2) := by nlinarith
  have hs : 0 ≤ 1 - a ^ 2 := by nlinarith [sq_nonneg w]
  have h3 : k * |e| ≤ 11 / 18 * D + 9 / 22 * (64 / 75) * (1 - a ^ 2) := by
    apply abs_le_of_sq_le_sq' _ (by positivity) |>.2
    rw [mul_pow, sq_abs, k2]
    nlinarith [sq_nonneg (11 / 18 * D - 9 / 22 * (64 / 75) * (1 - a ^ 2))]
  have h4 : k * |a| ≤ 7 / 9 + 2 / 9 * a ^ 2 - 9 / 22 * (64 / 75) * (1 - a ^ 2) := by
    have : k ≤ 0.924 := by nlinarith
    nlinarith [abs_nonneg a, sq_abs a, sq_nonneg (|a| - 0.8)]
  have h5 : |a - e| ≤ |a| + |e| := abs_sub a e
  nlinarith

theorem axis_unit (r : Row) (h : r.kappa ≠ 0) : (axis r).dot (axis r) = 1 := by
  have hax : √((acceleration r).x ^ 2 + (acceleration r).y ^ 2) = r.kappa := by simp [acceleration, Row.kappa]
  have hk2 : r.kappa ^ 2 = r.kx ^ 2 + r.ky ^ 2 := Real.sq_sqrt (by positivity)
  simp only [axis, hax, V3.dot]
  simp only [acceleration]
  field_simp
  rw [hk2]; ring

/-- What the columns are: unit spin, derivative orthogonal to it, unit velocity orthogonal to the axis, no negative lengths. -/
structure Physical (r : Row) : Prop where
  spin : r.n.dot r.n = 1
  deriv : r.d.dot r.n = 0
  velocity : r.v.dot r.v = 1
  ortho : (axis r).dot r.v = 0
  length : 0 ≤ r.length

/-- **C131, at most full polarization.**  The equilibrium polarization is between -1 and 1. -/
theorem C131_bound (rows : List Row) (h : ∀ r ∈ rows, Physical r) : |dk rows| ≤ 1 := by
  obtain ⟨k0, k2⟩ := const_bounds
  have key : 8 / (5 * √3) * |dkUp rows| ≤ dkDown rows := by
    induction rows with
    | nil => simp [dkUp, dkDown]
    | cons r rs ih =>
      have ih := ih fun a ha => h a (List.mem_cons_of_mem _ ha)
      have hr := h r List.mem_cons_self
      simp only [dkUp, dkDown, List.map_cons, List.sum_cons] at ih ⊢
      have hrow : 8 / (5 * √3) * |r.length * r.kappa ^ 3 * (r.n.dot (axis r) - r.d.dot (axis r))|
          ≤ r.length * r.kappa ^ 3 * (1 - 2 / 9 * r.n.dot r.v ^ 2 + 11 / 18 * r.d.dot r.d) := by
        have hw : 0 ≤ r.length * r.kappa ^ 3 := mul_nonneg hr.length (pow_nonneg (kappa_nonneg r) 3)
        rw [abs_mul, abs_of_nonneg hw]
        by_cases hk : r.kappa = 0
        · rw [hk]; simp
        · have := row_bound r.n r.d r.v (axis r) hr.spin hr.deriv hr.velocity (axis_unit r hk) hr.ortho
          nlinarith [mul_le_mul_of_nonneg_left this hw]
      have := abs_add_le (r.length * r.kappa ^ 3 * (r.n.dot (axis r) - r.d.dot (axis r)))
        ((rs.map fun r => r.length * r.kappa ^ 3 * (r.n.dot (axis r) - r.d.dot (axis r))).sum)
      nlinarith [mul_le_mul_of_nonneg_left this k0]
  unfold dk
  rw [abs_div, abs_mul, abs_of_nonneg k0]
  exact div_le_one_of_le₀ (key.trans (le_abs_self _)) (abs_nonneg _)

/-- The reported polarization is between -1 and 1, without longitudinal fields. -/
theorem C131_bound_reported (p : Ref) (rows : List Row) (h : ∀ r ∈ rows, Physical r) (hb : p.brhoPart ≠ 0) (ht : Transverse rows) (hl : lineLength rows ≠ 0) :
    |polEq p rows| ≤ 1 := by
  rw [polEq_sign p rows hb ht hl, abs_mul, abs_div, abs_abs, div_self (abs_ne_zero.mpr hb), one_mul]
  exact C131_bound rows h

/-- A bend with a longitudinal field. -/
def solenoidBend : Row := ⟨⟨0, 3 / 5, 4 / 5⟩, ⟨0, 0, 0⟩, ⟨0, 0, 1⟩, 3, 0, 4, 0, 1⟩

/-- **C131, violated: longitudinal fields.**  The longitudinal field is included in the direction of the field, although it does not make the particles radiate: the
reported polarization can be above one. -/
theorem C131_above_violated : Physical solenoidBend ∧ 1 < polInf ⟨1, 1, 1, 1, 1⟩ [solenoidBend] ∧ 1 < polEq ⟨1, 1, 1, 1, 1⟩ [solenoidBend] := by
  have hk : solenoidBend.kappa = 3 := by
    unfold Row.kappa solenoidBend
    rw [show (3 : ℝ) ^ 2 + 0 ^ 2 = 3 ^ 2 by norm_num, Real.sqrt_sq (by norm_num)]
  have hf : fieldMod ⟨1, 1, 1, 1, 1⟩ solenoidBend = 5 := by
    have : √((field ⟨1, 1, 1, 1, 1⟩ solenoidBend).x ^ 2 + (field ⟨1, 1, 1, 1, 1⟩ solenoidBend).y ^ 2 + (field ⟨1, 1, 1, 1, 1⟩ solenoidBend).z ^ 2) = 5 := by
      rw [show (field ⟨1, 1, 1, 1, 1⟩ solenoidBend).x ^ 2 + (field ⟨1, 1, 1, 1, 1⟩ solenoidBend).y ^ 2 + (field ⟨1, 1, 1, 1, 1⟩ solenoidBend).z ^ 2 = 5 ^ 2 by
        norm_num [field, solenoidBend, Ref.brhoPart, Ref.brhoRef], Real.sqrt_sq (by norm_num)]
    simp only [fieldMod, this]
    norm_num
  have h3 : √3 < 1.74 := by
    rw [Real.sqrt_lt' (by norm_num)]; norm_num
  have h3p : 0 < √3 := by positivity
  have val : (1 : ℝ) < 8 / 5 / √3 * (225 / 193) := by
    rw [div_mul_eq_mul_div, lt_div_iff₀ h3p]
    norm_num at h3 ⊢
    linarith
  have e1 : alphaMinusCo ⟨1, 1, 1, 1, 1⟩ [solenoidBend] = 27 := by
    unfold alphaMinusCo total lineLength
    simp only [List.map_cons, List.map_nil, List.sum_cons, List.sum_nil, hk, ib, hf]
    norm_num [field, solenoidBend, Ref.brhoPart, Ref.brhoRef, V3.dot]
  have e2 : alphaPlusCo [solenoidBend] = 27 * (193 / 225) := by
    unfold alphaPlusCo total lineLength
    simp only [List.map_cons, List.map_nil, List.sum_cons, List.sum_nil, hk]
    norm_num [solenoidBend, V3.dot]
  have e3 : alphaMinus ⟨1, 1, 1, 1, 1⟩ [solenoidBend] = 27 := by
    unfold alphaMinus
    rw [e1]
    norm_num [total, solenoidBend, V3.dot]
  have e4 : alphaPlus [solenoidBend] = 27 * (193 / 225) := by
    unfold alphaPlus
    rw [e2]
    norm_num [total, solenoidBend, V3.dot]
  refine ⟨⟨?_, ?_, ?_, ?_, ?_⟩, ?_, ?_⟩
  · norm_num [solenoidBend, V3.dot]
  · norm_num [solenoidBend, V3.dot]
  · norm_num [solenoidBend, V3.dot]
  · norm_num [solenoidBend, V3.dot, axis, acceleration]
  · norm_num [solenoidBend]
  · unfold polInf
    rw [e1, e2]
    calc (1 : ℝ) < 8 / 5 / √3 * (225 / 193) := val
      _ = _ := by field_simp
  · unfold polEq
    rw [e3, e4]
    calc (1 : ℝ) < 8 / 5 / √3 * (225 / 193) := val
      _ = _ := by field_simp

/-- **C131, rates.**  The rate of the build-up is the sum of the rates of polarization and depolarization, none of which is negative: depolarization makes the build-up
faster and, at the same time, no rate depends on the sign of the charge. -/
theorem C131_rates (p : Ref) (rows : List Row) (hf : 0 ≤ p.factor) (h : ∀ r ∈ rows, Physical r) :
    rateBuildup p rows = ratePol p rows + rateDepol p rows ∧ 0 ≤ rateDepol p rows ∧ 0 ≤ ratePol p rows
      ∧ ratePol { p with q0 := -p.q0 } rows = ratePol p rows ∧ rateBuildup { p with q0 := -p.q0 } rows = rateBuildup p rows := by
  have hl : 0 ≤ lineLength rows := List.sum_nonneg (by
    intro x hx
    obtain ⟨r, hr, rfl⟩ := List.mem_map.mp hx
    exact (h r hr).length)
  have ht : ∀ f : Row → ℝ, (∀ r ∈ rows, 0 ≤ f r) → 0 ≤ total f rows := fun f hpos => List.sum_nonneg (by
    intro x hx
    obtain ⟨r, hr, rfl⟩ := List.mem_map.mp hx
    exact mul_nonneg (hpos r hr) (h r hr).length)
  have hd : 0 ≤ total (fun r => r.kappa ^ 3 * r.d.dot r.d) rows := ht _ fun r hr => mul_nonneg (pow_nonneg (kappa_nonneg r) 3) (by
    simp only [V3.dot]; nlinarith [sq_nonneg r.d.x, sq_nonneg r.d.y, sq_nonneg r.d.z])
  have hp : 0 ≤ total (fun r => r.kappa ^ 3 * (1 - 2 / 9 * r.n.dot r.v ^ 2)) rows := ht _ fun r hr => mul_nonneg (pow_nonneg (kappa_nonneg r) 3) (by
    have g := gram r.n r.v r.v
    have hs := (h r hr).spin
    have hv := (h r hr).velocity
    have : r.n.dot r.v ^ 2 ≤ 1 := by
      simp only [V3.dot] at hs hv ⊢
      nlinarith [sq_nonneg (r.n.x * r.v.y - r.n.y * r.v.x), sq_nonneg (r.n.y * r.v.z - r.n.z * r.v.y), sq_nonneg (r.n.z * r.v.x - r.n.x * r.v.z)]
    linarith)
  refine ⟨by unfold rateDepol; ring, ?_, ?_, rfl, rfl⟩
  · have : rateDepol p rows = 5 * √3 / 8 * p.factor * (11 / 18 * total (fun r => r.kappa ^ 3 * r.d.dot r.d) rows / lineLength rows) := by
      unfold rateDepol rateBuildup ratePol alphaPlus; ring
    rw [this]
    positivity
  · unfold ratePol alphaPlusCo
    positivity

/-- A ring of one bend, with the spin along the field, for which everything above holds: the polarization is `8 / (5 √3)`, and minus that for electrons. -/
example : ∃ rows : List Row, (∀ r ∈ rows, Physical r) ∧ Transverse rows ∧ lineLength rows ≠ 0 ∧ dk rows = 8 / (5 * √3) := by
  refine ⟨[⟨⟨0, 1, 0⟩, ⟨0, 0, 0⟩, ⟨0, 0, 1⟩, 1, 0, 0, 0, 1⟩], ?_, ?_, ?_, ?_⟩
  · intro r hr
    rw [List.mem_singleton] at hr
    subst hr
    constructor <;> norm_num [V3.dot, axis, acceleration]
  · intro r hr
    rw [List.mem_singleton] at hr
    subst hr
    simp
  · norm_num [lineLength]
  · norm_num [dk, dkUp, dkDown, V3.dot, axis, acceleration, Row.kappa]

end

end Verif.Polar
