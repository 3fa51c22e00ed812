import Verif.Chrom.Model
import Verif.Twiss.Lemmas
import Mathlib.Tactic.LinearCombination
import Mathlib.Tactic.FieldSimp
import Mathlib.Tactic.Positivity
import Mathlib.Tactic.Linarith
import Mathlib.Analysis.Calculus.MeanValue
import Mathlib.Analysis.Calculus.Deriv.MeanValue
import Mathlib.Analysis.Calculus.Deriv.Pow
import Mathlib.Analysis.Calculus.LocalExtr.Rolle

namespace Verif.Chrom

open Verif.Twiss Matrix

/-! ## The functions at the start -/

theorem gauge_row (W : Mat) (i : Fin 6) :
    (gauge W i 0 * Real.cos (phase W 0) - gauge W i 1 * Real.sin (phase W 0) = W i 0
      ∧ gauge W i 0 * Real.sin (phase W 0) + gauge W i 1 * Real.cos (phase W 0) = W i 1)
    ∧ gauge W i 2 * Real.cos (phase W 1) - gauge W i 3 * Real.sin (phase W 1) = W i 2
      ∧ gauge W i 2 * Real.sin (phase W 1) + gauge W i 3 * Real.cos (phase W 1) = W i 3 := by
  have h := gauge_mul W
  have e (j : Fin 6) := congrFun (congrFun h i) j
  have e0 := e 0
  have e1 := e 1
  have e2 := e 2
  have e3 := e 3
  simp [Matrix.mul_apply, Fin.sum_univ_six, blockRot] at e0 e1 e2 e3
  exact ⟨⟨by linarith, by linarith⟩, by linarith, by linarith⟩

theorem gauge_functions (W : Mat) : Twiss.betx (gauge W) = Twiss.betx W ∧ Twiss.bety (gauge W) = Twiss.bety W
    ∧ Twiss.alfx (gauge W) = Twiss.alfx W ∧ Twiss.alfy (gauge W) = Twiss.alfy W := by
  obtain ⟨⟨a0, a1⟩, a2, a3⟩ := gauge_row W 0
  obtain ⟨⟨b0, b1⟩, b2, b3⟩ := gauge_row W 1
  obtain ⟨⟨c0, c1⟩, c2, c3⟩ := gauge_row W 2
  obtain ⟨⟨d0, d1⟩, d2, d3⟩ := gauge_row W 3
  have h0 := Real.sin_sq_add_cos_sq (phase W 0)
  have h1 := Real.sin_sq_add_cos_sq (phase W 1)
  refine ⟨?_, ?_, ?_, ?_⟩
  · rw [Twiss.betx, Twiss.betx, ← a0, ← a1]
    linear_combination -(gauge W 0 0 ^ 2 + gauge W 0 1 ^ 2) * h0
  · rw [Twiss.bety, Twiss.bety, ← c2, ← c3]
    linear_combination -(gauge W 2 2 ^ 2 + gauge W 2 3 ^ 2) * h1
  · rw [Twiss.alfx, Twiss.alfx, ← a0, ← a1, ← b0, ← b1]
    linear_combination (gauge W 0 0 * gauge W 1 0 + gauge W 0 1 * gauge W 1 1) * h0
  · rw [Twiss.alfy, Twiss.alfy, ← c2, ← c3, ← d2, ← d3]
    linear_combination (gauge W 2 2 * gauge W 3 2 + gauge W 2 3 * gauge W 3 3) * h1

theorem renormalize_unit {W : Mat} (h : ∀ k, |pairNorm (mode W k)| = 1) : renormalize W = W := by
  unfold renormalize nu
  ext i j
  fin_cases j <;> simp [ofModes, h, mode, reCol, imCol]

theorem unit_w6d {bx b_y bs : ℝ} (hx : 0 < bx) (hy : 0 < b_y) (hs : 0 < bs) (ax ay dx dpx dy dpy : ℝ) :
    (∀ k, |pairNorm (mode (w6d bx b_y ax ay bs dx dpx dy dpy) k)| = 1)
    ∧ ∀ k, |pairNorm (mode (revW (w6d bx b_y ax ay bs dx dpx dy dpy)) k)| = 1 := by
  have n1 := (Real.sqrt_pos.mpr hx).ne'
  have n2 := (Real.sqrt_pos.mpr hy).ne'
  have n3 := (Real.sqrt_pos.mpr hs).ne'
  constructor <;> intro k <;> fin_cases k <;>
    simp [pairNorm, mode, w6d, revW, S, dotProduct, mulVec, Fin.sum_univ_six, reCol, imCol, n1, n2, n3]

theorem revW_revW (W : Mat) : revW (revW W) = W := by
  ext i j
  fin_cases i <;> simp [revW]

theorem lattice_of_init (rev dflt : Bool) {bx b_y : ℝ} (hx : 0 < bx) (hy : 0 < b_y) (ax ay dx dpx dy dpy : ℝ) :
    let W := (latticeRow (if rev then revW (initW dflt bx b_y ax ay 1 dx dpx dy dpy) else initW dflt bx b_y ax ay 1 dx dpx dy dpy)).W
    let g : ℝ := if rev then -1 else 1
    Twiss.betx W = bx ∧ Twiss.bety W = b_y ∧ Twiss.alfx W = g * ax ∧ Twiss.alfy W = g * ay := by
  intro W g
  have h1 := Real.sq_sqrt hx.le
  have h2 := Real.sq_sqrt hy.le
  have n1 := (Real.sqrt_pos.mpr hx).ne'
  have n2 := (Real.sqrt_pos.mpr hy).ne'
  have hW : W = gauge (if rev then revW (initW dflt bx b_y ax ay 1 dx dpx dy dpy) else initW dflt bx b_y ax ay 1 dx dpx dy dpy) := by
    show gauge (renormalize _) = _
    rw [renormalize_unit]
    cases rev <;> cases dflt <;> simp only [initW, if_true, if_false, Bool.false_eq_true, revW_revW]
    · exact (unit_w6d hx hy one_pos _ _ _ _ _ _).1
    · exact (unit_w6d hx hy one_pos _ _ _ _ _ _).2
    · exact (unit_w6d hx hy one_pos _ _ _ _ _ _).2
    · exact (unit_w6d hx hy one_pos _ _ _ _ _ _).1
  obtain ⟨g1, g2, g3, g4⟩ := gauge_functions (if rev then revW (initW dflt bx b_y ax ay 1 dx dpx dy dpy) else initW dflt bx b_y ax ay 1 dx dpx dy dpy)
  rw [hW, g1, g2, g3, g4]
  cases rev <;> cases dflt <;> refine ⟨?_, ?_, ?_, ?_⟩ <;>
    simp [initW, w6d, revW, Twiss.betx, Twiss.bety, Twiss.alfx, Twiss.alfy, h1, h2, g] <;> field_simp

theorem ba_exact {d : ℝ} (hd : d ≠ 0) {bet : ℝ} (hb : bet ≠ 0) (alf b a delta : ℝ) :
    ba ((delta + d) - (delta + -d)) (bet + b * bet * -d) (bet + b * bet * d) (alf + (a + b * alf) * -d) (alf + (a + b * alf) * d) = (b, a) := by
  have h2 : (delta + d) - (delta + -d) = 2 * d := by ring
  have h3 : (bet + b * bet * d + (bet + b * bet * -d)) / 2 = bet := by ring
  have h4 : (alf + (a + b * alf) * d + (alf + (a + b * alf) * -d)) / 2 = alf := by ring
  have h5 : (bet + b * bet * d - (bet + b * bet * -d)) / (2 * d) = b * bet := by field_simp; ring
  have h6 : (alf + (a + b * alf) * d - (alf + (a + b * alf) * -d)) / (2 * d) = a + b * alf := by field_simp; ring
  unfold ba
  simp only [h2, h3, h4, h5, h6]
  ext <;> field_simp
  ring

theorem second_exact {d : ℝ} (hd : d ≠ 0) (x dx ddx delta : ℝ) :
    second (x + (dx * -d + 1 / 2 * ddx * (-d) ^ 2)) (x + (dx * 0 + 1 / 2 * ddx * 0 ^ 2)) (x + (dx * d + 1 / 2 * ddx * d ^ 2))
      (delta + -d) (delta + 0) (delta + d) = ddx := by
  unfold second
  have h1 : delta + d - (delta + 0) = d := by ring
  have h2 : delta + 0 - (delta + -d) = d := by ring
  have h3 : (0.5 : ℝ) * (delta + d + (delta + 0)) - 0.5 * (delta + 0 + (delta + -d)) = d := by ring
  simp only [h1, h2, h3]
  field_simp
  ring

theorem second_neg (a b c u v w : ℝ) : second (-1 * a) (-1 * b) (-1 * c) u v w = -second a b c u v w := by
  unfold second
  simp only
  ring

theorem ba_neg (dd bm bp am ap : ℝ) : ba dd bm bp (-1 * am) (-1 * ap) = ((ba dd bm bp am ap).1, -(ba dd bm bp am ap).2) := by
  unfold ba
  simp only [Prod.mk.injEq, true_and]
  ring

/-- **C121, start.**  The chromatic functions which are given at the start of an open range are reported there, forwards and in the reversed frame. -/
theorem C121_start (rev dflt : Bool) (I : Init) {d : ℝ} (hd : d ≠ 0) (hx : 0 < I.betx) (hy : 0 < I.bety)
    (hbx : |I.bx * d| < 1) (hby : |I.by * d| < 1) :
    let c := startCols rev dflt I d
    c.bx = I.bx ∧ c.by = I.by ∧ c.ax = I.ax ∧ c.ay = I.ay ∧ c.ddx = I.ddx ∧ c.ddpx = I.ddpx ∧ c.ddy = I.ddy ∧ c.ddpy = I.ddpy := by
  obtain ⟨x1, x2⟩ := abs_lt.mp hbx
  obtain ⟨y1, y2⟩ := abs_lt.mp hby
  have px : 0 < I.betx + I.bx * I.betx * d := by nlinarith
  have mx : 0 < I.betx + I.bx * I.betx * -d := by nlinarith
  have py : 0 < I.bety + I.by * I.bety * d := by nlinarith
  have my : 0 < I.bety + I.by * I.bety * -d := by nlinarith
  obtain ⟨p1, p2, p3, p4⟩ := lattice_of_init rev dflt px py (I.alfx + (I.ax + I.bx * I.alfx) * d) (I.alfy + (I.ay + I.by * I.alfy) * d)
    (I.dx + I.ddx * d) (I.dpx + I.ddpx * d) (I.dy + I.ddy * d) (I.dpy + I.ddpy * d)
  obtain ⟨m1, m2, m3, m4⟩ := lattice_of_init rev dflt mx my (I.alfx + (I.ax + I.bx * I.alfx) * -d) (I.alfy + (I.ay + I.by * I.alfy) * -d)
    (I.dx + I.ddx * -d) (I.dpx + I.ddpx * -d) (I.dy + I.ddy * -d) (I.dpy + I.ddpy * -d)
  intro c
  have sx := second_exact hd I.x I.dx I.ddx I.delta
  have spx := second_exact hd I.px I.dpx I.ddpx I.delta
  have sy := second_exact hd I.y I.dy I.ddy I.delta
  have spy := second_exact hd I.py I.dpy I.ddpy I.delta
  have ex := ba_exact hd hx.ne' I.alfx I.bx I.ax I.delta
  have ey := ba_exact hd hy.ne' I.alfy I.by I.ay I.delta
  cases rev
  · simp only [if_false, Bool.false_eq_true, one_mul] at p1 p2 p3 p4 m1 m2 m3 m4
    simp only [c, startCols, cols, firstRow, offW, offOrbit, if_false, Bool.false_eq_true, one_mul, p1, p2, p3, p4, m1, m2, m3, m4, sx, sy, spx, spy, ex, ey]
    simp
  · simp only [if_true] at p1 p2 p3 p4 m1 m2 m3 m4
    simp only [c, startCols, cols, firstRow, offW, offOrbit, if_true, revCols, p1, p2, p3, p4, m1, m2, m3, m4, second_neg, ba_neg, sx, sy, spx, spy, ex, ey]
    simp

example : (startCols true true ⟨4, 9, 1, 0, 2, 0, 0, 0, 0, 0, 0, 0, 0, 3, 0, 5, 0, 7, 0, 0, 0⟩ 0.01).ax = 5 :=
  (C121_start true true ⟨4, 9, 1, 0, 2, 0, 0, 0, 0, 0, 0, 0, 0, 3, 0, 5, 0, 7, 0, 0, 0⟩ (d := 0.01) (by norm_num) (by norm_num) (by norm_num)
    (by norm_num [abs_lt]) (by norm_num)).2.2.1

/-! ## Derivatives -/

/-- The second divided difference is a value of the second derivative. -/
theorem second_between {f f' f'' : ℝ → ℝ} (h1 : ∀ t, HasDerivAt f (f' t) t) (h2 : ∀ t, HasDerivAt f' (f'' t) t) {a b c : ℝ} (hab : a < b) (hbc : b < c) :
    ∃ t, a < t ∧ t < c ∧ second (f a) (f b) (f c) a b c = f'' t := by
  generalize hk : second (f a) (f b) (f c) a b c = k
  -- the interpolating parabola
  let v := (f c - f a) / (c - a)
  have hca : c - a ≠ 0 := by linarith
  have hcb : c - b ≠ 0 := by linarith
  have hba : b - a ≠ 0 := by linarith
  let g : ℝ → ℝ := fun t => f t - (f a + v * (t - a) + k / 2 * ((t - a) * (t - c)))
  let g' : ℝ → ℝ := fun t => f' t - (v + k / 2 * ((t - a) + (t - c)))
  have hg : ∀ t, HasDerivAt g (g' t) t := by
    intro t
    have e1 : HasDerivAt (fun t : ℝ => t - a) 1 t := (hasDerivAt_id t).sub_const a
    have e2 : HasDerivAt (fun t : ℝ => t - c) 1 t := (hasDerivAt_id t).sub_const c
    have e3 := (((e1.const_mul v).const_add (f a)).add ((e1.mul e2).const_mul (k / 2)))
    have e4 := (h1 t).sub e3
    refine (e4.congr_deriv ?_)
    simp only [g', mul_one, one_mul]
    ring
  have hg' : ∀ t, HasDerivAt g' (f'' t - k) t := by
    intro t
    have e1 : HasDerivAt (fun t : ℝ => t - a) 1 t := (hasDerivAt_id t).sub_const a
    have e2 : HasDerivAt (fun t : ℝ => t - c) 1 t := (hasDerivAt_id t).sub_const c
    have e3 := ((e1.add e2).const_mul (k / 2)).const_add v
    have e4 := (h2 t).sub e3
    refine (e4.congr_deriv ?_)
    ring
  have ga : g a = 0 := by simp [g]
  have gc : g c = 0 := by
    simp only [g, v, sub_self, mul_zero, add_zero]
    field_simp
    ring
  have gb : g b = 0 := by
    have hs : (0.5 : ℝ) * (c + b) - 0.5 * (b + a) = (c - a) / 2 := by ring
    have hk' : k = ((f c - f b) / (c - b) - (f b - f a) / (b - a)) / ((c - a) / 2) := by
      rw [← hk]; unfold second; simp only [hs]
    simp only [g, v, hk']
    field_simp
    ring
  obtain ⟨u, hu, hu0⟩ := exists_hasDerivAt_eq_zero hab (fun t _ => (hg t).continuousAt.continuousWithinAt) (ga.trans gb.symm) (fun t _ => hg t)
  obtain ⟨w, hw, hw0⟩ := exists_hasDerivAt_eq_zero hbc (fun t _ => (hg t).continuousAt.continuousWithinAt) (gb.trans gc.symm) (fun t _ => hg t)
  obtain ⟨t, ht, ht0⟩ := exists_hasDerivAt_eq_zero (hu.2.trans hw.1) (fun t _ => (hg' t).continuousAt.continuousWithinAt) (hu0.trans hw0.symm) (fun t _ => hg' t)
  exact ⟨t, hu.1.trans ht.1, ht.2.trans hw.2, by linarith⟩

theorem first_between {f f' : ℝ → ℝ} (h1 : ∀ t, HasDerivAt f (f' t) t) {a c : ℝ} (hac : a < c) :
    ∃ t, a < t ∧ t < c ∧ (f c - f a) / (c - a) = f' t := by
  obtain ⟨t, ht, e⟩ := exists_hasDerivAt_eq_slope f f' hac (fun t _ => (h1 t).continuousAt.continuousWithinAt) (fun t _ => h1 t)
  exact ⟨t, ht.1, ht.2, e.symm⟩

/-- The values of a row as functions of the momentum. -/
structure Smooth (F F' F'' : ℝ → Row) (q : Row → ℝ) : Prop where
  first : ∀ t, HasDerivAt (fun t => q (F t)) (q (F' t)) t
  second : ∀ t, HasDerivAt (fun t => q (F' t)) (q (F'' t)) t

/-- **C121, rows.**  The columns of each row are values of the derivatives with respect to the momentum at this row, taken between the lowest and the highest
momentum which are tracked. -/
theorem C121_rows {F F' F'' : ℝ → Row} (hd : ∀ t, (F t).delta = t) (hs : ∀ q ∈ [Row.mux, Row.muy, Row.betx, Row.bety, Row.alfx, Row.alfy, Row.x, Row.px, Row.y, Row.py],
      Smooth F F' F'' q) {a b c : ℝ} (hab : a < b) (hbc : b < c) :
    let k := cols (F a) (F b) (F c)
    (∃ t, a < t ∧ t < c ∧ k.dmux = (F' t).mux) ∧ (∃ t, a < t ∧ t < c ∧ k.dmuy = (F' t).muy)
    ∧ (∃ t, a < t ∧ t < c ∧ k.bx = (F' t).betx / (((F c).betx + (F a).betx) / 2))
    ∧ (∃ t, a < t ∧ t < c ∧ k.by = (F' t).bety / (((F c).bety + (F a).bety) / 2))
    ∧ (∃ t u, a < t ∧ t < c ∧ a < u ∧ u < c
        ∧ k.ax = (F' t).alfx - (F' u).betx * (((F c).alfx + (F a).alfx) / 2) / (((F c).betx + (F a).betx) / 2))
    ∧ (∃ t u, a < t ∧ t < c ∧ a < u ∧ u < c
        ∧ k.ay = (F' t).alfy - (F' u).bety * (((F c).alfy + (F a).alfy) / 2) / (((F c).bety + (F a).bety) / 2))
    ∧ (∃ t, a < t ∧ t < c ∧ k.ddx = (F'' t).x) ∧ (∃ t, a < t ∧ t < c ∧ k.ddpx = (F'' t).px)
    ∧ (∃ t, a < t ∧ t < c ∧ k.ddy = (F'' t).y) ∧ (∃ t, a < t ∧ t < c ∧ k.ddpy = (F'' t).py) := by
  have hac := hab.trans hbc
  have d1 (q : Row → ℝ) (h : q ∈ [Row.mux, Row.muy, Row.betx, Row.bety, Row.alfx, Row.alfy, Row.x, Row.px, Row.y, Row.py]) :=
    first_between (hs q h).first hac
  have d2 (q : Row → ℝ) (h : q ∈ [Row.mux, Row.muy, Row.betx, Row.bety, Row.alfx, Row.alfy, Row.x, Row.px, Row.y, Row.py]) :=
    second_between (hs q h).first (hs q h).second hab hbc
  intro k
  simp only [k, cols, ba, hd]
  refine ⟨d1 Row.mux (by simp), d1 Row.muy (by simp), ?_, ?_, ?_, ?_, d2 Row.x (by simp), d2 Row.px (by simp), d2 Row.y (by simp), d2 Row.py (by simp)⟩
  · obtain ⟨t, h1, h2, h⟩ := d1 Row.betx (by simp)
    exact ⟨t, h1, h2, by rw [h]⟩
  · obtain ⟨t, h1, h2, h⟩ := d1 Row.bety (by simp)
    exact ⟨t, h1, h2, by rw [h]⟩
  · obtain ⟨t, h1, h2, h⟩ := d1 Row.alfx (by simp)
    obtain ⟨u, g1, g2, g⟩ := d1 Row.betx (by simp)
    exact ⟨t, u, h1, h2, g1, g2, by rw [h, g]⟩
  · obtain ⟨t, h1, h2, h⟩ := d1 Row.alfy (by simp)
    obtain ⟨u, g1, g2, g⟩ := d1 Row.bety (by simp)
    exact ⟨t, u, h1, h2, g1, g2, by rw [h, g]⟩

/-- The hypotheses are met by a row whose orbit and beta function depend on the momentum. -/
example : ∃ F F' F'' : ℝ → Row, (∀ t, (F t).delta = t)
    ∧ (∀ q ∈ [Row.mux, Row.muy, Row.betx, Row.bety, Row.alfx, Row.alfy, Row.x, Row.px, Row.y, Row.py], Smooth F F' F'' q)
    ∧ (F 1).x = 1 ∧ (F 1).betx = 3 := by
  refine ⟨fun t => ⟨0, t, 0, 0, 2 + t, 1, 0, 0, t ^ 2, 0, 0, 0⟩, fun t => ⟨0, 1, 0, 0, 1, 0, 0, 0, 2 * t, 0, 0, 0⟩, fun _ => ⟨0, 0, 0, 0, 0, 0, 0, 0, 2, 0, 0, 0⟩,
    fun t => rfl, ?_, by norm_num, by norm_num⟩
  have hc (a : ℝ) : ∀ t, HasDerivAt (fun _ : ℝ => a) 0 t := fun t => hasDerivAt_const t a
  have h2 : ∀ t : ℝ, HasDerivAt (fun t : ℝ => t ^ 2) (2 * t) t := fun t => by simpa using hasDerivAt_pow 2 t
  have h3 : ∀ t : ℝ, HasDerivAt (fun t : ℝ => 2 * t) 2 t := fun t => by simpa using (hasDerivAt_id t).const_mul 2
  have h4 : ∀ t : ℝ, HasDerivAt (fun t : ℝ => 2 + t) 1 t := fun t => by simpa using (hasDerivAt_id t).const_add 2
  intro q hq
  simp only [List.mem_cons, List.not_mem_nil, or_false] at hq
  rcases hq with rfl | rfl | rfl | rfl | rfl | rfl | rfl | rfl | rfl | rfl
  · exact ⟨hc _, hc _⟩
  · exact ⟨hc _, hc _⟩
  · exact ⟨h4, hc _⟩
  · exact ⟨hc _, hc _⟩
  · exact ⟨hc _, hc _⟩
  · exact ⟨hc _, hc _⟩
  · exact ⟨h2, h3⟩
  · exact ⟨hc _, hc _⟩
  · exact ⟨hc _, hc _⟩
  · exact ⟨hc _, hc _⟩

/-! ## Chromaticities -/

theorem trapz_const (d : ℝ) : ∀ l : List ℝ, trapz (l.map fun s => (d, s)) = d * (l.getLastD 0 - l.headD 0)
  | [] => by simp [trapz]
  | [s] => by simp [trapz]
  | s :: u :: l => by
    have ih := trapz_const d (u :: l)
    simp only [List.map_cons] at ih ⊢
    rw [trapz, ih]
    simp
    ring

/-- A table in which the momentum is the same in all rows, between two positions. -/
structure Constant (d s₀ s₁ : ℝ) (t : List Row) : Prop where
  ne : t ≠ []
  delta : ∀ r ∈ t, r.delta = d
  head : (t.map Row.s).headD 0 = s₀
  last : (lastD t).s = s₁

theorem last_map (t : List Row) (h : t ≠ []) : (t.map Row.s).getLastD 0 = (lastD t).s := by
  unfold lastD
  rw [List.getLastD_eq_getLast?, List.getLastD_eq_getLast?, List.getLast?_map, List.getLast?_eq_some_getLast h]
  rfl

theorem mean_const {d s₀ s₁ : ℝ} {t : List Row} (h : Constant d s₀ s₁ t) (zero : Prop) [Decidable zero] (hz : ¬zero) :
    meanDelta zero t = d * ((s₁ - s₀) / s₁) := by
  unfold meanDelta
  rw [if_neg hz, h.last]
  have e : t.map (fun r => (r.delta, r.s)) = (t.map Row.s).map fun s => (d, s) := by
    rw [List.map_map]
    apply List.map_congr_left
    intro r hr
    simp [h.delta r hr]
  rw [e, trapz_const, h.head, last_map t h.ne, h.last]
  ring

theorem second_scale {f : ℝ} (hf : f ≠ 0) (a b c u v w : ℝ) : second a b c (u * f) (v * f) (w * f) = second a b c u v w / f ^ 2 := by
  unfold second
  have e1 : w * f - v * f = (w - v) * f := by ring
  have e2 : v * f - u * f = (v - u) * f := by ring
  have e3 : (0.5 : ℝ) * (w * f + v * f) - 0.5 * (v * f + u * f) = (0.5 * (w + v) - 0.5 * (v + u)) * f := by ring
  simp only [e1, e2, e3]
  generalize w - v = W
  generalize v - u = V
  generalize 0.5 * (w + v) - 0.5 * (v + u) = D
  rw [← div_div (c - b), ← div_div (b - a), ← sub_div, div_div, div_div]
  congr 1
  ring

/-- `ddqx` and `ddqy` of a range from `s₀` to `s₁` on which the momentum of each table is constant. -/
theorem ddq_scale {m c p : List Row} {dm dc dp s₀ s₁ : ℝ} (hm : Constant dm s₀ s₁ m) (hc : Constant dc s₀ s₁ c) (hp : Constant dp s₀ s₁ p)
    (h0 : s₁ ≠ 0) (h1 : s₁ ≠ s₀) (q : Row → ℝ) :
    ddq q m c p = second (q (lastD m)) (q (lastD c)) (q (lastD p)) dm dc dp * (s₁ / (s₁ - s₀)) ^ 2 := by
  have hz : ¬(lastD c).s = 0 := by rw [hc.last]; exact h0
  unfold ddq
  simp only
  rw [mean_const hm _ hz, mean_const hc _ hz, mean_const hp _ hz, second_scale (div_ne_zero (sub_ne_zero.mpr h1) h0)]
  have := sub_ne_zero.mpr h1
  field_simp

theorem last_delta {d s₀ s₁ : ℝ} {t : List Row} (h : Constant d s₀ s₁ t) : (lastD t).delta = d := by
  apply h.delta
  unfold lastD
  rw [List.getLastD_eq_getLast?, List.getLast?_eq_some_getLast h.ne]
  exact List.getLast_mem h.ne

/-- **C121, chromaticities.**  `dqx` and `ddqx` are values of the first and second derivative of the tune.  Partial: second order only for ranges which start
at `s = 0`. -/
theorem C121_chroma_partial {T : ℝ → List Row} {q : Row → ℝ} {Q' Q'' : ℝ → ℝ} (h1 : ∀ t, HasDerivAt (fun t => q (lastD (T t))) (Q' t) t)
    (h2 : ∀ t, HasDerivAt Q' (Q'' t) t) {s₁ : ℝ} (hs : s₁ ≠ 0) (hT : ∀ t, Constant t 0 s₁ (T t)) {a b c : ℝ} (hab : a < b) (hbc : b < c) :
    (∃ t, a < t ∧ t < c ∧ dq q (T a) (T c) = Q' t) ∧ ∃ t, a < t ∧ t < c ∧ ddq q (T a) (T b) (T c) = Q'' t := by
  constructor
  · unfold dq
    rw [last_delta (hT a), last_delta (hT c)]
    exact first_between h1 (hab.trans hbc)
  · rw [ddq_scale (hT a) (hT b) (hT c) hs hs q]
    have : s₁ / (s₁ - 0) = 1 := by rw [sub_zero, div_self hs]
    rw [this, one_pow, mul_one]
    exact second_between h1 h2 hab hbc

example : ∃ T : ℝ → List Row, (∀ t, Constant t 0 10 (T t)) ∧ ∀ t, (lastD (T t)).mux = t ^ 2 :=
  ⟨fun t => [⟨0, t, 0, 0, 1, 1, 0, 0, 0, 0, 0, 0⟩, ⟨10, t, t ^ 2, 0, 1, 1, 0, 0, 0, 0, 0, 0⟩],
    fun t => ⟨by simp, by simp, by simp, by simp [lastD]⟩, fun t => by simp [lastD]⟩

/-- **C121 violated, second order.**  The last tenth of a line of 10 metres as a periodic cell whose tune is the square of the momentum: `ddqx` is 200 instead
of 2. -/
theorem C121_ddq_violated : ∃ (T : ℝ → List Row), (∀ t, Constant t 9 10 (T t)) ∧ (∀ t, (lastD (T t)).mux = t ^ 2)
    ∧ ∀ d ≠ 0, ddq Row.mux (T (-d)) (T 0) (T d) = 200 := by
  refine ⟨fun t => [⟨9, t, 0, 0, 1, 1, 0, 0, 0, 0, 0, 0⟩, ⟨10, t, t ^ 2, 0, 1, 1, 0, 0, 0, 0, 0, 0⟩], ?_, ?_, ?_⟩
  · intro t
    exact ⟨by simp, by simp, by simp, by simp [lastD]⟩
  · intro t
    simp [lastD]
  · intro d hd
    have hc : ∀ t : ℝ, Constant t 9 10 [⟨9, t, 0, 0, 1, 1, 0, 0, 0, 0, 0, 0⟩, ⟨10, t, t ^ 2, 0, 1, 1, 0, 0, 0, 0, 0, 0⟩] := fun t =>
      ⟨by simp, by simp, by simp, by simp [lastD]⟩
    rw [ddq_scale (hc (-d)) (hc 0) (hc d) (by norm_num) (by norm_num)]
    have e := second_exact hd 0 0 2 0
    simp only [lastD, List.getLastD_cons, List.getLastD_nil] at e ⊢
    have e' : second ((-d) ^ 2) (0 ^ 2) (d ^ 2) (-d) 0 d = 2 := by
      rw [← e]; congr 1 <;> ring
    rw [e']
    norm_num

/-! ## The reversed frame without the default of the line -/

theorem off_one (dflt : Bool) (m : ℝ) : offW dflt ⟨1, 1, 0, 0, 0, 0, 0, 0, 0, 0, 0, 0, 0, 0, 0, 0, 0, 0, 0, 0, 0⟩ m = if dflt then revW 1 else 1 := by
  have : w6d 1 1 0 0 1 0 0 0 0 = 1 := by
    ext i j; fin_cases i <;> fin_cases j <;> simp [w6d]
  cases dflt <;> simp [offW, initW, this]

theorem phase_rot (th : ℝ) (h0 : 0 ≤ th) (h1 : th < Real.pi) :
    (latticeRow (blockRot ![th, 0, 0] * 1)).phi 0 = th ∧ (latticeRow (blockRot ![th, 0, 0] * revW 1)).phi 0 = Real.pi - th := by
  have hc := Real.sin_sq_add_cos_sq th
  have u1 : ∀ k, |pairNorm (mode (blockRot ![th, 0, 0] * 1) k)| = 1 := by
    intro k
    rw [Matrix.mul_one]
    fin_cases k <;> simp [pairNorm, mode, blockRot, S, dotProduct, mulVec, Fin.sum_univ_six, reCol, imCol]
    rw [show Real.cos th * Real.cos th + Real.sin th * Real.sin th = 1 by linarith [hc, sq (Real.sin th), sq (Real.cos th)], abs_one]
  have u2 : ∀ k, |pairNorm (mode (blockRot ![th, 0, 0] * revW 1) k)| = 1 := by
    intro k
    fin_cases k <;> simp [pairNorm, mode, blockRot, S, dotProduct, mulVec, Fin.sum_univ_six, reCol, imCol, Matrix.mul_apply, revW, Matrix.one_apply]
    rw [show -(Real.sin th * Real.sin th) + -(Real.cos th * Real.cos th) = -1 by linarith [hc, sq (Real.sin th), sq (Real.cos th)]]
    simp
  constructor
  · show phase (renormalize _) 0 = _
    rw [renormalize_unit u1, Matrix.mul_one]
    unfold phase mode
    have : (⟨blockRot ![th, 0, 0] (reCol 0) (reCol 0), blockRot ![th, 0, 0] (reCol 0) (imCol 0)⟩ : ℂ) = Complex.cos th + Complex.sin th * Complex.I := by
      apply Complex.ext <;> simp [blockRot, reCol, imCol, Complex.cos_ofReal_re, Complex.sin_ofReal_re, Complex.cos_ofReal_im, Complex.sin_ofReal_im]
    rw [this, Complex.arg_cos_add_sin_mul_I]
    exact ⟨by linarith [Real.pi_pos], h1.le⟩
  · show phase (renormalize _) 0 = _
    rw [renormalize_unit u2]
    unfold phase mode
    have : (⟨(blockRot ![th, 0, 0] * revW 1) (reCol 0) (reCol 0), (blockRot ![th, 0, 0] * revW 1) (reCol 0) (imCol 0)⟩ : ℂ)
        = Complex.cos ((Real.pi - th : ℝ) : ℂ) + Complex.sin ((Real.pi - th : ℝ) : ℂ) * Complex.I := by
      apply Complex.ext <;> simp [blockRot, reCol, imCol, Complex.cos_ofReal_re, Complex.sin_ofReal_re, Complex.cos_ofReal_im, Complex.sin_ofReal_im,
        Matrix.mul_apply, Fin.sum_univ_six, revW, Matrix.one_apply, -Complex.ofReal_sub, Real.cos_pi_sub, Real.sin_pi_sub]
    rw [this, Complex.arg_cos_add_sin_mul_I]
    exact ⟨by linarith [Real.pi_pos], by linarith⟩

theorem advance_two {p q : ℝ} (h : |q - p| < Real.pi) : phaseAdvance [p, q] = [0, (q - p) / (2 * Real.pi)] := by
  have hp := Real.pi_pos
  have hs : unwrapStep p q = 0 := by
    unfold unwrapStep
    simp only
    rw [if_pos h]
  simp [phaseAdvance, unwrap, unwrapFrom, hs]
  field_simp

/-- **C121 violated, reversed frame.**  Initial conditions in the reversed frame on a range whose turn of phase depends on the momentum.  When the reversal is
the default of the line, the phases of the tables beside the central one, and with them `dmux` and `dqx`, have the right sign.  When it is only asked for in the
call, they have the wrong one. -/
theorem C121_reverse_violated : ∃ I : Init, ∀ m th : ℝ, 0 ≤ th → th < Real.pi →
    phaseAdvance (phasesX true true I m [blockRot ![0, 0, 0], blockRot ![th, 0, 0]]) = [0, th / (2 * Real.pi)]
    ∧ phaseAdvance (phasesX true false I m [blockRot ![0, 0, 0], blockRot ![th, 0, 0]]) = [0, -(th / (2 * Real.pi))] := by
  refine ⟨⟨1, 1, 0, 0, 0, 0, 0, 0, 0, 0, 0, 0, 0, 0, 0, 0, 0, 0, 0, 0, 0⟩, ?_⟩
  intro m th h0 h1
  obtain ⟨a1, a2⟩ := phase_rot 0 le_rfl Real.pi_pos
  obtain ⟨b1, b2⟩ := phase_rot th h0 h1
  unfold phasesX
  simp only [off_one, if_true, if_false, Bool.false_eq_true, List.map_cons, List.map_nil, revW_revW, a1, a2, b1, b2]
  rw [advance_two (by rw [sub_zero, abs_of_nonneg h0]; exact h1),
    advance_two (by rw [show Real.pi - th - (Real.pi - 0) = -th by ring, abs_neg, abs_of_nonneg h0]; exact h1)]
  constructor
  · simp
  · rw [show Real.pi - th - (Real.pi - 0) = -th by ring, neg_div]

end Verif.Chrom
