import Verif.AperModel.Poses
import Mathlib.Tactic.LinearCombination
import Mathlib.Tactic.FieldSimp
import Mathlib.Analysis.SpecialFunctions.Trigonometric.Arctan
import Mathlib.Analysis.SpecialFunctions.Trigonometric.Bounds
import Mathlib.Analysis.Real.Pi.Bounds

/-!
C160, C161: poses are rigid motions, can be inverted and read back; arcs put together are an arc.
-/
namespace Verif.AperModel.Poses
open Real

/-! ## Specification: what a rigid motion is, without the functions of the code -/

/-- A rotation and a shift: the last row is (0, 0, 0, 1), the columns of the rest are orthonormal, and it does not reflect. -/
structure Rigid (m : Pose) : Prop where
  last : ∀ j, m 3 j = if j = 3 then 1 else 0
  columns : ∀ i j : Fin 3, m 0 i.castSucc * m 0 j.castSucc + m 1 i.castSucc * m 1 j.castSucc + m 2 i.castSucc * m 2 j.castSucc
    = if i = j then 1 else 0
  hand : (m.submatrix (Fin.castSucc (n := 3)) Fin.castSucc).det = 1

/-- The square of the distance of two points. -/
def sqDist (p q : P3) : ℝ := (p.x - q.x) ^ 2 + (p.y - q.y) ^ 2 + (p.z - q.z) ^ 2

theorem sq (x : ℝ) : Real.sin x ^ 2 = 1 - Real.cos x ^ 2 := by have := Real.sin_sq_add_cos_sq x; linarith

theorem cube (x : ℝ) : Real.sin x ^ 3 = (1 - Real.cos x ^ 2) * Real.sin x := by rw [← sq]; ring
theorem fourth (x : ℝ) : Real.sin x ^ 4 = (1 - Real.cos x ^ 2) ^ 2 := by rw [← sq]; ring

/-! ## C160 -/

/-- **C160.** What the code makes of shifts and angles is a rotation and a shift. -/
theorem C160_rigid (t : Transform) : Rigid (toMatrix t) := by
  constructor
  · intro j; fin_cases j <;> simp [toMatrix]
  · intro i j
    fin_cases i <;> fin_cases j <;> simp [toMatrix]
    all_goals ring_nf
    all_goals simp only [sq]
    all_goals ring
  · rw [Matrix.det_fin_three]
    simp [toMatrix]
    ring_nf
    simp only [sq]
    ring

/-- The entries of the inverse of the rotation: it is the transpose. -/
theorem Rigid.rows {m : Pose} (h : Rigid m) (i j : Fin 3) :
    m i.castSucc 0 * m j.castSucc 0 + m i.castSucc 1 * m j.castSucc 1 + m i.castSucc 2 * m j.castSucc 2
      = if i = j then 1 else 0 := by
  have hc : (m.submatrix (Fin.castSucc (n := 3)) Fin.castSucc).transpose * m.submatrix (Fin.castSucc (n := 3)) Fin.castSucc = 1 := by
    ext i j
    have := h.columns i j
    simp only [Matrix.mul_apply, Fin.sum_univ_three, Matrix.transpose_apply, Matrix.submatrix_apply, Matrix.one_apply]
    exact this
  have hr := mul_eq_one_comm.mp hc
  have := congrFun (congrFun hr i) j
  simp only [Matrix.mul_apply, Fin.sum_univ_three, Matrix.transpose_apply, Matrix.submatrix_apply, Matrix.one_apply] at this
  exact this

/-- The rotation is its own matrix of cofactors. -/
theorem Rigid.cofactor {m : Pose} (h : Rigid m) :
    (m.submatrix (Fin.castSucc (n := 3)) Fin.castSucc).adjugate = (m.submatrix (Fin.castSucc (n := 3)) Fin.castSucc).transpose := by
  have hc : (m.submatrix (Fin.castSucc (n := 3)) Fin.castSucc).transpose * m.submatrix (Fin.castSucc (n := 3)) Fin.castSucc = 1 := by
    ext i j
    have := h.columns i j
    simp only [Matrix.mul_apply, Fin.sum_univ_three, Matrix.transpose_apply, Matrix.submatrix_apply, Matrix.one_apply]
    exact this
  have ha := Matrix.mul_adjugate (m.submatrix (Fin.castSucc (n := 3)) Fin.castSucc)
  rw [h.hand, one_smul] at ha
  calc _ = ((m.submatrix (Fin.castSucc (n := 3)) Fin.castSucc).transpose * m.submatrix (Fin.castSucc (n := 3)) Fin.castSucc) *
        (m.submatrix (Fin.castSucc (n := 3)) Fin.castSucc).adjugate := by rw [hc, one_mul]
    _ = _ := by rw [mul_assoc, ha, mul_one]

/-- **C160.** The inverse which the code computes of a pose undoes it, on both sides. -/
theorem C160_inverse (m : Pose) (h : Rigid m) : inverse m * m = 1 ∧ m * inverse m = 1 := by
  have key : inverse m * m = 1 := by
    ext i j
    have l0 := h.last 0
    have l1 := h.last 1
    have l2 := h.last 2
    have l3 := h.last 3
    simp at l0 l1 l2 l3
    have c00 := h.columns 0 0
    have c01 := h.columns 0 1
    have c02 := h.columns 0 2
    have c11 := h.columns 1 1
    have c12 := h.columns 1 2
    have c22 := h.columns 2 2
    simp at c00 c01 c02 c11 c12 c22
    fin_cases i <;> fin_cases j <;>
      simp [Matrix.mul_apply, Fin.sum_univ_four, inverse, l0, l1, l2, l3] <;> linarith
  exact ⟨key, mul_eq_one_comm.mp key⟩

/-- A point with positive radius has the angle which it was made with. -/
theorem atan2_polar (r θ : ℝ) (hr : 0 < r) (h1 : -π < θ) (h2 : θ ≤ π) : atan2 (r * Real.sin θ) (r * Real.cos θ) = θ := by
  have := Complex.arg_mul_cos_add_sin_mul_I hr ⟨h1, h2⟩
  refine Eq.trans ?_ this
  unfold atan2
  congr 1
  apply Complex.ext <;> simp [Complex.cos_ofReal_re, Complex.sin_ofReal_re]

/-- Cosine and sine of the angle of a point. -/
theorem atan2_cos_sin (x y c : ℝ) (hc : 0 < c) (h : x * x + y * y = c * c) :
    Real.cos (atan2 y x) = x / c ∧ Real.sin (atan2 y x) = y / c := by
  have hn : ‖(⟨x, y⟩ : ℂ)‖ = c := by
    rw [Complex.norm_def, Complex.normSq_mk, h]
    exact Real.sqrt_mul_self hc.le
  have h0 : (⟨x, y⟩ : ℂ) ≠ 0 := by
    intro h0
    rw [h0, norm_zero] at hn
    linarith
  constructor
  · unfold atan2; rw [Complex.cos_arg h0, hn]
  · unfold atan2; rw [Complex.sin_arg, hn]

/-- **C160.** Shifts and angles are read back from the pose made of them, in C and in python, if the rotation about the horizontal axis
is less than a right angle and the others are within a turn. -/
theorem C160_read (t : Transform) (hx1 : -(π / 2) < t.rotX) (hx2 : t.rotX < π / 2) (hy1 : -π < t.rotY) (hy2 : t.rotY ≤ π)
    (hs1 : -π < t.rotS) (hs2 : t.rotS ≤ π) : fromMatrix (toMatrix t) = t ∧ pyFromMatrix (toMatrix t) = t := by
  have hc : 0 < Real.cos t.rotX := Real.cos_pos_of_mem_Ioo ⟨hx1, hx2⟩
  have hpi := Real.pi_pos
  have e1 : Real.sqrt (toMatrix t 1 0 * toMatrix t 1 0 + toMatrix t 1 1 * toMatrix t 1 1) = Real.cos t.rotX := by
    have : toMatrix t 1 0 * toMatrix t 1 0 + toMatrix t 1 1 * toMatrix t 1 1 = Real.cos t.rotX * Real.cos t.rotX := by
      simp [toMatrix]
      have := Real.sin_sq_add_cos_sq t.rotS
      linear_combination Real.cos t.rotX ^ 2 * this
    rw [this, Real.sqrt_mul_self hc.le]
  constructor
  · apply Transform.ext
    · simp [fromMatrix, toMatrix]
    · simp [fromMatrix, toMatrix]
    · simp [fromMatrix, toMatrix]
    · show atan2 _ _ = _
      rw [e1]
      have := atan2_polar 1 t.rotX one_pos (by linarith) (by linarith)
      simpa [toMatrix] using this
    · have := atan2_polar _ t.rotY hc hy1 hy2
      simpa [fromMatrix, toMatrix] using this
    · have := atan2_polar _ t.rotS hc hs1 hs2
      simpa [fromMatrix, toMatrix] using this
  · apply Transform.ext
    · simp [pyFromMatrix, toMatrix]
    · simp [pyFromMatrix, toMatrix]
    · simp [pyFromMatrix, toMatrix]
    · have := Real.arcsin_sin hx1.le hx2.le
      simpa [pyFromMatrix, toMatrix] using this
    · have := atan2_polar _ t.rotY hc hy1 hy2
      simpa [pyFromMatrix, toMatrix] using this
    · have := atan2_polar _ t.rotS hc hs1 hs2
      simpa [pyFromMatrix, toMatrix] using this

/-- The hypotheses are met by a pose with three angles. -/
example : fromMatrix (toMatrix ⟨1, 2, 3, 1 / 2, -1, 2⟩) = ⟨1, 2, 3, 1 / 2, -1, 2⟩ := by
  have := Real.pi_gt_three
  refine (C160_read _ ?_ ?_ ?_ ?_ ?_ ?_).1 <;> dsimp only <;> linarith

/-- **C160.** Every rigid motion whose third axis is not along the vertical one is made again from the shifts and angles read from
it, in C and in python. -/
theorem C160_write (m : Pose) (h : Rigid m) (hg : m 1 0 ≠ 0 ∨ m 1 1 ≠ 0) :
    toMatrix (fromMatrix m) = m ∧ toMatrix (pyFromMatrix m) = m := by
  have l0 := h.last 0
  have l1 := h.last 1
  have l2 := h.last 2
  have l3 := h.last 3
  simp at l0 l1 l2 l3
  have r11 := h.rows 1 1
  have c22 := h.columns 2 2
  simp at r11 c22
  have hpos : 0 < m 1 0 * m 1 0 + m 1 1 * m 1 1 := by
    rcases hg with hg | hg
    · have := mul_self_pos.mpr hg
      have := mul_self_nonneg (m 1 1)
      linarith
    · have := mul_self_pos.mpr hg
      have := mul_self_nonneg (m 1 0)
      linarith
  obtain ⟨c, hc, hcc⟩ : ∃ c : ℝ, 0 < c ∧ m 1 0 * m 1 0 + m 1 1 * m 1 1 = c * c :=
    ⟨_, Real.sqrt_pos.mpr hpos, (Real.mul_self_sqrt hpos.le).symm⟩
  have hsq : Real.sqrt (m 1 0 * m 1 0 + m 1 1 * m 1 1) = c := by rw [hcc]; exact Real.sqrt_mul_self hc.le
  have hx := atan2_cos_sin c (m 1 2) 1 one_pos (by linarith)
  have hs := atan2_cos_sin (m 1 1) (m 1 0) c hc (by linarith)
  have hy := atan2_cos_sin (m 2 2) (m 0 2) c hc (by linarith)
  have hcof := h.cofactor
  rw [Matrix.adjugate_fin_three] at hcof
  have k00 := congrFun (congrFun hcof 0) 0
  have k01 := congrFun (congrFun hcof 1) 0
  have k20 := congrFun (congrFun hcof 0) 2
  have k21 := congrFun (congrFun hcof 1) 2
  simp at k00 k01 k20 k21
  have hpy : Real.cos (Real.arcsin (m 1 2)) = c ∧ Real.sin (Real.arcsin (m 1 2)) = m 1 2 := by
    have h1 : m 1 2 * m 1 2 ≤ 1 := by linarith
    have h2 : -1 ≤ m 1 2 ∧ m 1 2 ≤ 1 := abs_le.mp (abs_le_one_iff_mul_self_le_one.mpr h1)
    refine ⟨?_, Real.sin_arcsin h2.1 h2.2⟩
    rw [Real.cos_arcsin, ← hsq]
    congr 1
    nlinarith
  have gen : ∀ t : Transform, t.x = m 0 3 → t.y = m 1 3 → t.s = m 2 3 → Real.cos t.rotX = c → Real.sin t.rotX = m 1 2 →
      t.rotY = atan2 (m 0 2) (m 2 2) → t.rotS = atan2 (m 1 0) (m 1 1) → toMatrix t = m := by
    intro t e1 e2 e3 e4 e5 e6 e7
    have hc0 := hc.ne'
    have hd : c * c = 1 - m 1 2 * m 1 2 := by linarith
    ext i j
    fin_cases i <;> fin_cases j <;> simp [toMatrix, e1, e2, e3, e4, e5, e6, e7, hs, hy, l0, l1, l2, l3]
    all_goals field_simp
    · linear_combination k00 - m 1 2 * k21 - m 0 0 * hd
    · linear_combination k01 + m 1 2 * k20 - m 0 1 * hd
    · linear_combination k20 + m 1 2 * k01 - m 2 0 * hd
    · linear_combination k21 - m 1 2 * k00 - m 2 1 * hd
  constructor
  · apply gen <;> try rfl
    · show Real.cos (atan2 _ _) = _
      rw [hsq, hx.1, div_one]
    · show Real.sin (atan2 _ _) = _
      rw [hsq, hx.2, div_one]
  · apply gen <;> try rfl
    · exact hpy.1
    · exact hpy.2

/-- The hypotheses are met by every pose made of angles less than a right angle. -/
example : toMatrix (fromMatrix (toMatrix ⟨1, 2, 3, 1, 2, 3⟩)) = toMatrix ⟨1, 2, 3, 1, 2, 3⟩ := by
  refine (C160_write _ (C160_rigid _) ?_).1
  have h1 : Real.cos 1 ≠ 0 := Real.cos_one_pos.ne'
  by_cases h : Real.sin 3 = 0
  · right
    have h2 : Real.cos 3 ≠ 0 := fun h2 => by
      have := Real.sin_sq_add_cos_sq 3
      rw [h, h2] at this
      norm_num at this
    simpa [toMatrix] using ⟨h1, h2⟩
  · left
    simpa [toMatrix] using ⟨h1, h⟩

/-- A profile which lies flat, turned about the vertical: its third axis is up. -/
def flat : Pose := !![0, 1, 0, 0; 0, 0, 1, 0; 1, 0, 0, 0; 0, 0, 0, 1]

/-- **C160 (violated).** A pose whose third axis points up is not made again: the turn about the vertical is lost. -/
theorem C160_flat_violated : Rigid flat ∧ toMatrix (fromMatrix flat) ≠ flat ∧ toMatrix (pyFromMatrix flat) ≠ flat := by
  refine ⟨⟨?_, ?_, ?_⟩, ?_, ?_⟩
  · intro j; fin_cases j <;> simp [flat]
  · intro i j; fin_cases i <;> fin_cases j <;> simp [flat]
  · rw [Matrix.det_fin_three]; simp [flat]
  · intro h
    have := congrFun (congrFun h 2) 0
    have e : (⟨0, 0⟩ : ℂ) = 0 := rfl
    simp [toMatrix, fromMatrix, flat, atan2, e] at this
  · intro h
    have := congrFun (congrFun h 2) 0
    have e : (⟨0, 0⟩ : ℂ) = 0 := rfl
    simp [toMatrix, pyFromMatrix, flat, atan2, e] at this

/-! ## C161 -/

/-- **C161.** An arc of the survey is a rigid motion. -/
theorem C161_rigid (length angle tilt : ℝ) : Rigid (surveyArc length angle tilt) := by
  unfold surveyArc
  split
  · exact C160_rigid _
  · constructor
    · intro j; fin_cases j <;> simp
    · intro i j
      fin_cases i <;> fin_cases j <;> simp
      all_goals ring_nf
      all_goals try simp only [sq, cube, fourth]
      all_goals ring
    · rw [Matrix.det_fin_three]
      simp
      ring_nf
      simp only [sq, cube, fourth]
      ring

/-- **C161.** Two arcs with the same curvature and the same tilt, one after the other, are the arc of both lengths, unless one of the
angles is below the limit for straight segments. -/
theorem C161_together (k tilt l m : ℝ) (hl : eps ≤ |k * l|) (hm : eps ≤ |k * m|) (hs : eps ≤ |k * (l + m)|) :
    surveyArc l (k * l) tilt * surveyArc m (k * m) tilt = surveyArc (l + m) (k * (l + m)) tilt := by
  unfold surveyArc
  rw [if_neg (not_lt.mpr hl), if_neg (not_lt.mpr hm), if_neg (not_lt.mpr hs)]
  have p : (0 : ℝ) < eps := by norm_num [eps]
  have nz : ∀ x : ℝ, eps ≤ |k * x| → k ≠ 0 ∧ x ≠ 0 := by
    intro x hx
    constructor <;> rintro rfl <;> simp at hx <;> linarith
  have hk := (nz l hl).1
  have hl0 := (nz l hl).2
  have hm0 := (nz m hm).2
  have hs0 := (nz _ hs).2
  have e : ∀ x : ℝ, x ≠ 0 → ∀ a : ℝ, x * a / (k * x) = a / k := by intro x hx a; field_simp
  simp only [e l hl0, e m hm0, e _ hs0]
  rw [mul_add, Real.cos_add, Real.sin_add]
  ext i j
  fin_cases i <;> fin_cases j <;> simp [Matrix.mul_apply, Fin.sum_univ_four]
  all_goals ring_nf
  all_goals try simp only [sq, cube, fourth]
  all_goals try ring

/-- The arcs of a pipe are arcs without tilt. -/
theorem C161_pipe (length angle : ℝ) : pipeArc length angle = surveyArc length angle 0 := by
  unfold pipeArc surveyArc
  split
  · rfl
  · simp

/-- **C161.** Going on from a position within a segment for a part of the rest of it is the same as going there at once. -/
theorem C161_interpolate (start : Pose) (length angle tilt t u : ℝ) (hlen : length ≠ 0)
    (h : angle = 0 ∨ (eps ≤ |t * angle| ∧ eps ≤ |u * ((1 - t) * angle)| ∧ eps ≤ |(t + u * (1 - t)) * angle|)) :
    interpolate (interpolate start length angle tilt t) ((1 - t) * length) ((1 - t) * angle) tilt u
      = interpolate start length angle tilt (t + u * (1 - t)) := by
  unfold interpolate
  rw [Matrix.mul_assoc]
  congr 1
  rcases h with h | ⟨h1, h2, h3⟩
  · subst h
    have p : (0 : ℝ) < eps := by norm_num [eps]
    simp only [mul_zero, surveyArc, abs_zero, if_pos p]
    ext i j
    fin_cases i <;> fin_cases j <;> simp [Matrix.mul_apply, Fin.sum_univ_four, toMatrix]
    ring
  · have e1 : t * angle = angle / length * (t * length) := by field_simp
    have e2 : u * ((1 - t) * angle) = angle / length * (u * ((1 - t) * length)) := by field_simp
    have e3 : (t + u * (1 - t)) * angle = angle / length * (t * length + u * ((1 - t) * length)) := by field_simp
    have e4 : (t + u * (1 - t)) * length = t * length + u * ((1 - t) * length) := by ring
    rw [e1] at h1
    rw [e2] at h2
    rw [e3] at h3
    rw [e1, e2, e3, e4]
    exact C161_together _ _ _ _ h1 h2 h3

/-- The hypotheses are met by the middle and the third quarter of a bend. -/
example : interpolate (interpolate 1 4 1 2 (1 / 2)) ((1 - 1 / 2) * 4) ((1 - 1 / 2) * 1) 2 (1 / 2)
    = interpolate 1 4 1 2 (1 / 2 + 1 / 2 * (1 - 1 / 2)) :=
  C161_interpolate 1 4 1 2 (1 / 2) (1 / 2) (by norm_num)
    (Or.inr ⟨by norm_num [eps, abs_of_pos], by norm_num [eps, abs_of_pos], by norm_num [eps, abs_of_pos]⟩)

theorem apply_mul (a b : Pose) (hb : ∀ j, b 3 j = if j = 3 then 1 else 0) (p : P3) : apply (a * b) p = apply a (apply b p) := by
  have l0 := hb 0
  have l1 := hb 1
  have l2 := hb 2
  have l3 := hb 3
  simp at l0 l1 l2 l3
  apply P3.ext <;> simp [apply, Matrix.mul_apply, Fin.sum_univ_four, l0, l1, l2, l3] <;> ring

/-- **C160.** A rigid motion keeps distances. -/
theorem C160_distance (m : Pose) (h : Rigid m) (p q : P3) : sqDist (apply m p) (apply m q) = sqDist p q := by
  have c00 := h.columns 0 0
  have c01 := h.columns 0 1
  have c02 := h.columns 0 2
  have c11 := h.columns 1 1
  have c12 := h.columns 1 2
  have c22 := h.columns 2 2
  simp at c00 c01 c02 c11 c12 c22
  simp only [sqDist, apply]
  linear_combination (p.x - q.x) ^ 2 * c00 + (p.y - q.y) ^ 2 * c11 + (p.z - q.z) ^ 2 * c22
    + 2 * (p.x - q.x) * (p.y - q.y) * c01 + 2 * (p.x - q.x) * (p.z - q.z) * c02 + 2 * (p.y - q.y) * (p.z - q.z) * c12

/-- **C161.** The pose of a position within a bent segment sits on the curve which the planes of the profiles are intersected with, if
neither the angle nor the curvature is below the limit. -/
theorem C161_on_curve (start : Pose) (length angle tilt t : ℝ) (hlen : length ≠ 0) (ha : eps ≤ |t * angle|)
    (hk : eps ≤ |angle / length|) :
    apply (interpolate start length angle tilt t) ⟨0, 0, 0⟩ = surveyPoint start length angle tilt t := by
  have p : (0 : ℝ) < eps := by norm_num [eps]
  have hta : t * angle ≠ 0 := fun h => by rw [h, abs_zero] at ha; linarith
  have ht : t ≠ 0 := left_ne_zero_of_mul hta
  have hag : angle ≠ 0 := right_ne_zero_of_mul hta
  unfold interpolate surveyPoint arcPoint
  rw [apply_mul _ _ (C161_rigid _ _ _).last, if_neg (not_lt.mpr hk), if_neg (not_lt.mpr hk)]
  congr 1
  unfold surveyArc
  rw [if_neg (not_lt.mpr ha), show angle / length * (t * length) = t * angle by field_simp]
  apply P3.ext
  · simp [apply]; left; field_simp
  · simp [apply]; left; field_simp
  · simp [apply]; field_simp

/-- The hypotheses are met by the middle of a bend. -/
example : apply (interpolate 1 4 1 2 (1 / 2)) ⟨0, 0, 0⟩ = surveyPoint 1 4 1 2 (1 / 2) :=
  C161_on_curve _ _ _ _ _ (by norm_num) (by norm_num [eps, abs_of_pos]) (by norm_num [eps, abs_of_pos])

/-- **C161 (violated).** In a long and weak bend, a kilometre with half a milliradian, the curve for the intersections is straight
while the poses are bent: at its end they are 10 cm apart. The one limit is for the curvature, the other for the angle. -/
theorem C161_weak_violated :
    (surveyPoint 1 1000 (1 / 2000) 0 1).x - (apply (interpolate 1 1000 (1 / 2000) 0 1) ⟨0, 0, 0⟩).x ≥ 1 / 10 := by
  have hk : |(1 / 2000 : ℝ) / 1000| < eps := by rw [abs_of_pos (by norm_num)]; norm_num [eps]
  have ha : ¬ |(1 : ℝ) * (1 / 2000)| < eps := by rw [abs_of_pos (by norm_num)]; norm_num [eps]
  have h := Real.cos_le_one_sub_mul_cos_sq (x := 1 / 2000) (by rw [abs_of_pos (by norm_num)]; linarith [Real.pi_gt_three])
  have hpi : (1 : ℝ) / 5 ≤ 2 / π ^ 2 := by
    have h1 := Real.pi_lt_d2
    have h2 := Real.pi_gt_three
    rw [div_le_div_iff₀ (by norm_num) (by positivity)]
    nlinarith
  unfold surveyPoint arcPoint interpolate surveyArc
  rw [if_pos hk, if_pos hk, if_neg ha]
  simp [apply]
  norm_num at h ⊢
  nlinarith

end Verif.AperModel.Poses
