import Verif.SegMap.Spec
import Mathlib.Tactic.Ring
import Mathlib.Tactic.FieldSimp
import Mathlib.Tactic.Linarith
import Mathlib.Tactic.LinearCombination
import Mathlib.Tactic.NormNum
import Mathlib.Tactic.Positivity

/-!
# Linear maps of segments: lemmas
-/

namespace Verif.SegMap

open Frames

noncomputable section

theorem addChroma_eq (l : List ℝ) (delta phase : ℝ) :
    addChroma l delta phase = phase + 2 * Real.pi * ∑ i ∈ Finset.Ico 1 l.length, l.getD i 0 * delta ^ i := by
  have key : ∀ (n a : ℕ) (ph : ℝ), (List.range' a n).foldl (fun phase i => phase + 2 * Real.pi * (l.getD i 0 * delta ^ i)) ph
      = ph + 2 * Real.pi * ∑ i ∈ Finset.Ico a (a + n), l.getD i 0 * delta ^ i := by
    intro n
    induction n with
    | zero => intro a ph; simp
    | succ n ih =>
      intro a ph
      rw [List.range'_succ, List.foldl_cons, ih, Finset.sum_eq_sum_Ico_succ_bot (show a < a + (n + 1) by omega),
        show a + 1 + n = a + (n + 1) by omega]
      ring
  unfold addChroma
  rw [key]
  rcases Nat.eq_zero_or_pos l.length with h | h
  · simp [h]
  · rw [show 1 + (l.length - 1) = l.length by omega]

theorem getD_mapIdx (l : List ℝ) (i : ℕ) : (l.mapIdx fun i c => c / (i.factorial : ℝ)).getD i 0 = l.getD i 0 / (i.factorial : ℝ) := by
  simp only [List.getD_eq_getElem?_getD, List.getElem?_mapIdx]
  cases l[i]? <;> simp

/-- The constructor stores the derivatives of the tune; without a linear chromaticity a quadratic one is misplaced. -/
theorem tuneFields_at {t : TuneArgs} {q : ℝ} {c : List ℝ} (h : tuneFields t.q t.dq t.ddq t.dnq = some (q, c))
    (ok : t.dnq = none → t.dq = 0 → t.ddq = 0) (delta : ℝ) :
    c.getD 0 0 = t.at 0 ∧ q = t.at 0 ∧ q + ∑ i ∈ Finset.Ico 1 c.length, c.getD i 0 * delta ^ i = t.at delta := by
  unfold tuneFields at h
  unfold TuneArgs.at
  cases hd : t.dnq with
  | some l =>
    rw [hd] at h
    simp only at h ⊢
    split at h
    · cases l with
      | nil => simp at h
      | cons a l =>
        simp only [Option.some.injEq, Prod.mk.injEq] at h
        obtain ⟨rfl, rfl⟩ := h
        have e0 : ∑ i ∈ Finset.range (a :: l).length, (a :: l).getD i 0 / (i.factorial : ℝ) * (0 : ℝ) ^ i = a := by
          rw [Finset.sum_eq_single 0]
          · simp
          · intro i _ hi
            simp [hi]
          · simp
        refine ⟨?_, e0.symm, ?_⟩
        · rw [getD_mapIdx, e0]
          simp
        · rw [List.length_mapIdx, Finset.range_eq_Ico, Finset.sum_eq_sum_Ico_succ_bot (show 0 < (a :: l).length by simp)]
          simp only [getD_mapIdx]
          simp
    · simp at h
  | none =>
    rw [hd] at h
    have ok := ok hd
    simp only [Option.some.injEq, Prod.mk.injEq] at h ⊢
    obtain ⟨rfl, rfl⟩ := h
    by_cases h1 : t.dq = 0
    · have h2 := ok h1
      simp [h1, h2]
    · by_cases h2 : t.ddq = 0
      · simp [h1, h2]
      · simp [h1, h2, Finset.sum_Ico_succ_top, Nat.factorial]
        ring

theorem anyChroma_eq (e : Seg) : anyChroma e = (if e.coeffsDqx.getD 0 0 ≠ 0 then e.coeffsDqx.length else 0)
    + (if e.coeffsDqy.getD 0 0 ≠ 0 then e.coeffsDqy.length else 0) := by
  have key : ∀ (l : List ℕ) (c n : ℕ), l.foldl (fun n _ => n + c) n = n + l.length * c := by
    intro l c
    induction l with
    | nil => simp
    | cons a l ih =>
      intro n
      rw [List.foldl_cons, ih, List.length_cons]
      ring
  unfold anyChroma
  rw [key, key]
  simp

theorem getD_ne {l : List ℝ} (h : l.getD 0 0 ≠ 0) : l.length ≠ 0 := by
  intro h0
  rw [List.length_eq_zero_iff.1 h0] at h
  simp at h

theorem detuning_iff (e : Seg) : detuning e ↔ e.coeffsDqx.getD 0 0 ≠ 0 ∨ e.coeffsDqy.getD 0 0 ≠ 0 ∨ e.detXX ≠ 0 ∨ e.detXY ≠ 0
    ∨ e.detYX ≠ 0 ∨ e.detYY ≠ 0 := by
  unfold detuning
  rw [anyChroma_eq, ← or_assoc (a := e.coeffsDqx.getD 0 0 ≠ 0)]
  refine or_congr_left ?_
  constructor
  · intro h
    by_contra hc
    simp only [not_or, not_not] at hc
    rw [if_neg (not_not.2 hc.1), if_neg (not_not.2 hc.2)] at h
    exact h rfl
  · rintro (h | h)
    · rw [if_pos h]
      have := getD_ne h
      omega
    · rw [if_pos h]
      have := getD_ne h
      omega

/-- Actions are actions. -/
theorem actionOf_eq {o : Optics} (h : 0 < o.bet) (delta x px : ℝ) :
    actionOf o (x + -o.ref + -o.d * delta) (px + -o.pref + -o.dp * delta) = action (normal o delta x px) := by
  have e := Real.sq_sqrt h.le
  have hb := h.ne'
  simp only [actionOf, action, normal, div_pow, e]
  field_simp
  ring

/-- The matrix turns the normalised coordinates. -/
theorem planeMap_normal {o0 o1 : Optics} (h0 : 0 < o0.bet) (h1 : 0 < o1.bet) (a delta delta' x px f : ℝ) :
    normal o1 delta'
        ((planeMap o0 o1 a (x + -o0.ref + -o0.d * delta) (px + -o0.pref + -o0.dp * delta)).1 * f + o1.d * delta' + o1.ref)
        ((planeMap o0 o1 a (x + -o0.ref + -o0.d * delta) (px + -o0.pref + -o0.dp * delta)).2 * f + o1.dp * delta' + o1.pref)
      = f • turn a (normal o0 delta x px) := by
  have e0 := Real.sq_sqrt h0.le
  have e1 := Real.sq_sqrt h1.le
  have p0 := Real.sqrt_pos.2 h0
  have p1 := Real.sqrt_pos.2 h1
  simp only [planeMap, normal, turn, Real.sqrt_mul h1.le, Real.sqrt_div h1.le, Prod.smul_mk, smul_eq_mul]
  generalize Real.sqrt o0.bet = r0 at *
  generalize Real.sqrt o1.bet = r1 at *
  generalize Real.cos a = c at *
  generalize Real.sin a = s at *
  rw [← e0, ← e1]
  ext <;> simp only <;> field_simp <;> ring

/-- The longitudinal motion leaves the transverse coordinates and the reference. -/
structure Untouched (s t : St) : Prop where
  x : t.p.x = s.p.x
  px : t.p.px = s.p.px
  y : t.p.y = s.p.y
  py : t.p.py = s.p.py
  beta0 : t.p.beta0 = s.p.beta0
  chi : t.p.chi = s.p.chi
  pos : t.p.s = s.p.s
  p0c : t.p0c = s.p0c
  gamma0 : t.gamma0 = s.gamma0

theorem Untouched.refl (s : St) : Untouched s s := ⟨rfl, rfl, rfl, rfl, rfl, rfl, rfl, rfl, rfl⟩

theorem Untouched.trans {s t u : St} (h : Untouched s t) (g : Untouched t u) : Untouched s u :=
  ⟨g.x.trans h.x, g.px.trans h.px, g.y.trans h.y, g.py.trans h.py, g.beta0.trans h.beta0, g.chi.trans h.chi, g.pos.trans h.pos,
    g.p0c.trans h.p0c, g.gamma0.trans h.gamma0⟩

theorem untouched_energy (k : Consts) (s : St) (dE : ℝ) : Untouched s (addToEnergy k s dE) := ⟨rfl, rfl, rfl, rfl, rfl, rfl, rfl, rfl, rfl⟩

theorem untouched_rf (k : Consts) (s : St) (c : ℝ × ℝ × ℝ × ℝ) : Untouched s (rfKick k s c) := by
  unfold rfKick
  split
  · exact .refl s
  · exact untouched_energy ..

theorem untouched_slip (e : Seg) (s : St) : Untouched s (slip e s) := ⟨rfl, rfl, rfl, rfl, rfl, rfl, rfl, rfl, rfl⟩

theorem untouched_rfs (k : Consts) : ∀ (l : List (ℝ × ℝ × ℝ × ℝ)) (s : St), Untouched s (l.foldl (rfKick k) s)
  | [], s => .refl s
  | c :: l, s => (untouched_rf k s c).trans (untouched_rfs k l _)

theorem untouched_longitudinal {e : Seg} {k : Consts} {s t : St} (h : longitudinal e k s = some t) : Untouched s t := by
  unfold longitudinal at h
  split at h
  · split at h
    · simp at h
    · simp only [Option.some.injEq] at h
      subst h
      simp only [longRotate]
      cases k.kill <;> exact ⟨rfl, rfl, rfl, rfl, rfl, rfl, rfl, rfl, rfl⟩
  · split at h
    · simp only [Option.some.injEq] at h
      subst h
      exact ((untouched_slip e s).trans (untouched_rfs k _ _)).trans (untouched_slip e _)
    · split at h
      · split at h
        · simp at h
        · split at h
          · simp at h
          · split at h
            · simp at h
            · simp only [Option.some.injEq] at h
              subst h
              exact ⟨rfl, rfl, rfl, rfl, rfl, rfl, rfl, rfl, rfl⟩
      · simp only [Option.some.injEq] at h
        subst h
        exact .refl s

/-- The increments of the reference energy shrink the transverse coordinates. -/
theorem increments_scale {e : Seg} {k : Consts} {s t : St} (hm : 0 < k.mass0) (hg : 0 < betaGamma s) (h : increments e k s = some t) :
    ∃ f : ℝ, 0 < f ∧ f ^ 2 * betaGamma t = betaGamma s ∧ 0 < betaGamma t ∧ t.p.x = s.p.x * f ∧ t.p.px = s.p.px * f ∧ t.p.y = s.p.y * f
      ∧ t.p.py = s.p.py * f ∧ t.p.s = s.p.s := by
  have key : ∀ s' : St, Untouched s s' → (if e.energyRefIncrement ≠ 0 then
      if (k.mass0 * s'.gamma0 + e.energyRefIncrement) * (k.mass0 * s'.gamma0 + e.energyRefIncrement) - k.mass0 * k.mass0 ≤ 0 then none
      else
        some { updateP0c k s' (Real.sqrt ((k.mass0 * s'.gamma0 + e.energyRefIncrement) * (k.mass0 * s'.gamma0 + e.energyRefIncrement)
            - k.mass0 * k.mass0)) with
          p := { (updateP0c k s' (Real.sqrt ((k.mass0 * s'.gamma0 + e.energyRefIncrement) * (k.mass0 * s'.gamma0 + e.energyRefIncrement)
            - k.mass0 * k.mass0))).p with
            px := s'.p.px * Real.sqrt (s'.p.beta0 * s'.gamma0 / (Real.sqrt ((k.mass0 * s'.gamma0 + e.energyRefIncrement)
                * (k.mass0 * s'.gamma0 + e.energyRefIncrement) - k.mass0 * k.mass0) / (k.mass0 * s'.gamma0 + e.energyRefIncrement))
                / ((k.mass0 * s'.gamma0 + e.energyRefIncrement) / k.mass0))
            py := s'.p.py * Real.sqrt (s'.p.beta0 * s'.gamma0 / (Real.sqrt ((k.mass0 * s'.gamma0 + e.energyRefIncrement)
                * (k.mass0 * s'.gamma0 + e.energyRefIncrement) - k.mass0 * k.mass0) / (k.mass0 * s'.gamma0 + e.energyRefIncrement))
                / ((k.mass0 * s'.gamma0 + e.energyRefIncrement) / k.mass0))
            x := (updateP0c k s' (Real.sqrt ((k.mass0 * s'.gamma0 + e.energyRefIncrement) * (k.mass0 * s'.gamma0 + e.energyRefIncrement)
                - k.mass0 * k.mass0))).p.x * Real.sqrt (s'.p.beta0 * s'.gamma0 / (Real.sqrt ((k.mass0 * s'.gamma0 + e.energyRefIncrement)
                * (k.mass0 * s'.gamma0 + e.energyRefIncrement) - k.mass0 * k.mass0) / (k.mass0 * s'.gamma0 + e.energyRefIncrement))
                / ((k.mass0 * s'.gamma0 + e.energyRefIncrement) / k.mass0))
            y := (updateP0c k s' (Real.sqrt ((k.mass0 * s'.gamma0 + e.energyRefIncrement) * (k.mass0 * s'.gamma0 + e.energyRefIncrement)
                - k.mass0 * k.mass0))).p.y * Real.sqrt (s'.p.beta0 * s'.gamma0 / (Real.sqrt ((k.mass0 * s'.gamma0 + e.energyRefIncrement)
                * (k.mass0 * s'.gamma0 + e.energyRefIncrement) - k.mass0 * k.mass0) / (k.mass0 * s'.gamma0 + e.energyRefIncrement))
                / ((k.mass0 * s'.gamma0 + e.energyRefIncrement) / k.mass0)) } }
      else some s') = some t → ∃ f : ℝ, 0 < f ∧ f ^ 2 * betaGamma t = betaGamma s ∧ 0 < betaGamma t ∧ t.p.x = s.p.x * f ∧ t.p.px = s.p.px * f
        ∧ t.p.y = s.p.y * f ∧ t.p.py = s.p.py * f ∧ t.p.s = s.p.s := by
    intro s' u h
    have hbg : s'.p.beta0 * s'.gamma0 = betaGamma s := by rw [u.beta0, u.gamma0]; rfl
    split at h
    · split at h
      · simp at h
      · rename_i hE
        rw [hbg] at h
        generalize k.mass0 * s'.gamma0 + e.energyRefIncrement = E at *
        have hE' := not_le.1 hE
        have hP := Real.sqrt_pos.2 hE'
        have hsq := Real.sq_sqrt hE'.le
        generalize Real.sqrt (E * E - k.mass0 * k.mass0) = P at *
        have hE0 : E ≠ 0 := by
          rintro rfl
          nlinarith
        have hroot : Real.sqrt (P * P + k.mass0 * k.mass0) ≠ 0 := (Real.sqrt_pos.2 (by positivity)).ne'
        have hbt : betaGamma t = P / k.mass0 := by
          rw [← Option.some.inj h]
          simp only [betaGamma, updateP0c, updateDelta]
          field_simp
        have hq : betaGamma s / (P / E) / (E / k.mass0) = betaGamma s / (P / k.mass0) := by field_simp
        rw [hq, ← hbt] at h
        have hpos : 0 < betaGamma t := by rw [hbt]; positivity
        refine ⟨Real.sqrt (betaGamma s / betaGamma t), Real.sqrt_pos.2 (by positivity), ?_, hpos, ?_⟩
        · rw [Real.sq_sqrt (by positivity)]
          field_simp
        · have h' := Option.some.inj h
          generalize Real.sqrt (betaGamma s / betaGamma t) = f at *
          rw [← h']
          simp only [updateP0c, updateDelta, u.x, u.px, u.y, u.py, u.pos]
          exact ⟨trivial, trivial, trivial, trivial, trivial⟩
    · rw [← Option.some.inj h]
      refine ⟨1, one_pos, ?_, ?_, ?_⟩
      · rw [one_pow, one_mul, ← hbg]
        rfl
      · rw [show betaGamma s' = s'.p.beta0 * s'.gamma0 from rfl, hbg]
        exact hg
      · simp only [mul_one]
        exact ⟨u.x, u.px, u.y, u.py, u.pos⟩
  by_cases hi : e.energyIncrement ≠ 0
  · refine key (addToEnergy k s e.energyIncrement) (untouched_energy ..) ?_
    rw [← h]
    simp only [increments, if_pos hi]
  · refine key s (.refl s) ?_
    rw [← h]
    simp only [increments, if_neg hi]

end

end Verif.SegMap
