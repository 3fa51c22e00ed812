import Verif.Rdt.Props
import Mathlib.Tactic.IntervalCases
import Mathlib.Algebra.Order.Floor.Ring
import Mathlib.Algebra.Order.Archimedean.Basic

/-! # C107: the motion predicted from driving terms, misaligned magnets, frequencies -/

namespace Verif.Rdt

open Finset Complex Verif.Magnets Verif.Frames

noncomputable section

theorem kick_split (w : Row) (hbx : 0 ≤ w.betx) (hby : 0 ≤ w.bety) {Ix Iy : ℝ} (hx : 0 ≤ Ix) (hy : 0 ≤ Iy) (M : ℕ) :
    ∃ a b : ℝ, ∀ phx phy : ℝ,
      -2 * I * ∑ k ∈ (keysUpTo M).filter (fun k => ¬ k.Diag), termX (hl w k) k Ix Iy phx phy
        = kickX w M (pos w.betx Ix phx) (pos w.bety Iy phy) + I * a * exp (I * phx)
      ∧ -2 * I * ∑ k ∈ (keysUpTo M).filter (fun k => ¬ k.Diag), termY (hl w k) k Ix Iy phx phy
        = kickY w M (pos w.betx Ix phx) (pos w.bety Iy phy) + I * b * exp (I * phy) := by
  obtain ⟨a, b, h⟩ := diag_sum w Ix Iy ((keysUpTo M).filter (fun k => k.Diag)) (fun k hk => (mem_filter.mp hk).2)
  refine ⟨2 * a, 2 * b, fun phx phy => ?_⟩
  obtain ⟨h1, h2⟩ := C107_kick w hbx hby hx hy phx phy M
  obtain ⟨h3, h4⟩ := h phx phy
  rw [← h1, ← h2]
  have s1 := Finset.sum_filter_add_sum_filter_not (keysUpTo M) (fun k => k.Diag) (fun k => termX (hl w k) k Ix Iy phx phy)
  have s2 := Finset.sum_filter_add_sum_filter_not (keysUpTo M) (fun k => k.Diag) (fun k => termY (hl w k) k Ix Iy phx phy)
  rw [h3] at s1
  rw [h4] at s2
  rw [← s1, ← s2]
  constructor
  · push_cast; ring
  · push_cast; ring

/-- **C107.**  `tracking_from_rdt` with the driving terms of all resonances up to an order describes the motion to first order:
from row to row and from turn to turn the deviation from the unperturbed motion turns with the phase advance and gets
the kick of the magnet there, at the position of the unperturbed motion.  The only difference are terms with a real
factor, the same in all turns and for all phases, along the unperturbed motion: changes of the tunes. -/
theorem C107_motion (M L : ℕ) (rows : ℕ → Row) (qx qy : ℝ) {Ix Iy : ℝ} (hx : 0 ≤ Ix) (hy : 0 ≤ Iy)
    (hb : ∀ i, 0 ≤ (rows i).betx ∧ 0 ≤ (rows i).bety)
    (hres : ∀ k ∈ keysUpTo M, ¬ k.Diag → denominator qx qy k ≠ 0) :
    ∃ cx cy : ℕ → ℝ, ∀ (psix psiy : ℝ) (N : ℕ),
      let D := (keysUpTo M).filter (fun k => ¬ k.Diag)
      let ux := fun i N => phase qx (2 * Real.pi * (rows i).mux + psix) N
      let uy := fun i N => phase qy (2 * Real.pi * (rows i).muy + psiy) N
      let X := fun i N => devX D L rows qx qy Ix Iy psix psiy i N
      let Y := fun i N => devY D L rows qx qy Ix Iy psix psiy i N
      let kx := fun i N => kickX (rows i) M (pos (rows i).betx Ix (ux i N)) (pos (rows i).bety Iy (uy i N))
      let ky := fun i N => kickY (rows i) M (pos (rows i).betx Ix (ux i N)) (pos (rows i).bety Iy (uy i N))
      (∀ i, i + 1 < L →
        X (i + 1) N = exp (I * (ux (i + 1) N - ux i N)) * X i N + kx (i + 1) N + I * cx (i + 1) * exp (I * ux (i + 1) N)
        ∧ Y (i + 1) N = exp (I * (uy (i + 1) N - uy i N)) * Y i N + ky (i + 1) N + I * cy (i + 1) * exp (I * uy (i + 1) N))
      ∧ (0 < L →
        X 0 (N + 1) = exp (I * (ux 0 (N + 1) - ux (L - 1) N)) * X (L - 1) N + kx 0 (N + 1) + I * cx 0 * exp (I * ux 0 (N + 1))
        ∧ Y 0 (N + 1) = exp (I * (uy 0 (N + 1) - uy (L - 1) N)) * Y (L - 1) N + ky 0 (N + 1) + I * cy 0 * exp (I * uy 0 (N + 1))) := by
  choose cx cy hc using fun i => kick_split (rows i) (hb i).1 (hb i).2 hx hy M
  refine ⟨cx, cy, fun psix psiy N => ?_⟩
  intro D ux uy X Y kx ky
  have hD : ∀ k ∈ D, denominator qx qy k ≠ 0 := fun k hk => hres k (mem_filter.mp hk).1 (mem_filter.mp hk).2
  constructor
  · intro i hi
    have h := step (L := L) (rows := rows) (qx := qx) (qy := qy) D Ix Iy psix psiy i N (i + 1) N
      ((rows (i + 1)).mux - (rows i).mux) ((rows (i + 1)).muy - (rows i).muy)
      (fun k hk => C107_next k (hD k hk) hi) (by unfold phase; ring) (by unfold phase; ring)
    have hcc := hc (i + 1) (ux (i + 1) N) (uy (i + 1) N)
    constructor
    · refine h.1.trans ?_
      rw [hcc.1, ← add_assoc]
      congr 4
      simp only [ux, phase]; push_cast; ring
    · refine h.2.trans ?_
      rw [hcc.2, ← add_assoc]
      congr 4
      simp only [uy, phase]; push_cast; ring
  · intro hL
    have h := step (L := L) (rows := rows) (qx := qx) (qy := qy) D Ix Iy psix psiy (L - 1) N 0 (N + 1)
      (qx + (rows 0).mux - (rows (L - 1)).mux) (qy + (rows 0).muy - (rows (L - 1)).muy)
      (fun k hk => C107_close k (hD k hk) hL) (by unfold phase; push_cast; ring) (by unfold phase; push_cast; ring)
    have hcc := hc 0 (ux 0 (N + 1)) (uy 0 (N + 1))
    constructor
    · refine h.1.trans ?_
      rw [hcc.1, ← add_assoc]
      congr 4
      simp only [ux, phase]; push_cast; ring
    · refine h.2.trans ?_
      rw [hcc.2, ← add_assoc]
      congr 4
      simp only [uy, phase]; push_cast; ring

/-! ## Misaligned magnets -/

/-- **C107.**  With feed-down the kick is the one of the displaced and rolled magnet, for a particle at the given distance
from the orbit. -/
theorem C107_misaligned (betx bety mux muy : ℝ) (knl ksl : ℕ → ℝ) (dx dy rot x0 y0 : ℝ) (p : Part) (hchi : p.chi = 1) :
    let w := compile true betx bety mux muy knl ksl dx dy rot x0 y0
    let p' := trackPlaced (displaced dx dy rot) (fun _ q => kickSimple q 5 (invFact 5) knl ksl 1 1) false p
    kickX w 5 (p.x - x0) (p.y - y0) = -I * (Real.sqrt betx : ℂ) * ((p'.px - p.px : ℝ) : ℂ)
      ∧ kickY w 5 (p.x - x0) (p.y - y0) = -I * (Real.sqrt bety : ℂ) * ((p'.py - p.py : ℝ) : ℂ) := by
  intro w p'
  have h : p' = _ := C106_track ⟨6, knl, ksl, dx, dy, rot, x0, y0⟩ 5 rfl 1 p
  rw [h, hchi]
  simp only [add_sub_cancel_left]
  exact ⟨rfl, rfl⟩

/-- **C107, violation.**  The roll without the frame (`rot_s_rad_no_frame`) is a misalignment of the tracking, but the
driving terms do not know it: a quadrupole rolled by a quarter of a turn kicks in the other direction. -/
theorem C107_roll_violated : ∃ (knl ksl : ℕ → ℝ) (e : Placed) (p : Part), p.chi = 1 ∧ e.mis.dx = 0 ∧ e.mis.dy = 0 ∧ e.mis.tilt = 0
    ∧ (trackPlaced e (fun _ q => kickSimple q 5 (invFact 5) knl ksl 1 1) false p).px - p.px = 1
    ∧ kickX (compile true 1 1 0 0 knl ksl e.mis.dx e.mis.dy e.mis.tilt 0 0) 5 p.x p.y = -I * ((-1 : ℝ) : ℂ) := by
  let p0 : Part := ⟨1, 0, 0, 0, 0, 0, 0, 0, 1, 1, 1, 1, 0, 0, 0⟩
  refine ⟨fun n => if n = 1 then 1 else 0, fun _ => 0, ⟨⟨0, 0, 0, 0, 0, Real.pi / 2, 0, 0, 0⟩, 1, 0, false, none⟩, p0,
    rfl, rfl, rfl, rfl, ?_, ?_⟩
  · have hpi : ¬ Real.pi / 2 = 0 := by have := Real.pi_pos; linarith
    have hpi' : ¬ -(Real.pi / 2) = 0 := by have := Real.pi_pos; linarith
    unfold trackPlaced
    rw [if_pos (by unfold active; exact Or.inr (Or.inr (Or.inr (Or.inr (Or.inr (Or.inr hpi))))))]
    simp [misalignEntry, misalignExit, sliceMis, entryStraight, exitStraight, sShift, yRotate, xRotate, sRotate, sRot,
      xyShift, p0, hpi, kickSimple, kickCoords_field, field, Finset.sum_range_succ]
  · have h := (C107_misaligned 1 1 0 0 (fun n => if n = 1 then 1 else 0) (fun _ => 0) 0 0 0 0 0 p0 rfl).1
    simp only [sub_zero] at h
    rw [h]
    have : (trackPlaced (displaced 0 0 0) (fun _ q => kickSimple q 5 (invFact 5) (fun n => if n = 1 then 1 else 0)
        (fun _ => 0) 1 1) false p0).px - p0.px = -1 := by
      unfold trackPlaced
      rw [if_neg (by simp [active, displaced])]
      simp [kickSimple, kickCoords_field, field, Finset.sum_range_succ, p0]
    rw [show ((trackPlaced (displaced 0 0 0) (fun _ q => kickSimple q 5 (invFact 5) (fun n => if n = 1 then 1 else 0)
        (fun _ => 0) 1 1) false p0).px - p0.px : ℝ) = -1 from this]
    simp

/-! ## Frequencies -/

theorem wrap_fract (x : ℝ) : wrap x = Int.fract x := by
  classical
  unfold wrap
  simp only
  generalize hnn : Nat.find (exists_up x) = n
  have hn : 0 ≤ x + n := by
    have := Nat.find_spec (exists_up x)
    rw [hnn] at this; push Not at this; exact this
  set y := x + (n : ℝ) with hy
  clear_value y
  generalize hmm : Nat.find (exists_down y) = m
  have hm : y - m < 1 := by
    have := Nat.find_spec (exists_down y)
    rw [hmm] at this; push Not at this; exact this
  have hm0 : 0 ≤ y - m := by
    rcases Nat.eq_zero_or_pos m with h | h
    · rw [h]; simpa using hn
    · have := Nat.find_min (exists_down y) (m := m - 1) (by omega)
      rw [not_not] at this
      have e : ((m - 1 : ℕ) : ℝ) = m - 1 := by rw [Nat.cast_sub h]; simp
      rw [e] at this; linarith
  symm
  rw [Int.fract_eq_iff]
  refine ⟨hm0, hm, (m : ℤ) - n, ?_⟩
  push_cast; rw [hy]; ring

/-- **C107.**  The frequencies of the metadata are in [0, 1), and are those of the lines of a key in the motion. -/
theorem C107_freq (k : Key) (qx qy : ℝ) :
    (0 ≤ freqX k qx qy ∧ freqX k qx qy < 1) ∧ (0 ≤ freqY k qx qy ∧ freqY k qx qy < 1)
    ∧ ∀ (v : ℂ) (Ix Iy psix psiy : ℝ) (N : ℕ),
      termX v k Ix Iy (phase qx psix N) (phase qy psiy N)
        = exp (I * 2 * Real.pi * (freqX k qx qy * N)) * termX v k Ix Iy psix psiy
      ∧ termY v k Ix Iy (phase qx psix N) (phase qy psiy N)
        = exp (I * 2 * Real.pi * (freqY k qx qy * N)) * termY v k Ix Iy psix psiy := by
  unfold freqX freqY
  rw [wrap_fract, wrap_fract]
  refine ⟨⟨Int.fract_nonneg _, Int.fract_lt_one _⟩, ⟨Int.fract_nonneg _, Int.fract_lt_one _⟩, ?_⟩
  intro v Ix Iy psix psiy N
  have key : ∀ x : ℝ, exp (I * 2 * Real.pi * ((Int.fract x : ℝ) * N)) = exp (I * 2 * Real.pi * (x * N)) := by
    intro x
    have e : I * 2 * Real.pi * ((x : ℂ) * N)
        = I * 2 * Real.pi * (((Int.fract x : ℝ) : ℂ) * N) + ((⌊x⌋ * N : ℤ) : ℂ) * (2 * Real.pi * I) := by
      have : (x : ℂ) = ((⌊x⌋ : ℝ) : ℂ) + ((Int.fract x : ℝ) : ℂ) := by
        rw [← Complex.ofReal_add, Int.floor_add_fract]
      rw [this]; push_cast; ring
    rw [e, Complex.exp_periodic.int_mul]
  rw [key, key]
  constructor
  · unfold termX phase
    split_ifs
    · rw [mul_left_comm, ← Complex.exp_add]
      congr 2; push_cast; ring
    · simp
  · unfold termY phase
    split_ifs
    · rw [mul_left_comm, ← Complex.exp_add]
      congr 2; push_cast; ring
    · simp

/-! ## The hypotheses can be met -/

/-- Tunes away from the resonances up to the third order. -/
example : ∀ k ∈ keysUpTo 2, ¬ k.Diag → denominator (1 / 11) (3 / 11) k ≠ 0 := by
  rintro ⟨p, q, r, t⟩ hk hd h0
  have hk' : p + q + r + t ≤ 3 := by
    simp only [keysUpTo, Finset.mem_biUnion, Finset.mem_range, mem_keysOf, Key.n] at hk
    obtain ⟨m, hm, hk⟩ := hk
    omega
  have hd' : ¬ (p = q ∧ r = t) := hd
  rw [denominator_eq, sub_eq_zero, eq_comm] at h0
  unfold adv at h0
  rw [Complex.exp_eq_one_iff] at h0
  obtain ⟨n, hn⟩ := h0
  have h3 : (I * 2 * Real.pi) * (((p : ℂ) - q) / 11 + ((r : ℂ) - t) * (3 / 11) - n) = 0 := by
    push_cast at hn; linear_combination hn
  have h4 : (I * 2 * (Real.pi : ℂ)) ≠ 0 := by
    simp [Real.pi_ne_zero]
  have h5 := (mul_eq_zero.mp h3).resolve_left h4
  have h6 : ((p : ℤ) - q + 3 * ((r : ℤ) - t) : ℂ) = ((11 * n : ℤ) : ℂ) := by push_cast; linear_combination 11 * h5
  have h7 : (p : ℤ) - q + 3 * (r - t) = 11 * n := by exact_mod_cast h6
  have hn0 : n = 0 := by omega
  have hr : r ≤ 3 := by omega
  have ht : t ≤ 3 := by omega
  interval_cases r <;> interval_cases t <;> omega

end

end Verif.Rdt
