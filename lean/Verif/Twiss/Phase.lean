import Verif.Twiss.Optics
import Mathlib.Tactic.Linarith

/-! # Phase advances: `np.unwrap` -/

namespace Verif.Twiss

theorem unwrapStep_int (p q : ℝ) : ∃ n : ℤ, unwrapStep p q = 2 * Real.pi * n := by
  unfold unwrapStep
  simp only
  split_ifs with h1 h2
  · exact ⟨0, by simp⟩
  · refine ⟨1 - ⌊(q - p + Real.pi) / (2 * Real.pi)⌋, ?_⟩
    have := h2.1
    push_cast
    linarith
  · refine ⟨-⌊(q - p + Real.pi) / (2 * Real.pi)⌋, ?_⟩
    push_cast
    linarith

theorem unwrapStep_bound (p q : ℝ) : |q - p + unwrapStep p q| ≤ Real.pi := by
  have hp := Real.pi_pos
  have f1 := Int.floor_le ((q - p + Real.pi) / (2 * Real.pi))
  have f2 := Int.lt_floor_add_one ((q - p + Real.pi) / (2 * Real.pi))
  rw [le_div_iff₀ (by positivity)] at f1
  rw [div_lt_iff₀ (by positivity)] at f2
  unfold unwrapStep
  simp only
  rw [abs_le]
  split_ifs with h1 h2
  · rw [abs_lt] at h1
    constructor <;> linarith [h1.1, h1.2]
  · constructor <;> linarith
  · constructor <;> linarith

theorem sameAngle_unique {a b : ℝ} (h : SameAngle a b) (lt : |a - b| < 2 * Real.pi) : a = b := by
  obtain ⟨n, hn⟩ := h
  have hp := Real.pi_pos
  have : |(n : ℝ)| < 1 := by
    have e : a - b = 2 * Real.pi * n := by linarith
    rw [e, abs_mul, abs_of_pos (by positivity)] at lt
    by_contra c
    rw [not_lt] at c
    nlinarith
  have h0 : n = 0 := by
    have : |n| < 1 := by exact_mod_cast this
    exact Int.abs_lt_one_iff.mp this
  rw [hn, h0]
  simp

/-- The result of the unwrapping, when `Φ` is a continuous phase. -/
theorem unwrapFrom_eq (K : ℝ) (l L : List ℝ) (h : List.Forall₂ SameAngle l L) :
    ∀ (c p P : ℝ), p + c = P + K → (∃ n : ℤ, c = 2 * Real.pi * n) → (∃ n : ℤ, K = 2 * Real.pi * n) →
      List.IsChain (fun a b => |b - a| < Real.pi) (P :: L) →
      unwrapFrom c p l = L.map fun x => x + K := by
  induction h with
  | nil => intros; rfl
  | cons hq _ ih =>
    rename_i q Q l' L' hrest
    intro c p P hc hcn hK chain
    obtain ⟨n1, e1⟩ := unwrapStep_int p q
    have b1 := unwrapStep_bound p q
    obtain ⟨n2, e2⟩ := hcn
    obtain ⟨n3, e3⟩ := hK
    have b2 : |Q - P| < Real.pi := by
      cases chain with
      | cons_cons a _ => exact a
    have rest : List.IsChain (fun a b => |b - a| < Real.pi) (Q :: L') := by
      cases chain with
      | cons_cons _ b => exact b
    obtain ⟨n4, e4⟩ := hq
    have key : q + (c + unwrapStep p q) = Q + K := by
      apply sameAngle_unique
      · refine ⟨n4 + n2 + n1 - n3, ?_⟩
        push_cast
        rw [e2, e1, e3]
        linarith
      · have : q + (c + unwrapStep p q) - (Q + K) = (q - p + unwrapStep p q) - (Q - P) := by
          linarith
        rw [this]
        calc |(q - p + unwrapStep p q) - (Q - P)|
            ≤ |q - p + unwrapStep p q| + |Q - P| := abs_sub _ _
          _ < 2 * Real.pi := by linarith
    show (q + (c + unwrapStep p q)) :: unwrapFrom _ q l' = (Q + K) :: L'.map _
    rw [key, ih (c + unwrapStep p q) q Q key ⟨n2 + n1, by push_cast; rw [e2, e1]; ring⟩ ⟨n3, e3⟩ rest]

/-- **C93.** The phase advance of a table is the true, continuous one whenever the phase advances by
less than half a turn from each row to the next: if `Φ` is any lift of the phases with such steps,
the column is `(Φ_k - Φ_0) / 2π`. -/
theorem C93_continuous (φ Φ : List ℝ) (h : List.Forall₂ SameAngle φ Φ)
    (chain : List.IsChain (fun a b => |b - a| < Real.pi) Φ) :
    phaseAdvance φ = Φ.map fun P => (P - Φ.headD 0) / (2 * Real.pi) := by
  have hp : Real.pi ≠ 0 := Real.pi_pos.ne'
  cases h with
  | nil => rfl
  | cons h0 hrest =>
    rename_i p P l L
    obtain ⟨n, hn⟩ := h0
    have e : unwrap (p :: l) = (P :: L).map fun x => x + (p - P) := by
      show p :: unwrapFrom 0 p l = _
      rw [unwrapFrom_eq (p - P) l L hrest 0 p P (by ring) ⟨0, by simp⟩ ⟨n, by linarith⟩ chain]
      simp
    unfold phaseAdvance
    rw [e]
    simp only [List.map_map, List.map_cons, List.headD_cons, Function.comp_def]
    congr 1
    · field_simp
      ring
    · apply List.map_congr_left
      intro a _
      field_simp
      ring

/-- A phase which advances by 0.9π per row, as it is found in a table (between -π and π). -/
example : phaseAdvance [0, 9 / 10 * Real.pi, -(1 / 5 * Real.pi)]
    = [0, 9 / 20, 9 / 10] := by
  have hp := Real.pi_pos
  have := C93_continuous [0, 9 / 10 * Real.pi, -(1 / 5 * Real.pi)] [0, 9 / 10 * Real.pi, 9 / 5 * Real.pi]
    (List.Forall₂.cons ⟨0, by simp⟩ (List.Forall₂.cons ⟨0, by simp⟩ (List.Forall₂.cons ⟨-1, by
      push_cast; ring⟩ List.Forall₂.nil)))
    (by
      refine List.IsChain.cons_cons ?_ (List.IsChain.cons_cons ?_ (List.IsChain.singleton _))
      · rw [sub_zero, abs_of_pos (by positivity)]; linarith
      · rw [abs_of_pos (by linarith)]; linarith)
  rw [this]
  simp only [List.map_cons, List.headD_cons, List.map_nil]
  congr 1
  · simp
  · congr 1
    · field_simp; ring
    · congr 1
      field_simp; ring

/-- **C93.** In any case the column starts from zero, and is the phase counted from the first row up to
whole turns. -/
theorem C93_mod (p : ℝ) (l : List ℝ) :
    List.Forall₂ (fun m q => ∃ n : ℤ, m = (q - p) / (2 * Real.pi) + n) (phaseAdvance (p :: l)) (p :: l)
    ∧ (phaseAdvance (p :: l)).headD 1 = 0 := by
  have hp : Real.pi ≠ 0 := Real.pi_pos.ne'
  have aux : ∀ (l : List ℝ) (c x : ℝ), (∃ n : ℤ, c = 2 * Real.pi * n) →
      List.Forall₂ (fun r q => ∃ n : ℤ, r = q + 2 * Real.pi * n) (unwrapFrom c x l) l := by
    intro l
    induction l with
    | nil => intro c x _; exact List.Forall₂.nil
    | cons q l ih =>
      intro c x ⟨n, hc⟩
      obtain ⟨m, hm⟩ := unwrapStep_int x q
      refine List.Forall₂.cons ⟨n + m, ?_⟩ (ih _ _ ⟨n + m, ?_⟩)
      · rw [hc, hm]; push_cast; ring
      · rw [hc, hm]; push_cast; ring
  constructor
  · have e : phaseAdvance (p :: l)
        = (p :: unwrapFrom 0 p l).map fun r => (r - p) / (2 * Real.pi) := by
      unfold phaseAdvance unwrap
      simp only [List.map_map, List.map_cons, List.headD_cons, Function.comp_def]
      congr 1
      · field_simp
      · apply List.map_congr_left
        intro a _
        field_simp
    rw [e, List.forall₂_map_left_iff]
    refine List.Forall₂.cons ⟨0, by simp⟩ ?_
    refine (aux l 0 p ⟨0, by simp⟩).imp ?_
    rintro r q ⟨n, rfl⟩
    refine ⟨n, ?_⟩
    field_simp
    ring
  · simp [phaseAdvance, unwrap]

end Verif.Twiss
