import Verif.ClosedOrbit.Model
import Mathlib.Tactic.FinCases
import Mathlib.Tactic.Linarith
import Mathlib.Tactic.NormNum
import Mathlib.Tactic.Ring

/-!
# C180, C181: the closed orbit which is found is closed
-/

namespace Verif.ClosedOrbit

/-! ## Specification -/

/-- What is assumed of the optimizer: when it reports success, all errors at its last point are
within the tolerances it was given. -/
def Honest (solve : Solver) : Prop :=
  ∀ f x, (solve f x).2 = true → ∃ e, f (solve f x).1 = some e ∧ ∀ i, |e i| ≤ solveTol i

theorem tol_le (i : Fin 6) : solveTol i ≤ guessTol i := by
  fin_cases i <;> norm_num [solveTol, guessTol]

theorem withZeta_at (p : V) (z : ℝ) (i : Fin 6) : withZeta p z i = if i = 4 then z else p i := by
  fin_cases i <;> rfl

/-- Whatever is found, unless failures are accepted, comes from a point with small errors. -/
theorem find_spec (F : V → Option V) (solve : Solver) (hs : Honest solve) (a : Ask)
    (hk : a.keepGoing = false) (g p : V) (h : find F solve a g = some p) :
    ∃ x e, p = withZeta x (x 4 - a.shift) ∧ err F a x = some e ∧ ∀ i, |e i| ≤ guessTol i := by
  have key : ∀ k x, attempt F solve a g k = .found x →
      ∃ e, err F a x = some e ∧ ∀ i, |e i| ≤ guessTol i := by
    intro k x hx
    unfold attempt at hx
    dsimp only at hx
    rcases he : err F a (begin_ a g k) with _ | e
    · rw [he] at hx; simp at hx
    · rw [he] at hx
      dsimp only at hx
      by_cases hc : ∀ i, |e i| < guessTol i
      · rw [if_pos hc] at hx
        obtain rfl := Try.found.inj hx
        exact ⟨e, he, fun i => (hc i).le⟩
      · rw [if_neg hc] at hx
        by_cases hr : (solve (err F a) (begin_ a g k)).2 = true
        · rw [if_pos hr] at hx
          obtain rfl := Try.found.inj hx
          obtain ⟨e', h1, h2⟩ := hs _ _ hr
          exact ⟨e', h1, fun i => (h2 i).trans (tol_le i)⟩
        · rw [if_neg hr] at hx
          simp at hx
  unfold find at h
  dsimp only at h
  rcases h0 : attempt F solve a g 0 with _ | x | x
  · rw [h0] at h; simp at h
  · rw [h0] at h
    obtain ⟨e, h1, h2⟩ := key 0 x h0
    exact ⟨x, e, (Option.some.inj h).symm, h1, h2⟩
  · rw [h0] at h
    dsimp only at h
    rcases h1 : attempt F solve a g 1 with _ | y | y
    · rw [h1] at h; simp at h
    · rw [h1] at h
      obtain ⟨e, h1, h2⟩ := key 1 y h1
      exact ⟨y, e, (Option.some.inj h).symm, h1, h2⟩
    · rw [h1, hk] at h
      simp at h

/-- The first four numbers are always the differences after a turn. -/
theorem err_transverse (F : V → Option V) (a : Ask) (x e : V) (h : err F a x = some e) :
    ∃ q, F (withZeta x (x 4 - a.shift)) = some q ∧ (∀ i : Fin 6, i < 4 → e i = x i - q i) ∧
      (∀ d, a.delta0 = some d → e 5 = x 5 - d) ∧ (∀ z, a.zeta0 = some z → e 4 = x 4 - z) ∧
      (a.delta0 = none → a.zeta0 = none → ∀ i, e i = x i - q i) := by
  unfold err oneTurn at h
  rcases hq : F (withZeta x (x 4 - a.shift)) with _ | q
  · rw [hq] at h; simp at h
  · rw [hq] at h
    dsimp only at h
    refine ⟨q, rfl, ?_⟩
    rcases hd : a.delta0 with _ | d <;> rcases hz : a.zeta0 with _ | z <;> rw [hd, hz] at h <;>
      dsimp only at h <;> obtain rfl := Option.some.inj h
    · refine ⟨fun i _ => rfl, ?_, ?_, fun _ _ i => rfl⟩ <;> simp
    · refine ⟨?_, ?_, ?_, ?_⟩
      · intro i hi; fin_cases i <;> first | rfl | (exfalso; revert hi; decide)
      · simp
      · intro z' e; obtain rfl := Option.some.inj e; rfl
      · simp
    · refine ⟨?_, ?_, ?_, ?_⟩
      · intro i hi; fin_cases i <;> first | rfl | (exfalso; revert hi; decide)
      · intro z' e; obtain rfl := Option.some.inj e; rfl
      · simp
      · simp
    · refine ⟨?_, ?_, ?_, ?_⟩
      · intro i hi; fin_cases i <;> first | rfl | (exfalso; revert hi; decide)
      · intro z' e; obtain rfl := Option.some.inj e; rfl
      · intro z' e; obtain rfl := Option.some.inj e; rfl
      · simp

/-! ## C180 -/

/-- C180 (6d): the particle which is found comes back to all its coordinates after the turn, but
for the shift of zeta which was asked for, up to the tolerances. -/
theorem C180_closed_6d (F : V → Option V) (solve : Solver) (hs : Honest solve) (a : Ask)
    (hk : a.keepGoing = false) (hd : a.delta0 = none) (hz : a.zeta0 = none) (g p : V)
    (h : find F solve a g = some p) :
    ∃ q, F p = some q ∧ |q 0 - p 0| ≤ 1/10^11 ∧ |q 1 - p 1| ≤ 1/10^11 ∧ |q 2 - p 2| ≤ 1/10^11 ∧
      |q 3 - p 3| ≤ 1/10^11 ∧ |q 4 - (p 4 + a.shift)| ≤ 1/10^5 ∧ |q 5 - p 5| ≤ 1/10^9 := by
  obtain ⟨x, e, rfl, he, hi⟩ := find_spec F solve hs a hk g p h
  obtain ⟨q, hq, -, -, -, h4⟩ := err_transverse F a x e he
  have h4 := h4 hd hz
  refine ⟨q, hq, ?_⟩
  have t : ∀ i, |q i - x i| ≤ guessTol i := by
    intro i
    have := hi i
    rw [h4 i, abs_sub_comm] at this
    exact this
  simp only [withZeta_at]
  refine ⟨t 0, t 1, t 2, t 3, ?_, t 5⟩
  rw [if_pos trivial, sub_add_cancel]
  exact t 4

/-- C180 (4d): with a given delta or zeta the transverse coordinates come back, and the given delta
is the one of the particle.  The given zeta is the one of the particle at the end of the turn of a
beam with the frequency shift: that of the particle less the shift. -/
theorem C180_closed_4d (F : V → Option V) (solve : Solver) (hs : Honest solve) (a : Ask)
    (hk : a.keepGoing = false) (g p : V) (h : find F solve a g = some p) :
    (∃ q, F p = some q ∧ |q 0 - p 0| ≤ 1/10^11 ∧ |q 1 - p 1| ≤ 1/10^11 ∧ |q 2 - p 2| ≤ 1/10^11 ∧
      |q 3 - p 3| ≤ 1/10^11) ∧
    (∀ d, a.delta0 = some d → |p 5 - d| ≤ 1/10^9) ∧
    (∀ z, a.zeta0 = some z → |p 4 + a.shift - z| ≤ 1/10^5) := by
  obtain ⟨x, e, rfl, he, hi⟩ := find_spec F solve hs a hk g p h
  obtain ⟨q, hq, h1, h2, h3, -⟩ := err_transverse F a x e he
  have t : ∀ i : Fin 6, i < 4 → |q i - x i| ≤ guessTol i := by
    intro i hlt
    have := hi i
    rw [h1 i hlt, abs_sub_comm] at this
    exact this
  simp only [withZeta_at]
  refine ⟨⟨q, hq, t 0 (by decide), t 1 (by decide), t 2 (by decide), t 3 (by decide)⟩, ?_, ?_⟩
  · intro d hd
    have := hi 5
    rw [h2 d hd] at this
    exact this
  · intro z hz
    have := hi 4
    rw [h3 z hz] at this
    rw [if_pos trivial, sub_add_cancel]
    exact this

/-- C180 (given zeta): without a shift the particle has the zeta which was asked for. -/
theorem C180_zeta0_partial (F : V → Option V) (solve : Solver) (hs : Honest solve) (a : Ask)
    (hk : a.keepGoing = false) (hsh : a.shift = 0) (g p : V) (h : find F solve a g = some p) (z : ℝ)
    (hz : a.zeta0 = some z) : |p 4 - z| ≤ 1/10^5 := by
  have := (C180_closed_4d F solve hs a hk g p h).2.2 z hz
  rwa [hsh, add_zero] at this

/-- C180 fails (given zeta): with a shift the particle does not have the zeta which was asked for:
it is off by the shift, here one metre. -/
theorem C180_zeta0_violated : ∃ (F : V → Option V) (solve : Solver) (a : Ask) (g p : V) (z : ℝ),
    Honest solve ∧ a.zeta0 = some z ∧ find F solve a g = some p ∧ p 4 = z - 1 := by
  refine ⟨some, fun _ x => (x, false), { shift := 1, zeta0 := some 0, delta0 := some 0 },
    0, ![0, 0, 0, 0, -1, 0], 0, ?_, rfl, ?_, by
    show (-1 : ℝ) = 0 - 1; norm_num⟩
  · intro f x h; simp at h
  · have hb : begin_ { shift := 1, zeta0 := some 0, delta0 := some 0 } 0 0 = 0 := by
      funext i; fin_cases i <;> simp [begin_]
    have he : err some { shift := 1, zeta0 := some 0, delta0 := some 0 } 0 = some 0 := by
      unfold err oneTurn
      simp only [Option.some.injEq]
      funext i; fin_cases i <;> simp [withZeta]
    have ha : attempt some (fun _ x => (x, false)) { shift := 1, zeta0 := some 0, delta0 := some 0 } 0 0
        = .found 0 := by
      unfold attempt
      rw [hb]
      dsimp only
      rw [he]
      dsimp only
      rw [if_pos]
      intro i
      fin_cases i <;> norm_num [guessTol]
    unfold find
    rw [ha]
    simp only [Option.map_some, Option.some.injEq]
    funext i; fin_cases i <;> simp [withZeta]

/-- C180 (guess): a guess on the closed orbit is taken as it is, whatever the optimizer would
do. -/
theorem C180_guess (F : V → Option V) (solve : Solver) (g : V) (hF : F g = some g) :
    find F solve {} g = some g := by
  have hb : begin_ {} g 0 = g := by
    funext i; fin_cases i <;> simp [begin_]
  have hw : withZeta g (g 4 - 0) = g := by
    funext i; rw [withZeta_at]; split
    · next h => rw [h, sub_zero]
    · rfl
  have he : err F {} g = some 0 := by
    unfold err oneTurn
    dsimp only
    rw [hw, hF]
    simp only [Option.some.injEq]
    funext i; simp
  have ha : attempt F solve {} g 0 = .found g := by
    unfold attempt
    rw [hb]
    dsimp only
    rw [he]
    dsimp only
    rw [if_pos]
    intro i
    fin_cases i <;> norm_num [guessTol]
  unfold find
  rw [ha]
  simp only [Option.map_some, Option.some.injEq]
  exact hw

/-- C180 (no orbit): if the optimizer fails from both starting points an exception is raised,
unless the caller wants to go on. -/
theorem C180_error (F : V → Option V) (solve : Solver) (a : Ask) (hk : a.keepGoing = false) (g : V)
    (hf : ∀ f x, (solve f x).2 = false)
    (hx : ∀ k : ℝ, k = 0 ∨ k = 1 → ∀ e, err F a (begin_ a g k) = some e → ∃ i, guessTol i ≤ |e i|) :
    find F solve a g = none := by
  have key : ∀ k : ℝ, k = 0 ∨ k = 1 → ∀ p, attempt F solve a g k ≠ .found p := by
    intro k hk' p
    unfold attempt
    dsimp only
    rcases he : err F a (begin_ a g k) with _ | e
    · simp
    · dsimp only
      obtain ⟨i, hi⟩ := hx k hk' e he
      rw [if_neg (fun hc => absurd (hc i) (not_lt.mpr hi)), hf]
      simp
  unfold find
  dsimp only
  rcases h0 : attempt F solve a g 0 with _ | x | x
  · rfl
  · exact absurd h0 (key 0 (Or.inl rfl) x)
  · dsimp only
    rcases h1 : attempt F solve a g 1 with _ | y | y
    · rfl
    · exact absurd h1 (key 1 (Or.inr rfl) y)
    · dsimp only
      rw [hk]
      rfl

/-- C180 (revolution time): if the numbers which are brought to zero are within their tolerances
for `n` turns, all coordinates but zeta come back after each of the first `n - 1` turns. -/
theorem C180_t_rev (F : V → V) (n : ℕ) (p : V)
    (h : ∀ row ∈ merit F n p, ∀ d ∈ row, |d| ≤ 1/10^10) (t : ℕ) (ht : t < n) (i : Fin 6) (hi : i ≠ 4) :
    |turns F t p i - p i| ≤ 1/10^10 := by
  refine h _ (List.mem_map.2 ⟨t, List.mem_range.2 ht, rfl⟩) _ ?_
  fin_cases i
  · simp
  · simp
  · simp
  · simp
  · exact absurd rfl hi
  · simp

/-- C180 fails (revolution time): with one turn the record has only the start of the turn, and
every particle passes, here one which goes a metre to the side. -/
theorem C180_t_rev_violated : ∃ (F : V → V) (p : V), (∀ row ∈ merit F 1 p, ∀ d ∈ row, d = 0) ∧
    F p 0 = p 0 + 1 := by
  refine ⟨fun p => ![p 0 + 1, p 1, p 2, p 3, p 4, p 5], 0, ?_, rfl⟩
  simp [merit, turns]

/-! ## C181 -/

theorem orbit_append (a b : List Elem) (p : V) : orbit (a ++ b) p = (orbit a p).bind (orbit b) := by
  induction a generalizing p with
  | nil => rfl
  | cons e a ih =>
    rw [List.cons_append, orbit, orbit]
    cases e.move p with
    | none => rfl
    | some q => exact ih q

/-- C181 (search elsewhere): the particle which is returned is, at the start of the line, on the
orbit which was found elsewhere: after a turn from the start it is where a particle goes which came
back to the place of the search up to the tolerances. -/
theorem C181_elsewhere (line : List Elem) (solve : Solver) (hs : Honest solve)
    (spinSolve : (Spin → Spin) → Spin) (a : Ask) (hk : a.keepGoing = false) (g : V) (k : ℕ) (hk0 : k ≠ 0)
    (p : V) (s : Spin) (h : findAt line solve spinSolve a g k = some (p, s)) :
    ∃ x y, orbit (line.drop k) x = some p ∧ orbit line p = orbit (line.drop k) y ∧
      |y 0 - x 0| ≤ 1/10^11 ∧ |y 1 - x 1| ≤ 1/10^11 ∧ |y 2 - x 2| ≤ 1/10^11 ∧ |y 3 - x 3| ≤ 1/10^11 := by
  unfold findAt at h
  rcases hf : find (orbit (turnFrom line k)) solve a g with _ | x
  · rw [hf] at h; simp at h
  · rw [hf] at h
    dsimp only at h
    rw [if_neg hk0] at h
    rcases ho : orbit (line.drop k) x with _ | q
    · rw [ho] at h; simp at h
    · rw [ho] at h
      simp only [Option.some.injEq, Prod.mk.injEq] at h
      obtain ⟨rfl, -⟩ := h
      obtain ⟨⟨y, hy, t⟩, -, -⟩ := C180_closed_4d _ solve hs a hk g x hf
      refine ⟨x, y, ho, ?_, t⟩
      unfold turnFrom at hy
      rw [orbit_append, ho] at hy
      have e : line = line.take k ++ line.drop k := (List.take_append_drop k line).symm
      conv_lhs => rw [e]
      rw [orbit_append, show orbit (line.take k) q = some y from hy]
      rfl

/-- C181 (search elsewhere, exactly closed): if the orbit at the place of the search is exactly
closed, so is the one at the start. -/
theorem C181_exact (line : List Elem) (k : ℕ) (x p : V) (hx : orbit (turnFrom line k) x = some x)
    (hp : orbit (line.drop k) x = some p) : orbit line p = some p := by
  unfold turnFrom at hx
  rw [orbit_append, hp] at hx
  have e : line = line.take k ++ line.drop k := (List.take_append_drop k line).symm
  conv_lhs => rw [e]
  rw [orbit_append, show orbit (line.take k) p = some x from hx]
  exact hp

/-- What is assumed of the search for the spin: if there is a spin of length one which points up
and comes back, one is found. -/
def FindsSpin (spinSolve : (Spin → Spin) → Spin) : Prop :=
  ∀ f, (∃ s, f s = s ∧ 0 < s 1 ∧ s 0 ^ 2 + s 1 ^ 2 + s 2 ^ 2 = 1) →
    f (spinSolve f) = spinSolve f ∧ 0 ≤ spinSolve f 1 ∧
      spinSolve f 0 ^ 2 + spinSolve f 1 ^ 2 + spinSolve f 2 ^ 2 = 1

/-- C181 (spin): when the search is done at the start of the line the spin comes back after a
turn. -/
theorem C181_spin_partial (line : List Elem) (solve : Solver) (spinSolve : (Spin → Spin) → Spin)
    (hsp : FindsSpin spinSolve) (a : Ask) (g p : V) (s : Spin)
    (h : findAt line solve spinSolve a g 0 = some (p, s))
    (hex : ∃ s, spins line p s = s ∧ 0 < s 1 ∧ s 0 ^ 2 + s 1 ^ 2 + s 2 ^ 2 = 1) :
    spins line p s = s := by
  unfold findAt at h
  rcases hf : find (orbit (turnFrom line 0)) solve a g with _ | x
  · rw [hf] at h; simp at h
  · rw [hf] at h
    dsimp only at h
    rw [if_pos rfl] at h
    simp only [Option.some.injEq, Prod.mk.injEq] at h
    obtain ⟨rfl, rfl⟩ := h
    exact (hsp _ hex).1

/-- A quarter of a turn of the spin around x, and around z; the coordinates stay as they are. -/
def quarterX : Elem := ⟨some, fun _ s => ![s 0, -s 2, s 1]⟩
def quarterZ : Elem := ⟨some, fun _ s => ![-s 1, s 0, s 2]⟩

/-- C181 fails (spin): with a search elsewhere the spin which is returned does not come back, as it
is looked for with a turn which begins at the start of the line. -/
theorem C181_spin_violated (solve : Solver) (spinSolve : (Spin → Spin) → Spin) (hsp : FindsSpin spinSolve) :
    ∃ p s, findAt [quarterX, quarterZ] solve spinSolve {} 0 1 = some (p, s) ∧
      orbit [quarterX, quarterZ] p = some p ∧ spins [quarterX, quarterZ] p s ≠ s := by
  have hf : find (orbit (turnFrom [quarterX, quarterZ] 1)) solve {} 0 = some 0 := C180_guess _ _ _ rfl
  have hmap : ∀ s : Spin, spins [quarterX, quarterZ] 0 s = ![s 2, s 0, s 1] := by
    intro s
    funext i
    fin_cases i <;> simp [spins, quarterX, quarterZ]
  obtain ⟨c, hc0, hc⟩ : ∃ c : ℝ, 0 < c ∧ 3 * c ^ 2 = 1 := by
    refine ⟨Real.sqrt (1 / 3), Real.sqrt_pos.2 (by norm_num), ?_⟩
    rw [Real.sq_sqrt (by norm_num)]
    norm_num
  have hs := hsp (spins [quarterX, quarterZ] 0) ⟨![c, c, c], by
    rw [hmap]; funext i; fin_cases i <;> rfl, hc0, by
    show c ^ 2 + c ^ 2 + c ^ 2 = 1
    linarith⟩
  set s := spinSolve (spins [quarterX, quarterZ] 0) with hsd
  obtain ⟨h1, h2, h3⟩ := hs
  rw [hmap] at h1
  have e0 : s 2 = s 0 := congrFun h1 0
  have e1 : s 0 = s 1 := congrFun h1 1
  refine ⟨0, ![-s 1, s 0, s 2], ?_, rfl, ?_⟩
  · unfold findAt
    rw [hf]
    dsimp only
    rw [if_neg (by decide), ← hsd]
    rfl
  · rw [hmap]
    intro hcon
    have c0 : s 2 = -s 1 := congrFun hcon 0
    have : s 1 = 0 := by linarith
    rw [e0, e1, this] at h3
    norm_num at h3

/-- The hypothesis about the search for the spin can be met. -/
example : ∃ spinSolve, FindsSpin spinSolve := by
  classical
  refine ⟨fun f => if h : ∃ s, f s = s ∧ 0 < s 1 ∧ s 0 ^ 2 + s 1 ^ 2 + s 2 ^ 2 = 1 then h.choose else 0, ?_⟩
  intro f h
  have := h.choose_spec
  simp only [dif_pos h]
  exact ⟨this.1, this.2.1.le, this.2.2⟩

/-- The hypotheses about the optimizer are met by one which never succeeds, and a drift without
length has its closed orbit found. -/
example : Honest (fun _ x => (x, false)) ∧
    find some (fun _ x => (x, false)) {} ![1, 0, 2, 0, 3, 0] = some ![1, 0, 2, 0, 3, 0] :=
  ⟨by intro f x h; simp at h, C180_guess _ _ _ rfl⟩

end Verif.ClosedOrbit
