import Verif.Mad.Elements
import Mathlib.Data.List.Induction

/-!
# C145: elements loaded from MAD-X
-/

namespace Verif.Mad

theorem last_append (a : List Given) (p : Given) (k : Key) : last (a ++ [p]) k = (p k).or (last a k) := by
  simp [last, List.foldl_append]

theorem element_append (pi : ℚ) (b : Base) (a : List Given) (p : Given) :
    element pi b (a ++ [p]) = link pi b (element pi b a) p := by simp [element, List.foldl_append]

theorem element_cache (pi : ℚ) (b : Base) (chain : List Given) : (element pi b chain).1 = last chain := by
  induction chain using List.reverseRecOn with
  | nil => rfl
  | append_singleton a p ih =>
    rw [element_append]
    funext k
    rw [last_append]
    simp only [link, merge, ih]
    cases p k <;> simp

theorem NoReset.front {a : List Given} {p : Given} {k : Key} (h : NoReset (a ++ [p]) k) : NoReset a k := by
  intro x q y hxy hq
  exact h x q (y ++ [p]) (by rw [hxy]; simp) hq

/-- An attribute which a statement sets to a multiple of a key unless the key is a literal zero. -/
theorem chain_ifTrue (pi : ℚ) (b : Base) (at' : Attr) (k : Key) (c : ℚ)
    (hc : ∀ cache p, convert pi b cache p at' = ifTrue (p k) (fun x => x * c)) :
    ∀ chain : List Given, NoReset chain k → (element pi b chain).2 at' = lastVal chain k * c := by
  intro chain
  induction chain using List.reverseRecOn with
  | nil => intro _; simp [element, lastVal, last]
  | append_singleton a p ih =>
    intro h
    have hr := ih h.front
    rw [element_append]
    simp only [link, hc]
    rw [lastVal, last_append]
    cases hp : p k with
    | none => simp only [ifTrue, Option.getD_none, Option.none_or, hr, lastVal]
    | some v =>
      simp only [ifTrue, Option.some_or, Option.map_some, Option.getD_some]
      cases v with
      | expr x => simp [Val.truthy]
      | num x =>
        by_cases hx : x = 0
        · subst hx
          have h0 := h a p [] (by simp) hp
          simp [Val.truthy, hr, h0, Val.val]
        · simp [Val.truthy, hx]

/-- **C145.** Every attribute of an element loaded from MAD-X is what its keys mean at the end of the chain of its classes, its own
definition and the assignments to it: the value given last, in the units and with the sign of xtrack. *Missing*: a literal zero given
after another value; it fails, see below. -/
theorem C145_partial (pi : ℚ) (b : Base) (a : Attr) (k : Key) (c : ℚ) (hm : meaning pi b a = some (k, c)) (chain : List Given)
    (h : NoReset chain k) : (element pi b chain).2 a = lastVal chain k * c := by
  refine chain_ifTrue pi b a k c ?_ chain h
  intro cache p
  cases b <;> cases a <;> simp only [meaning, Option.some.injEq, Prod.mk.injEq, reduceCtorEq] at hm <;> obtain ⟨rfl, rfl⟩ := hm <;>
    simp only [convert, if_true, reduceCtorEq, if_false, or_true, true_or, ifTrue] <;>
    (cases p _ <;> simp only [id, mul_one, mul_neg, mul_assoc, mul_comm pi 2])

/-- A cavity class with a voltage of 3 MV, a cavity made from it with a frequency, then an assignment by an expression. -/
example : meaning 3 .rfcavity .voltage = some (.volt, 1000000) ∧
    NoReset [fun k => if k = .volt then some (.num 3) else none, fun k => if k = .freq then some (.num 400) else none,
      fun k => if k = .volt then some (.expr 0) else none] .volt := by
  refine ⟨rfl, ?_⟩
  intro a p b h hp
  rcases a with _ | ⟨x, _ | ⟨y, _ | ⟨z, a⟩⟩⟩
  · simp [lastVal, last]
  · simp only [List.cons_append, List.nil_append, List.cons.injEq] at h
    rw [← h.2.1] at hp; simp at hp
  · simp only [List.cons_append, List.nil_append, List.cons.injEq] at h
    rw [← h.2.2.1] at hp; simp at hp
  · simp at h

/-- The attributes which are only renamed are the values given last, zeros included. -/
theorem C145_renamed (pi : ℚ) (b : Base) (chain : List Given) :
    (element pi b chain).2 .length = lastVal chain .l ∧ (element pi b chain).2 .k0 = lastVal chain .k0 ∧
    (element pi b chain).2 .k1 = lastVal chain .k1 ∧ (element pi b chain).2 .edgeExitAngle = lastVal chain .e2 ∧
    (element pi b chain).2 .edgeEntryFint = lastVal chain .fint ∧
    (b ≠ .dipedge → (element pi b chain).2 .edgeEntryAngle = lastVal chain .e1) := by
  have key : ∀ (a : Attr) (k : Key), (∀ cache p, convert pi b cache p a = renamed (p k)) →
      (element pi b chain).2 a = lastVal chain k := by
    intro a k hc
    induction chain using List.reverseRecOn with
    | nil => simp [element, lastVal, last]
    | append_singleton x p ih =>
      rw [element_append, lastVal, last_append]
      simp only [link, hc, renamed]
      cases hp : p k with
      | none => simpa [lastVal] using ih
      | some v => simp
  refine ⟨key _ _ fun _ _ => rfl, key _ _ fun _ _ => rfl, key _ _ fun _ _ => rfl, key _ _ fun _ _ => rfl, key _ _ fun _ _ => rfl,
    fun hb => key _ _ fun _ _ => by simp [convert, hb]⟩

/-- A bend takes its field from its angle exactly when no `k0`, or a literal zero, was given last in the chain. -/
theorem C145_k0 (pi : ℚ) (chain : List Given) (h : chain ≠ []) :
    (element pi .sbend chain).2 .k0FromH = 1 ∧ (last chain .k0 = none ∨ last chain .k0 = some (.num 0)) ∨
    (element pi .sbend chain).2 .k0FromH = 0 ∧ last chain .k0 ≠ none ∧ last chain .k0 ≠ some (.num 0) := by
  obtain ⟨a, p, rfl⟩ : ∃ a p, chain = a ++ [p] := ⟨chain.dropLast, chain.getLast h, (List.dropLast_append_getLast h).symm⟩
  have hc : merge (element pi .sbend a).1 p = last (a ++ [p]) := by
    rw [← element_cache pi .sbend (a ++ [p]), element_append]; rfl
  rw [element_append]
  simp only [link, hc, convert, if_true]
  rcases hl : last (a ++ [p]) .k0 with _ | (x | x)
  · simp
  · by_cases hx : x = 0 <;> simp [hx]
  · simp

/-- `fintx`, and `fint` where it was never given. -/
def exitFint (chain : List Given) : ℚ := match last chain .fintx with
  | some v => v.val
  | none => lastVal chain .fint

/-- The exit fringe integral is `fintx`, and `fint` where `fintx` was never given. *Missing*: chains in which `fint` is given without
`fintx` after a statement which gives `fintx`; they fail, see below. -/
theorem C145_fint_partial (pi : ℚ) (b : Base) : ∀ chain : List Given,
    (∀ a p c, chain = a ++ p :: c → p .fint ≠ none → p .fintx = none → last a .fintx = none) →
    (element pi b chain).2 .edgeExitFint = exitFint chain := by
  intro chain
  induction chain using List.reverseRecOn with
  | nil => intro _; simp [element, exitFint, last, lastVal]
  | append_singleton a p ih =>
    intro h
    have hr := ih fun x q y hxy => h x q (y ++ [p]) (by rw [hxy]; simp)
    have hp := h a p [] (by simp)
    rw [element_append]
    simp only [link, convert, exitFint, lastVal, last_append]
    cases hx : p .fintx with
    | some v => simp
    | none =>
      cases hf : p .fint with
      | none =>
        simp only [renamed, Option.map_none, Option.getD_none, Option.none_or, hr, exitFint, lastVal]
      | some v =>
        have := hp (by simp [hf]) hx
        simp [renamed, this]

example : ∀ a p c, [fun k => if k = Key.fint then some (Val.num 3) else none, fun k => if k = .fintx then some (.num 2) else none] =
    a ++ p :: c → p .fint ≠ none → p .fintx = none → last a .fintx = none := by
  intro a p c h hf hx
  rcases a with _ | ⟨x, a⟩
  · rfl
  · exfalso
    rcases a with _ | ⟨y, a⟩
    · simp only [List.cons_append, List.nil_append, List.cons.injEq] at h
      rw [← h.2.1] at hf; simp at hf
    · simp at h

/-- **C145 fails** for a literal zero: `c1: rfcavity, volt = 3; c1, volt = 0;` leaves the cavity at 3 MV, and a corrector made from
one with a kick, `k2: k1, kick = 0;`, keeps that kick. -/
theorem C145_zero_violated :
    let give : Key → ℚ → Given := fun k x j => if j = k then some (.num x) else none
    (element 3 .rfcavity [give .volt 3, give .volt 0]).2 .voltage = 3000000 ∧
    lastVal [give .volt 3, give .volt 0] .volt = 0 ∧
    (element 3 .hkicker [give .kick 1, give .kick 0]).2 .knl0 = -1 := by
  norm_num [element, link, convert, merge, ifTrue, Val.truthy, Val.val, lastVal, last]

/-- **C145 fails** for the exit fringe integral: `b1: sbend, fint = 3, fintx = 2; b2: b1, fint = 4;` gives `b2` an exit integral of 4. -/
theorem C145_fint_violated :
    let c1 : Given := fun k => if k = .fint then some (.num 3) else if k = .fintx then some (.num 2) else none
    let c2 : Given := fun k => if k = .fint then some (.num 4) else none
    (element 3 .sbend [c1, c2]).2 .edgeExitFint = 4 ∧ exitFint [c1, c2] = 2 := by
  have h : Key.fintx ≠ Key.fint := by decide
  norm_num [element, link, convert, merge, exitFint, last, Val.val, renamed, h]

/-! ### Multipoles -/

/-- What is given for a multipole: `knl`, `angle` and keys such as `k1l`, in the order of the file. -/
structure MultipoleGiven where
  knl : Option (List ℚ)
  angle : Option Val
  kl : List (ℕ × ℚ)

/-- The loop over the keys `k0l`, `k1l`, ..., loader.py:522-531. The test `if knl not in params` looks for the value of `knl` among the
names: it is true when there is none (`None`) and an exception when it is a list. -/
def klLoop (knl : Option (List ℚ)) : Option (List ℚ) → List (ℕ × ℚ) → Option (Option (List ℚ))
  | acc, [] => some acc
  | _, (n, x) :: t => match knl with
    | some _ => none
    | none => klLoop knl (some ((List.replicate (n + 1) (0 : ℚ)).set n x)) t

/-- The strengths and the curvature set for a multipole, loader.py:517-535; `none` is an exception. -/
def multipole (g : MultipoleGiven) : Option (Option (List ℚ) × Option ℚ) := match klLoop g.knl g.knl g.kl with
  | none => none
  | some knl => some (knl, match ifTrue g.angle id with
    | some a => some a
    | none => match g.knl with
      | some (x :: _) => some x
      | _ => none)

/-- The strength of order `n` which the statement gives: `knl`, then the keys one after the other. -/
def strength (g : MultipoleGiven) (n : ℕ) : ℚ :=
  g.kl.foldl (fun s kx => if kx.1 = n then kx.2 else s) ((g.knl.getD []).getD n 0)

/-- The strengths set are those given. *Missing*: keys such as `k1l` more than one of them, or together with `knl`; both fail, see
below. -/
theorem C145_multipole_partial (g : MultipoleGiven) (h : g.kl = [] ∨ (g.knl = none ∧ ∃ n x, g.kl = [(n, x)])) :
    ∃ knl, (multipole g).map Prod.fst = some knl ∧ ∀ n, (knl.getD []).getD n 0 = strength g n := by
  rcases h with h | ⟨h1, n, x, h2⟩
  · refine ⟨g.knl, by simp only [multipole, h, klLoop, Option.map_some], fun n => by simp [strength, h]⟩
  · refine ⟨some ((List.replicate (n + 1) (0 : ℚ)).set n x), by simp only [multipole, h1, h2, klLoop, Option.map_some], fun m => ?_⟩
    simp only [strength, h1, h2, Option.getD_some, Option.getD_none, List.foldl_cons, List.foldl_nil]
    by_cases hm : n = m
    · subst hm; simp
    · rw [if_neg hm]
      simp only [List.getD_eq_getElem?_getD, List.getElem?_set, if_neg hm, List.getElem?_replicate]
      by_cases hl : m < n + 1 <;> simp [hl]

example : (⟨none, none, [(2, 5)]⟩ : MultipoleGiven).kl = [] ∨
    ((⟨none, none, [(2, 5)]⟩ : MultipoleGiven).knl = none ∧ ∃ n x, (⟨none, none, [(2, 5)]⟩ : MultipoleGiven).kl = [(n, x)]) :=
  Or.inr ⟨rfl, 2, 5, rfl⟩

/-- **C145 fails** for multipoles: of `k0l = 1, k1l = 2` only the last is kept, and `knl = {1}, k1l = 2` is an exception. -/
theorem C145_multipole_violated :
    multipole ⟨none, none, [(0, 1), (1, 2)]⟩ = some (some [0, 2], none) ∧ strength ⟨none, none, [(0, 1), (1, 2)]⟩ 0 = 1 ∧
    multipole ⟨some [1], none, [(1, 2)]⟩ = none := by
  simp [multipole, klLoop, ifTrue, strength]

end Verif.Mad
