import Verif.Cleanup.AperSpec
import Mathlib.Data.List.Nodup

/-!
# The scan of `remove_redundant_apertures`
-/

namespace Verif.Cleanup

open Frames

variable {A : Type}

/-! ## Lists -/

theorem append_cons_inj {α : Type} {x : α} : ∀ {a a' b b' : List α}, (a ++ x :: b).Nodup → a ++ x :: b = a' ++ x :: b' → a = a' ∧ b = b'
  | [], [], b, b', _, h => ⟨rfl, by simpa using h⟩
  | [], y :: a', b, b', hn, h => by
    simp only [List.nil_append, List.cons_append, List.cons.injEq] at h
    obtain ⟨rfl, h2⟩ := h
    subst h2
    simp at hn
  | y :: a, [], b, b', hn, h => by
    simp only [List.nil_append, List.cons_append, List.cons.injEq] at h
    obtain ⟨rfl, h2⟩ := h
    simp at hn
  | y :: a, z :: a', b, b', hn, h => by
    simp only [List.cons_append, List.cons.injEq] at h
    obtain ⟨rfl, h2⟩ := h
    have hn' : (a ++ x :: b).Nodup := by
      simp only [List.cons_append, List.nodup_cons] at hn
      exact hn.2
    obtain ⟨rfl, rfl⟩ := append_cons_inj hn' h2
    exact ⟨rfl, rfl⟩

/-- The last entry outside `good` is unique. -/
theorem last_bad {α : Type} {good : α → Prop} {x y : α} (hx : ¬ good x) (hy : ¬ good y) :
    ∀ {a a' b b' : List α}, (∀ z ∈ b, good z) → (∀ z ∈ b', good z) → a ++ x :: b = a' ++ y :: b' → a = a' ∧ x = y ∧ b = b'
  | [], [], b, b', _, _, h => by
    simp only [List.nil_append, List.cons.injEq] at h
    exact ⟨rfl, h.1, h.2⟩
  | [], w :: a', b, b', hb, _, h => by
    simp only [List.nil_append, List.cons_append, List.cons.injEq] at h
    exact absurd (hb y (by rw [h.2]; simp)) hy
  | w :: a, [], b, b', _, hb', h => by
    simp only [List.nil_append, List.cons_append, List.cons.injEq] at h
    exact absurd (hb' x (by rw [← h.2]; simp)) hx
  | w :: a, w' :: a', b, b', hb, hb', h => by
    simp only [List.cons_append, List.cons.injEq] at h
    obtain ⟨e, h2⟩ := h
    obtain ⟨h3, h4, h5⟩ := last_bad hx hy hb hb' h2
    exact ⟨by rw [e, h3], h4, h5⟩

/-- Splitting off the last entry. -/
theorem snoc_split {α : Type} {pre a b : List α} {n x : α} (h : pre ++ [n] = a ++ x :: b) :
    (b = [] ∧ pre = a ∧ n = x) ∨ ∃ b', b = b' ++ [n] ∧ pre = a ++ x :: b' := by
  rcases List.eq_nil_or_concat b with rfl | ⟨b', z, rfl⟩
  · left
    have := List.append_inj' h (by simp)
    exact ⟨rfl, this.1, by simpa using this.2⟩
  · right
    have h' : pre ++ [n] = (a ++ x :: b') ++ [z] := by rw [h]; simp
    have := List.append_inj' h' (by simp)
    refine ⟨b', ?_, this.1⟩
    have h2 : n = z := by simpa using this.2
    rw [h2]; simp

theorem foldl_erase_eq_filter {α : Type} [DecidableEq α] : ∀ (rem l : List α), l.Nodup → rem.foldl List.erase l = l.filter (fun x => decide (x ∉ rem))
  | [], l, _ => by simp
  | r :: rem, l, hl => by
    rw [List.foldl_cons, foldl_erase_eq_filter rem (l.erase r) (hl.erase r), hl.erase_eq_filter, List.filter_filter]
    apply List.filter_congr
    intro x _
    by_cases h1 : x = r <;> by_cases h2 : x ∈ rem <;> simp [h1, h2]

/-! ## Kinds of elements -/

/-- Passive, or removed. -/
def Good (d : Dict A) (need rem : List String) (x : String) : Prop := Passive d need x ∨ x ∈ rem

theorem isAper_iff {d : Dict A} {n : String} : isAper (d n) = true ↔ ∃ a, IsAperture d n a := by
  unfold isAper IsAperture
  cases (d n).el <;> simp

theorem not_passive_of_aper {d : Dict A} {need : List String} {n : String} {a : A} (h : IsAperture d n a) : ¬ Passive d need n := by
  rintro ⟨_, ⟨h1, _⟩ | ⟨ex, l, h1⟩⟩ <;> rw [h] at h1 <;> cases h1

theorem passive_iff {d : Dict A} {need : List String} {n : String} (h : isAper (d n) = false) :
    ((!isMarker (d n) && !isDrift (d n)) || decide (n ∈ need)) = false ↔ Passive d need n := by
  unfold isMarker isDrift Passive isAper at *
  cases hh : (d n).el <;> simp_all [and_comm]

theorem apEq_some [DecidableEq A] {d : Dict A} {n m : String} {a b : A} (h : IsAperture d n a) (h' : IsAperture d m b) :
    apEq (d n) (d m) = some (decide (a = b)) := by
  unfold apEq
  rw [show (d n).el = .aper a from h, show (d m).el = .aper b from h']

theorem IsAperture.inj {d : Dict A} {n : String} {a b : A} (h : IsAperture d n a) (h' : IsAperture d n b) : a = b := by
  unfold IsAperture at *
  rw [h] at h'
  cases h'
  rfl

/-! ## The invariant -/

/-- The registers: the last apertures of the prefix, nothing but passive and removed elements after each of them. -/
def Chain (d : Dict A) (need rem : List String) : List String → List String → Prop
  | _, [] => True
  | pre, n :: ms => ∃ a p, pre = a ++ n :: p ∧ (∃ ap, IsAperture d n ap) ∧ n ∉ rem ∧ (∀ x ∈ p, Good d need rem x) ∧ Chain d need rem a ms

/-- No aperture since the last active element. -/
def NoAp (d : Dict A) (need rem : List String) (pre : List String) : Prop :=
  ∀ X b q ap, pre = X ++ b :: q → (∀ x ∈ q, Good d need rem x) → IsAperture d b ap → b ∉ rem → False

/-- Among three consecutive equal apertures the middle one is one to keep. -/
def Tri (d : Dict A) (need keep rem : List String) (pre : List String) : Prop :=
  ∀ l1 a q1 b q2 c l2 ap, pre = l1 ++ a :: (q1 ++ b :: (q2 ++ c :: l2)) → a ∉ rem → b ∉ rem → c ∉ rem →
    (∀ x ∈ q1 ++ q2, Good d need rem x) → IsAperture d a ap → IsAperture d b ap → IsAperture d c ap → b ∈ keep

/-- What is known of a removed name. -/
def Wit (d : Dict A) (need rem : List String) (pre : List String) (r : String) : Prop :=
  ∃ a l1 u q1 q2 v l2, pre = l1 ++ u :: (q1 ++ r :: (q2 ++ v :: l2)) ∧
    IsAperture d r a ∧ IsAperture d u a ∧ IsAperture d v a ∧ u ∉ rem ∧ v ∉ rem ∧ ∀ x ∈ q1 ++ q2, Good d need rem x

/-- The names in the registers. -/
def Regs.names (r : Regs) : List String := r.m0.toList ++ r.m1.toList ++ r.m2.toList

structure Inv (d : Dict A) (keep need : List String) (pre : List String) (r : Regs) : Prop where
  order : (r.m0 = none → r.m1 = none) ∧ (r.m1 = none → r.m2 = none)
  chain : Chain d need r.rem pre r.names
  sub : ∀ x ∈ r.rem, x ∈ pre ∧ x ∉ keep
  wit : ∀ x ∈ r.rem, Wit d need r.rem pre x
  no0 : r.m0 = none → NoAp d need r.rem pre
  no1 : ∀ n, r.m0 = some n → r.m1 = none → ∀ a p, pre = a ++ n :: p → (∀ x ∈ p, Good d need r.rem x) → NoAp d need r.rem a
  tri : Tri d need keep r.rem pre

theorem Wit.snoc {d : Dict A} {need rem pre : List String} {r : String} (n : String) (h : Wit d need rem pre r) :
    Wit d need rem (pre ++ [n]) r := by
  obtain ⟨a, l1, u, q1, q2, v, l2, rfl, h⟩ := h
  exact ⟨a, l1, u, q1, q2, v, l2 ++ [n], by simp, h⟩

theorem Chain.snoc_good {d : Dict A} {need rem pre : List String} {n : String} (hg : Good d need rem n) :
    ∀ {ms : List String}, Chain d need rem pre ms → Chain d need rem (pre ++ [n]) ms
  | [], _ => trivial
  | m :: ms, h => by
    obtain ⟨a, p, rfl, h1, h2, h3, h4⟩ := h
    refine ⟨a, p ++ [n], by simp, h1, h2, ?_, h4⟩
    intro x hx
    rcases List.mem_append.1 hx with hx | hx
    · exact h3 x hx
    · rw [List.mem_singleton.1 hx]; exact hg

theorem Chain.take {d : Dict A} {need rem : List String} : ∀ {pre ms ms' : List String}, Chain d need rem pre (ms ++ ms') → Chain d need rem pre ms
  | _, [], _, _ => trivial
  | _, _ :: _, _, ⟨a, p, h0, h1, h2, h3, h4⟩ => ⟨a, p, h0, h1, h2, h3, Chain.take h4⟩

theorem NoAp.snoc_not {d : Dict A} {need rem pre : List String} {n : String} (hn : isAper (d n) = false) (h : NoAp d need rem pre) :
    NoAp d need rem (pre ++ [n]) := by
  intro X b q ap e hq hb hr
  rcases snoc_split e with ⟨rfl, rfl, rfl⟩ | ⟨q', rfl, rfl⟩
  · have := isAper_iff.2 ⟨ap, hb⟩
    rw [hn] at this
    cases this
  · exact h X b q' ap rfl (fun x hx => hq x (by simp [hx])) hb hr

theorem Tri.snoc_not {d : Dict A} {need keep rem pre : List String} {n : String} (hn : isAper (d n) = false) (h : Tri d need keep rem pre) :
    Tri d need keep rem (pre ++ [n]) := by
  intro l1 a q1 b q2 c l2 ap e ha hb hc hq iha ihb ihc
  have e' : pre ++ [n] = (l1 ++ a :: (q1 ++ b :: q2)) ++ c :: l2 := by rw [e]; simp
  rcases snoc_split e' with ⟨rfl, _, rfl⟩ | ⟨l2', rfl, e2⟩
  · have := isAper_iff.2 ⟨ap, ihc⟩
    rw [hn] at this
    cases this
  · exact h l1 a q1 b q2 c l2' ap (by rw [e2]; simp) ha hb hc hq iha ihb ihc

/-- The registers after an element, before the check. -/
theorem inv_shift_passive {d : Dict A} {keep need pre : List String} {r : Regs} {n : String} (h : Inv d keep need pre r)
    (hn : isAper (d n) = false) (hp : Passive d need n) : Inv d keep need (pre ++ [n]) r where
  order := h.order
  chain := h.chain.snoc_good (Or.inl hp)
  sub x hx := ⟨by simp [(h.sub x hx).1], (h.sub x hx).2⟩
  wit x hx := (h.wit x hx).snoc n
  no0 e := (h.no0 e).snoc_not hn
  no1 m e1 e2 a p e hq := by
    rcases snoc_split e with ⟨rfl, rfl, rfl⟩ | ⟨p', rfl, rfl⟩
    · have h1 := h.chain
      unfold Regs.names at h1
      rw [e1] at h1
      obtain ⟨_, _, _, h2, _⟩ := h1
      have := isAper_iff.2 h2
      rw [hn] at this
      cases this
    · exact h.no1 m e1 e2 a p' rfl (fun x hx => hq x (by simp [hx]))
  tri := h.tri.snoc_not hn

theorem inv_shift_active {d : Dict A} {keep need pre : List String} {r : Regs} {n : String} (h : Inv d keep need pre r) (hnd : n ∉ r.rem)
    (hn : isAper (d n) = false) (hp : ¬ Passive d need n) : Inv d keep need (pre ++ [n]) { r with m0 := none, m1 := none, m2 := none } where
  order := by simp
  chain := trivial
  sub x hx := ⟨by simp [(h.sub x hx).1], (h.sub x hx).2⟩
  wit x hx := (h.wit x hx).snoc n
  no0 _ := by
    intro X b q ap e hq hb hr
    rcases snoc_split e with ⟨rfl, rfl, rfl⟩ | ⟨q', rfl, rfl⟩
    · have := isAper_iff.2 ⟨ap, hb⟩
      rw [hn] at this
      cases this
    · rcases hq n (by simp) with h1 | h1
      · exact hp h1
      · exact hnd h1
  no1 m e1 := by simp at e1
  tri := h.tri.snoc_not hn

/-- The invariant after the registers were shifted and before the check: only the last triple is unchecked. -/
structure Inv' (d : Dict A) (keep need : List String) (pre : List String) (n : String) (r : Regs) : Prop where
  m0 : r.m0 = some n
  order : r.m1 = none → r.m2 = none
  chain : Chain d need r.rem (pre ++ [n]) r.names
  sub : ∀ x ∈ r.rem, x ∈ pre ∧ x ∉ keep
  wit : ∀ x ∈ r.rem, Wit d need r.rem pre x
  no1 : r.m1 = none → NoAp d need r.rem pre
  no2 : ∀ m, r.m1 = some m → r.m2 = none → ∀ a p, pre = a ++ m :: p → (∀ x ∈ p, Good d need r.rem x) → NoAp d need r.rem a
  tri : Tri d need keep r.rem pre

theorem inv_shift_aper {d : Dict A} {keep need pre : List String} {r : Regs} {n : String} (h : Inv d keep need pre r) (hnd : n ∉ r.rem)
    (hn : isAper (d n) = true) : Inv' d keep need pre n { r with m2 := r.m1, m1 := r.m0, m0 := some n } where
  m0 := rfl
  order := h.order.1
  chain := by
    have h1 := h.chain
    have h2 : Chain d need r.rem pre (r.m0.toList ++ r.m1.toList) := Chain.take (ms' := r.m2.toList) h1
    exact ⟨pre, [], rfl, isAper_iff.1 hn, hnd, by simp, h2⟩
  sub := h.sub
  wit := h.wit
  no1 := h.no0
  no2 m e1 e2 := h.no1 m e1 e2
  tri := h.tri

/-- The triple that ends with the new aperture. -/
theorem last_triple {d : Dict A} {keep need pre : List String} {n : String} {r : Regs} (h : Inv' d keep need pre n r)
    {l1 q1 q2 : List String} {x y : String} {ap : A}
    (e : pre = l1 ++ x :: (q1 ++ y :: q2)) (hx : x ∉ r.rem) (hy : y ∉ r.rem)
    (hq : ∀ z ∈ q1 ++ q2, Good d need r.rem z) (ix : IsAperture d x ap) (iy : IsAperture d y ap) :
    r.m1 = some y ∧ r.m2 = some x := by
  have bad : ∀ {z : String} {zp : A}, IsAperture d z zp → z ∉ r.rem → ¬ Good d need r.rem z := by
    intro z zp hz hz' hg
    rcases hg with hg | hg
    · exact not_passive_of_aper hz hg
    · exact hz' hg
  have e' : pre = (l1 ++ x :: q1) ++ y :: q2 := by rw [e]; simp
  have hq2 : ∀ z ∈ q2, Good d need r.rem z := fun z hz => hq z (by simp [hz])
  have hq1 : ∀ z ∈ q1, Good d need r.rem z := fun z hz => hq z (by simp [hz])
  have hc := h.chain
  unfold Regs.names at hc
  rw [h.m0] at hc
  obtain ⟨a0, p0, e0, ⟨np, inp⟩, hnr, hg, hc⟩ := hc
  have ha0 : a0 = pre := by
    rcases snoc_split e0 with ⟨_, h1, _⟩ | ⟨b', hb', h1⟩
    · exact h1.symm
    · exact absurd (hg n (by rw [hb']; simp)) (bad inp hnr)
  subst ha0
  cases h1 : r.m1 with
  | none => exact absurd (h.no1 h1 _ _ _ _ e' hq2 iy hy) id
  | some m =>
    rw [h1] at hc
    obtain ⟨a1, p1, e1, ⟨mp, im⟩, hm, hp1, hc⟩ := hc
    obtain ⟨h2, h3, h4⟩ := last_bad (good := Good d need r.rem) (bad iy hy) (bad im hm) hq2 hp1 (e'.symm.trans e1)
    subst h3
    refine ⟨rfl, ?_⟩
    cases h5 : r.m2 with
    | none =>
      exact absurd (h.no2 y h1 h5 _ _ e' hq2 l1 x q1 ap rfl hq1 ix hx) id
    | some k =>
      rw [h5] at hc
      obtain ⟨a2, p2, e2, ⟨kp, ik⟩, hk, hp2, _⟩ := hc
      obtain ⟨_, h7, _⟩ := last_bad (good := Good d need r.rem) (bad ix hx) (bad ik hk) hq1 hp2 (h2.trans e2)
      rw [h7]

theorem tri_of_last {d : Dict A} {keep need pre : List String} {n : String} {r : Regs} (h : Inv' d keep need pre n r)
    (hlast : ∀ x y ap, r.m1 = some y → r.m2 = some x → IsAperture d x ap → IsAperture d y ap → IsAperture d n ap → y ∈ keep) :
    Tri d need keep r.rem (pre ++ [n]) := by
  intro l1 a q1 b q2 c l2 ap e ha hb hc hq iha ihb ihc
  have e' : pre ++ [n] = (l1 ++ a :: (q1 ++ b :: q2)) ++ c :: l2 := by rw [e]; simp
  rcases snoc_split e' with ⟨rfl, e2, rfl⟩ | ⟨l2', rfl, e2⟩
  · obtain ⟨h1, h2⟩ := last_triple h e2 ha hb hq iha ihb
    exact hlast a b ap h1 h2 iha ihb ihc
  · exact h.tri l1 a q1 b q2 c l2' ap (by rw [e2]; simp) ha hb hc hq iha ihb ihc

/-- Nothing to remove. -/
theorem inv_of_inv' {d : Dict A} {keep need pre : List String} {n : String} {r : Regs} (h : Inv' d keep need pre n r)
    (hlast : ∀ x y ap, r.m1 = some y → r.m2 = some x → IsAperture d x ap → IsAperture d y ap → IsAperture d n ap → y ∈ keep) :
    Inv d keep need (pre ++ [n]) r where
  order := ⟨by simp [h.m0], h.order⟩
  chain := h.chain
  sub x hx := ⟨by simp [(h.sub x hx).1], (h.sub x hx).2⟩
  wit x hx := (h.wit x hx).snoc n
  no0 e := by rw [h.m0] at e; cases e
  no1 m e1 e2 a p e hq := by
    rw [h.m0] at e1
    cases e1
    have hc := h.chain
    unfold Regs.names at hc
    rw [h.m0] at hc
    obtain ⟨_, _, _, ⟨np, inp⟩, hnr, _, _⟩ := hc
    rcases snoc_split e with ⟨rfl, rfl, _⟩ | ⟨p', rfl, rfl⟩
    · exact h.no1 e2
    · rcases hq n (by simp) with h1 | h1
      · exact absurd h1 (not_passive_of_aper inp)
      · exact absurd h1 hnr
  tri := tri_of_last h hlast

/-- The middle one of three equal apertures goes. -/
theorem inv_remove {d : Dict A} {keep need pre : List String} {n b c : String} {r : Regs} {ap : A} (hnd : (pre ++ [n]).Nodup)
    (h : Inv' d keep need pre n r) (h1 : r.m1 = some b) (h2 : r.m2 = some c) (ha : IsAperture d n ap) (hb : IsAperture d b ap)
    (hc : IsAperture d c ap) (hk : b ∉ keep) :
    Inv d keep need (pre ++ [n]) { r with rem := r.rem ++ [b], m1 := some c, m2 := none } := by
  have bad : ∀ {z : String} {zp : A}, IsAperture d z zp → z ∉ r.rem → ¬ Good d need r.rem z := by
    intro z zp hz hz' hg
    rcases hg with hg | hg
    · exact not_passive_of_aper hz hg
    · exact hz' hg
  have mono : ∀ {z : String}, Good d need r.rem z → Good d need (r.rem ++ [b]) z := by
    rintro z (hz | hz)
    · exact Or.inl hz
    · exact Or.inr (by simp [hz])
  have gb : Good d need (r.rem ++ [b]) b := Or.inr (by simp)
  -- the three positions
  have hch := h.chain
  unfold Regs.names at hch
  rw [h.m0, h1, h2] at hch
  obtain ⟨a0, p0, e0, _, hn0, hg0, a1, p1, e1, _, hb0, hg1, a2, p2, e2, _, hc0, hg2, _⟩ := hch
  have ha0 : a0 = pre ∧ p0 = [] := by
    rcases snoc_split e0 with ⟨h3, h4, _⟩ | ⟨b', hb', _⟩
    · exact ⟨h4.symm, h3⟩
    · exact absurd (hg0 n (by rw [hb']; simp)) (bad ha hn0)
  obtain ⟨rfl, rfl⟩ := ha0
  subst e2
  subst e1
  have ne_nb : n ≠ b := by
    rintro rfl
    simp [List.nodup_append] at hnd
  have ne_cb : c ≠ b := by
    rintro rfl
    simp [List.nodup_append] at hnd
  have ne_nc : n ≠ c := by
    rintro rfl
    simp [List.nodup_append] at hnd
  have hn' : n ∉ r.rem ++ [b] := by simp [hn0, ne_nb]
  have hc' : c ∉ r.rem ++ [b] := by simp [hc0, ne_cb]
  constructor
  · exact ⟨by simp [h.m0], by simp⟩
  · -- the registers
    show Chain d need (r.rem ++ [b]) _ (r.m0.toList ++ [c] ++ [])
    rw [h.m0]
    refine ⟨a2 ++ c :: p2 ++ b :: p1, [], by simp, ⟨ap, ha⟩, hn', by simp, a2, p2 ++ b :: p1, by simp, ⟨ap, hc⟩, hc', ?_, trivial⟩
    intro x hx
    simp only [List.mem_append, List.mem_cons] at hx
    rcases hx with hx | hx | hx
    · exact mono (hg2 x hx)
    · rw [hx]; exact gb
    · exact mono (hg1 x hx)
  · -- removed names
    intro x hx
    simp only [List.mem_append, List.mem_singleton] at hx
    rcases hx with hx | rfl
    · exact ⟨by simpa [or_assoc] using Or.inl (h.sub x hx).1, (h.sub x hx).2⟩
    · exact ⟨by simp, hk⟩
  · -- witnesses
    intro x hx
    simp only [List.mem_append, List.mem_singleton] at hx
    rcases hx with hx | rfl
    · obtain ⟨xp, l1, u, q1, q2, v, l2, e, ix, iu, iv, hu, hv, hq⟩ := h.wit x hx
      have hndp : (a2 ++ c :: p2 ++ b :: p1).Nodup := (List.nodup_append.1 hnd).1
      by_cases hub : u = b
      · -- `b` was the left neighbour: now `c`
        subst hub
        have hxp : xp = ap := iu.inj hb
        subst hxp
        obtain ⟨h3, h4⟩ := append_cons_inj hndp e
        by_cases hvb : v = u
        · subst hvb
          exfalso
          rw [h4] at hndp
          simp [List.nodup_append] at hndp
        refine ⟨xp, a2, c, p2 ++ u :: q1, q2, v, l2 ++ [n], ?_, ix, hc, iv, hc', by simp [hv, hvb], ?_⟩
        · rw [h4]; simp
        · intro z hz
          simp only [List.mem_append, List.mem_cons] at hz
          rcases hz with (hz | hz | hz) | hz
          · exact mono (hg2 z hz)
          · rw [hz]; exact gb
          · exact mono (hq z (by simp [hz]))
          · exact mono (hq z (by simp [hz]))
      · by_cases hvb : v = b
        · -- `b` was the right neighbour: now `n`
          subst hvb
          have hxp : xp = ap := iv.inj hb
          subst hxp
          have e' : a2 ++ c :: p2 ++ v :: p1 = (l1 ++ u :: (q1 ++ x :: q2)) ++ v :: l2 := by rw [e]; simp
          obtain ⟨h3, h4⟩ := append_cons_inj hndp e'
          refine ⟨xp, l1, u, q1, q2 ++ v :: p1, n, [], ?_, ix, iu, ha, by simp [hu, hub], hn', ?_⟩
          · rw [h3]; simp
          · intro z hz
            simp only [List.mem_append, List.mem_cons] at hz
            rcases hz with hz | hz | hz | hz
            · exact mono (hq z (by simp [hz]))
            · exact mono (hq z (by simp [hz]))
            · rw [hz]; exact gb
            · exact mono (hg1 z hz)
        · refine ⟨xp, l1, u, q1, q2, v, l2 ++ [n], ?_, ix, iu, iv, by simp [hu, hub], by simp [hv, hvb], fun z hz => mono (hq z hz)⟩
          rw [e]; simp
    · refine ⟨ap, a2, c, p2, p1, n, [], by simp, hb, hc, ha, hc', hn', ?_⟩
      intro z hz
      simp only [List.mem_append] at hz
      rcases hz with hz | hz
      · exact mono (hg2 z hz)
      · exact mono (hg1 z hz)
  · intro e
    rw [h.m0] at e
    cases e
  · intro m _ e
    cases e
  · -- triples
    intro l1 x q1 y q2 z l2 tp e hx hy hz hq ix iy iz
    show y ∈ keep
    have hx' : x ∉ r.rem ∧ x ≠ b := by simpa using hx
    have hy' : y ∉ r.rem ∧ y ≠ b := by simpa using hy
    have hz' : z ∉ r.rem ∧ z ≠ b := by simpa using hz
    have bad' : ∀ {w : String} {wp : A}, IsAperture d w wp → w ∉ r.rem ++ [b] → ¬ Good d need (r.rem ++ [b]) w := by
      intro w wp hw hw' hg
      rcases hg with hg | hg
      · exact not_passive_of_aper hw hg
      · exact hw' hg
    have hp21 : ∀ w ∈ p2 ++ b :: p1, Good d need (r.rem ++ [b]) w := by
      intro w hw
      simp only [List.mem_append, List.mem_cons] at hw
      rcases hw with hw | hw | hw
      · exact mono (hg2 w hw)
      · rw [hw]; exact gb
      · exact mono (hg1 w hw)
    have e' : (a2 ++ c :: p2 ++ b :: p1) ++ [n] = (l1 ++ x :: (q1 ++ y :: q2)) ++ z :: l2 := by rw [e]; simp
    have hgood : ∀ w, w ≠ b → Good d need (r.rem ++ [b]) w → Good d need r.rem w := by
      rintro w hw (hg | hg)
      · exact Or.inl hg
      · simp only [List.mem_append, List.mem_singleton, hw, or_false] at hg
        exact Or.inr hg
    have hndp : (a2 ++ c :: p2 ++ b :: p1).Nodup := (List.nodup_append.1 hnd).1
    rcases snoc_split e' with ⟨rfl, e2, rfl⟩ | ⟨l2', rfl, e2⟩
    · -- the last one is the new aperture: the middle one is `c`
      have e3 : (a2) ++ c :: (p2 ++ b :: p1) = (l1 ++ x :: q1) ++ y :: q2 := by
        rw [show a2 ++ c :: (p2 ++ b :: p1) = a2 ++ c :: p2 ++ b :: p1 by simp, e2]; simp
      obtain ⟨h3, h4, h5⟩ := last_bad (good := Good d need (r.rem ++ [b])) (bad' hc hc') (bad' iy hy) hp21
        (fun w hw => hq w (by simp [hw])) e3
      subst h4
      have htp : tp = ap := iy.inj hc
      subst htp
      -- before, the triple was x, c, b
      refine h.tri l1 x q1 c p2 b p1 tp (by rw [h3]; simp) hx'.1 hy'.1 hb0 ?_ ix iy hb
      intro w hw
      rcases List.mem_append.1 hw with hw | hw
      · refine hgood w ?_ (hq w (by simp [hw]))
        rintro rfl
        rw [h3, show l1 ++ x :: q1 ++ c :: p2 ++ w :: p1 = (l1 ++ x :: q1) ++ (c :: p2 ++ w :: p1) by simp] at hndp
        exact (List.nodup_append.1 hndp).2.2 w (by simp [hw]) w (by simp) rfl
      · exact hg2 w hw
    · -- it is inside the old prefix; `b` can only be there if one of the three is not
      by_cases hbq : b ∈ q1 ++ q2
      · exfalso
        have hbP : b ∈ l1 ++ x :: (q1 ++ y :: q2) := by
          simp only [List.mem_append, List.mem_cons] at hbq ⊢
          tauto
        obtain ⟨P1, P2, hP⟩ := List.append_of_mem hbP
        rw [hP, show P1 ++ b :: P2 ++ z :: l2' = P1 ++ b :: (P2 ++ z :: l2') by simp] at e2
        obtain ⟨_, h4⟩ := append_cons_inj hndp e2
        exact bad iz hz'.1 (hg1 z (by rw [h4]; simp))
      · exact h.tri l1 x q1 y q2 z l2' tp (by rw [e2]; simp) hx'.1 hy'.1 hz'.1
          (fun w hw => hgood w (by rintro rfl; exact hbq hw) (hq w hw)) ix iy iz

theorem step_inv [DecidableEq A] {d : Dict A} {keep need pre : List String} {n : String} {r : Regs} (hnd : (pre ++ [n]).Nodup)
    (h : Inv d keep need pre r) : ∃ r', check d keep (shift d need r n) = some r' ∧ Inv d keep need (pre ++ [n]) r' := by
  have hnr : n ∉ r.rem := by
    intro hn
    have := (List.nodup_append.1 hnd).2.2 n (h.sub n hn).1 n (by simp)
    exact this rfl
  -- a state in which the check has already been made
  have again : ∀ {pre' : List String} {r : Regs}, Inv d keep need pre' r → (∀ c b a ap, r.m2 = some c → r.m1 = some b → r.m0 = some a →
      IsAperture d a ap → IsAperture d b ap → IsAperture d c ap → b ∈ keep) → check d keep r = some r := by
    intro pre' r h hk
    unfold check
    cases h2 : r.m2 with
    | none => rfl
    | some c =>
      cases h1 : r.m1 with
      | none => rw [h.order.2 h1] at h2; cases h2
      | some b =>
        cases h0 : r.m0 with
        | none => rw [h.order.1 h0] at h1; cases h1
        | some a =>
          have hc := h.chain
          unfold Regs.names at hc
          rw [h0, h1, h2] at hc
          obtain ⟨_, _, _, ⟨ap, ia⟩, _, _, _, _, _, ⟨bp, ib⟩, _, _, _, _, _, ⟨cp, ic⟩, _⟩ := hc
          simp only [apEq_some ia ib, apEq_some ib ic]
          by_cases e1 : ap = bp
          · by_cases e2 : bp = cp
            · subst e1; subst e2
              have := hk c b a ap h2 h1 h0 ia ib ic
              simp [this]
            · simp [e1, e2]
          · simp [e1]
  unfold shift
  cases hn : isAper (d n) with
  | true =>
    have h' := inv_shift_aper h hnr hn
    obtain ⟨np, inp⟩ := isAper_iff.1 hn
    rw [if_pos rfl]
    by_cases hlast : ∀ x y ap, r.m0 = some y → r.m1 = some x → IsAperture d x ap → IsAperture d y ap → IsAperture d n ap → y ∈ keep
    · have h3 := inv_of_inv' h' hlast
      refine ⟨_, again h3 ?_, h3⟩
      intro c b a ap h2 h1 h0 ia ib ic
      cases h0
      exact hlast c b ap h1 h2 ic ib ia
    · simp only [not_forall] at hlast
      obtain ⟨c, b, ap, h1, h2, ic, ib, ia, hk⟩ := hlast
      refine ⟨_, ?_, inv_remove hnd h' h1 h2 ia ib ic hk⟩
      unfold check
      simp [h1, h2, apEq_some ia ib, apEq_some ib ic, hk]
  | false =>
    rw [if_neg (by simp)]
    by_cases hp : Passive d need n
    · rw [if_neg (by rw [(passive_iff hn).2 hp]; simp)]
      have h3 := inv_shift_passive h hn hp
      refine ⟨r, again h ?_, h3⟩
      intro c b a ap h2 h1 h0 ia ib ic
      have hc := h.chain
      unfold Regs.names at hc
      rw [h0, h1, h2] at hc
      obtain ⟨a0, p0, e0, _, hn0, hg0, a1, p1, e1, _, hb0, hg1, a2, p2, e2, _, hc0, hg2, _⟩ := hc
      refine h.tri a2 c p2 b p1 a p0 ap ?_ hc0 hb0 hn0 ?_ ic ib ia
      · rw [e0, e1, e2]; simp
      · intro x hx
        rcases List.mem_append.1 hx with hx | hx
        · exact hg2 x hx
        · exact hg1 x hx
    · have : ((!isMarker (d n) && !isDrift (d n)) || decide (n ∈ need)) = true := by
        rw [← Bool.not_eq_false, passive_iff hn]
        exact hp
      rw [if_pos this]
      have h3 := inv_shift_active h hnr hn hp
      exact ⟨_, rfl, h3⟩

theorem inv_init {d : Dict A} {keep need : List String} : Inv d keep need [] ⟨none, none, none, []⟩ where
  order := by simp
  chain := trivial
  sub := by simp
  wit := by simp
  no0 _ := by intro X b q ap e; simp at e
  no1 m e := by simp at e
  tri := by intro l1 a q1 b q2 c l2 ap e; simp at e

theorem scan_inv [DecidableEq A] {d : Dict A} {keep need : List String} : ∀ (ns pre : List String) (r : Regs), (pre ++ ns).Nodup →
    Inv d keep need pre r → ∃ r', scan d keep need ns r = some r' ∧ Inv d keep need (pre ++ ns) r'
  | [], pre, r, _, h => ⟨r, rfl, by simpa using h⟩
  | n :: ns, pre, r, hnd, h => by
    have hnd' : (pre ++ [n] ++ ns).Nodup := by simpa using hnd
    obtain ⟨r1, h1, h2⟩ := step_inv (List.nodup_append.1 hnd').1 h
    obtain ⟨r2, h3, h4⟩ := scan_inv ns (pre ++ [n]) r1 hnd' h2
    refine ⟨r2, ?_, by simpa using h4⟩
    unfold scan
    rw [h1]
    exact h3

end Verif.Cleanup
