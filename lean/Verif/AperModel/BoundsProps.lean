import Verif.AperModel.Bounds
import Verif.AperModel.IntervalsProps
import Mathlib.Tactic.FieldSimp

/-!
C165, C166, C167: positions near a profile and tolerances, the order of the profiles, overlapping pipes.
-/
namespace Verif.AperModel.Bounds

/-! ## C165 -/

theorem fmod_spec (x l : Rat) (hl : 0 < l) : (∃ k : Int, fmod x l = x - l * k) ∧ -l < fmod x l ∧ fmod x l < l := by
  unfold fmod
  refine ⟨⟨_, rfl⟩, ?_, ?_⟩
  · split
    · have := Int.floor_le (x / l)
      rw [le_div_iff₀ hl] at this
      linarith
    · have := Int.ceil_lt_add_one (x / l)
      rw [← sub_lt_iff_lt_add, lt_div_iff₀ hl] at this
      linarith
  · split
    · have := Int.lt_floor_add_one (x / l)
      rw [div_lt_iff₀ hl] at this
      linarith
    · have := Int.le_ceil (x / l)
      rw [div_le_iff₀ hl] at this
      linarith

theorem centre_spec (d l : Rat) (hl : 0 < l) (h1 : -l < d) (h2 : d < l) : (∃ k : Int, centre d l = d - l * k) ∧ |centre d l| ≤ l / 2 := by
  unfold centre
  by_cases ha : d > l / 2
  · have hb : ¬ d - l < -(l / 2) := by linarith
    simp only [if_pos ha, if_neg hb]
    exact ⟨⟨1, by push_cast; ring⟩, abs_le.mpr ⟨by linarith, by linarith⟩⟩
  · by_cases hb : d < -(l / 2)
    · simp only [if_neg ha, if_pos hb]
      exact ⟨⟨-1, by push_cast; ring⟩, abs_le.mpr ⟨by linarith, by linarith⟩⟩
    · simp only [if_neg ha, if_neg hb]
      exact ⟨⟨0, by push_cast; ring⟩, abs_le.mpr ⟨by linarith, by linarith⟩⟩

/-- **C165.** The position used for a profile on a ring is the same point of the ring, at most half a turn away from the profile, and
no other number for this point of the ring is closer. -/
theorem C165_near (s ref l : Rat) (hl : 0 < l) : (∃ k : Int, near s ref l = s + l * k) ∧ |near s ref l - ref| ≤ l / 2 ∧
    ∀ k : Int, |near s ref l - ref| ≤ |s + l * k - ref| := by
  unfold near
  rw [if_pos hl]
  obtain ⟨⟨k1, e1⟩, f1, f2⟩ := fmod_spec (s - ref) l hl
  obtain ⟨⟨k2, e2⟩, f3⟩ := centre_spec (fmod (s - ref) l) l hl f1 f2
  rw [e1] at e2
  have e3 : ref + centre (fmod (s - ref) l) l = s + l * ((-k1 - k2 : Int) : Rat) := by rw [e1, e2]; push_cast; ring
  have e4 : ref + centre (fmod (s - ref) l) l - ref = centre (fmod (s - ref) l) l := by ring
  refine ⟨⟨-k1 - k2, e3⟩, by rw [e4]; exact f3, ?_⟩
  intro k
  rw [e4]
  by_cases hk : k = -k1 - k2
  · rw [hk, ← e3, e4]
  · have e5 : s + l * k - ref = centre (fmod (s - ref) l) l + l * ((k - (-k1 - k2) : Int) : Rat) := by
      rw [← e4, e3]; push_cast; ring
    rw [e5]
    have hj : k - (-k1 - k2) ≠ 0 := sub_ne_zero.mpr hk
    generalize k - (-k1 - k2) = j at hj
    generalize centre (fmod (s - ref) l) l = c at f3
    have h1 : (1 : Rat) ≤ |(j : Rat)| := by
      rw [← Int.cast_abs]
      exact_mod_cast Int.one_le_abs hj
    have h2 : |l * (j : Rat)| = l * |(j : Rat)| := by rw [abs_mul, abs_of_pos hl]
    have h3 : |l * (j : Rat)| ≤ |c + l * j| + |c| := by
      have := abs_add_le (c + l * (j : Rat)) (-c)
      rw [abs_neg] at this
      simpa using this
    have h4 : l ≤ l * |(j : Rat)| := le_mul_of_one_le_right hl.le h1
    linarith

/-- The hypothesis is met; the position −1 is 9 on a ring of 10. -/
example : near (-1) 8 10 = 9 := by decide +kernel

theorem clamp01_range (x : Rat) : 0 ≤ clamp01 x ∧ clamp01 x ≤ 1 := by
  unfold clamp01
  by_cases h1 : x < 0
  · rw [if_pos h1]; norm_num
  · rw [if_neg h1]
    by_cases h2 : x > 1
    · rw [if_pos h2]; norm_num
    · rw [if_neg h2]; constructor <;> linarith

/-- **C165.** The tolerance at a position is between those of the profiles which it is taken from. -/
theorem C165_between (ring : Option Rat) (s : Rat) (center : Rat × Rat) (left right : Option (Rat × Rat)) (lo hi : Rat)
    (hc : lo ≤ center.2 ∧ center.2 ≤ hi) (hs : ∀ side, left = some side ∨ right = some side → lo ≤ side.2 ∧ side.2 ≤ hi) :
    lo ≤ tolerance ring s center left right ∧ tolerance ring s center left right ≤ hi := by
  have key : ∀ (sn : Rat) (ss : Rat × Rat → Rat), lo ≤ (match (if sn ≥ center.1 then right else left) with
      | none => center.2
      | some side => if |ss side - center.1| < eps then center.2 else
          (1 - clamp01 ((sn - center.1) / (ss side - center.1))) * center.2 + clamp01 ((sn - center.1) / (ss side - center.1)) * side.2) ∧
      (match (if sn ≥ center.1 then right else left) with
      | none => center.2
      | some side => if |ss side - center.1| < eps then center.2 else
          (1 - clamp01 ((sn - center.1) / (ss side - center.1))) * center.2 + clamp01 ((sn - center.1) / (ss side - center.1)) * side.2) ≤ hi := by
    intro sn ss
    cases he : (if sn ≥ center.1 then right else left) with
    | none => exact hc
    | some side =>
      have hsd := hs side (by
        by_cases h2 : sn ≥ center.1
        · rw [if_pos h2] at he; exact Or.inr he
        · rw [if_neg h2] at he; exact Or.inl he)
      dsimp only
      by_cases h3 : |ss side - center.1| < eps
      · rw [if_pos h3]; exact hc
      · rw [if_neg h3]
        obtain ⟨w0, w1⟩ := clamp01_range ((sn - center.1) / (ss side - center.1))
        generalize clamp01 ((sn - center.1) / (ss side - center.1)) = w at w0 w1
        constructor <;> nlinarith
  unfold tolerance
  by_cases h1 : |s - center.1| < eps
  · rw [if_pos h1]; exact hc
  · rw [if_neg h1]
    cases ring with
    | none => exact key s (fun side => side.1)
    | some l => exact key (near s center.1 l) (fun side => near side.1 center.1 l)

/-- **C165.** Between two profiles of a pipe the tolerance grows linearly, whichever of them the search found. -/
theorem C165_linear (s a b ta tb : Rat) (other other' : Option (Rat × Rat)) (hab : eps ≤ b - a) (ha : eps ≤ s - a) (hb : eps ≤ b - s) :
    tolerance none s (a, ta) other (some (b, tb)) = ta + (tb - ta) * ((s - a) / (b - a)) ∧
    tolerance none s (b, tb) (some (a, ta)) other' = ta + (tb - ta) * ((s - a) / (b - a)) := by
  have pe : (0 : Rat) < eps := by norm_num [eps]
  have hd : b - a ≠ 0 := by linarith
  constructor
  · unfold tolerance
    have h1 : ¬ |s - a| < eps := not_lt.mpr (ha.trans (le_abs_self _))
    have h2 : ¬ |b - a| < eps := not_lt.mpr (hab.trans (le_abs_self _))
    have h3 : s ≥ a := by linarith
    simp only [if_neg h1, if_pos h3, if_neg h2]
    have w : clamp01 ((s - a) / (b - a)) = (s - a) / (b - a) := by
      unfold clamp01
      rw [if_neg (not_lt.mpr (div_nonneg (by linarith) (by linarith))), if_neg (not_lt.mpr (by rw [div_le_iff₀ (by linarith)]; linarith))]
    rw [w]; ring
  · unfold tolerance
    have h1 : ¬ |s - b| < eps := not_lt.mpr (by rw [abs_sub_comm]; exact hb.trans (le_abs_self _))
    have h2 : ¬ |a - b| < eps := not_lt.mpr (by rw [abs_sub_comm]; exact hab.trans (le_abs_self _))
    have h3 : ¬ s ≥ b := by linarith
    simp only [if_neg h1, if_neg h3, if_neg h2]
    have e : (s - b) / (a - b) = (b - s) / (b - a) := by
      rw [← neg_sub b a, ← neg_sub b s, neg_div_neg_eq]
    have w : clamp01 ((s - b) / (a - b)) = (b - s) / (b - a) := by
      rw [e]
      unfold clamp01
      rw [if_neg (not_lt.mpr (div_nonneg (by linarith) (by linarith))), if_neg (not_lt.mpr (by rw [div_le_iff₀ (by linarith)]; linarith))]
    rw [w]
    field_simp
    ring

/-- The hypotheses are met in the middle between two profiles. -/
example : tolerance none 3 (2, 10) none (some (4, 20)) = 15 := by decide +kernel

/-! ## C166 -/

theorem npround_near (x : Rat) : |(npround x : Rat) - x| ≤ 1 / 2 := by
  have h1 := Int.floor_le x
  have h2 := Int.lt_floor_add_one x
  unfold npround
  by_cases a : x - ⌊x⌋ < 1 / 2
  · rw [if_pos a, abs_le]; constructor <;> linarith
  · rw [if_neg a]
    by_cases b : x - ⌊x⌋ > 1 / 2
    · rw [if_pos b, abs_le]; push_cast; constructor <;> linarith
    · rw [if_neg b]
      by_cases c : ⌊x⌋ % 2 = 0
      · rw [if_pos c, abs_le]; constructor <;> linarith
      · rw [if_neg c, abs_le]; push_cast; constructor <;> linarith

/-- In order up to a tolerance: no bound starts by more than the tolerance after a later one. -/
def Ordered (start : Nat → Rat) (tol : Rat) (l : List Nat) : Prop := l.Pairwise fun a b => start a ≤ start b + tol

/-- **C166.** Sorting keeps the bounds and puts them in order up to the tolerance. -/
theorem C166_sort (start : Nat → Rat) (tol : Rat) (ht : 0 < tol) (l : List Nat) :
    (sortByS start tol l).Perm l ∧ Ordered start tol (sortByS start tol l) := by
  refine ⟨List.perm_insertionSort _ l, ?_⟩
  unfold sortByS Ordered
  have : IsTrans Nat (fun a b => npround (start a / tol) ≤ npround (start b / tol)) := ⟨fun a b c h1 h2 => le_trans h1 h2⟩
  have : Std.Total (fun a b => npround (start a / tol) ≤ npround (start b / tol)) := ⟨fun a b => le_total _ _⟩
  refine (List.pairwise_insertionSort (fun a b => npround (start a / tol) ≤ npround (start b / tol)) l).imp ?_
  intro a b h
  have h1 := (abs_le.mp (npround_near (start a / tol))).1
  have h2 := (abs_le.mp (npround_near (start b / tol))).2
  have h3 : (npround (start a / tol) : Rat) ≤ npround (start b / tol) := by exact_mod_cast h
  have h4 : start a / tol ≤ start b / tol + 1 := by linarith
  rw [div_add_one ht.ne', div_le_div_iff_of_pos_right ht] at h4
  exact h4

theorem span_append {α : Type} (p : α → Bool) (l : List α) : (l.span p).1 ++ (l.span p).2 = l := by
  rw [List.span_eq_takeWhile_dropWhile]; exact List.takeWhile_append_dropWhile

theorem pull_spec (f : Info) (tol : Rat) (x : Nat) (rest : List Nat) (h : Ordered f.start tol rest) :
    (pull f tol x rest).Perm rest ∧ Ordered f.start tol (pull f tol x rest) := by
  unfold pull
  cases f.interval (f.pipe x) with
  | none => exact ⟨List.Perm.refl _, h⟩
  | some own =>
    dsimp only
    have happ := span_append (fun y => !(f.pipe y == f.pipe x && f.profile y == f.profile x + 1)) rest
    generalize rest.span (fun y => !(f.pipe y == f.pipe x && f.profile y == f.profile x + 1)) = sp at happ
    obtain ⟨crossed, tl⟩ := sp
    cases tl with
    | nil => exact ⟨List.Perm.refl _, h⟩
    | cons next tail =>
      dsimp only at happ ⊢
      split
      · rename_i hc
        refine ⟨?_, ?_⟩
        · rw [← happ]; exact List.perm_middle.symm
        · unfold Ordered at h ⊢
          rw [← happ, List.pairwise_append, List.pairwise_cons] at h
          obtain ⟨hcr, ⟨hnt, ht⟩, hct⟩ := h
          rw [List.pairwise_cons, List.pairwise_append]
          refine ⟨?_, hcr, ht, fun a ha b hb => hct a ha b (List.mem_cons_of_mem _ hb)⟩
          intro a ha
          rcases List.mem_append.mp ha with ha | ha
          · have := List.all_eq_true.mp hc.2 a ha
            have := of_decide_eq_true this
            linarith
          · exact hnt a ha
      · exact ⟨List.Perm.refl _, h⟩

theorem pass_spec (f : Info) (tol : Rat) : ∀ n l, Ordered f.start tol l →
    (pass f tol n l).Perm l ∧ Ordered f.start tol (pass f tol n l) := by
  intro n
  induction n with
  | zero => intro l h; cases l <;> exact ⟨List.Perm.refl _, h⟩
  | succ n ih =>
    intro l h
    cases l with
    | nil => exact ⟨List.Perm.refl _, h⟩
    | cons x rest =>
      obtain ⟨hx, hr⟩ := List.pairwise_cons.mp h
      obtain ⟨p1, o1⟩ := pull_spec f tol x rest hr
      obtain ⟨p2, o2⟩ := ih _ o1
      have hp := p2.trans p1
      refine ⟨List.Perm.cons x hp, List.pairwise_cons.mpr ⟨fun a ha => hx a (hp.mem_iff.mp ha), o2⟩⟩

/-- **C166.** Moving profiles of a pipe together keeps all bounds, and they are still in order up to the tolerance, however many moves
are made. -/
theorem C166_reorder (f : Info) (tol : Rat) (l : List Nat) (h : Ordered f.start tol l) :
    (reorder f tol l).Perm l ∧ Ordered f.start tol (reorder f tol l) := by
  unfold reorder
  split
  · exact ⟨List.Perm.refl _, h⟩
  · exact pass_spec f tol _ l h

theorem span_split {α : Type} (p : α → Bool) (a : α) (l1 l2 : List α) (h1 : ∀ y ∈ l1, p y = true) (h2 : p a = false) :
    (l1 ++ a :: l2).span p = (l1, a :: l2) := by
  rw [List.span_eq_takeWhile_dropWhile, List.takeWhile_append_of_pos h1, List.dropWhile_append_of_pos h1]
  simp [h2]

/-- The bounds of one pipe are left as they are. -/
theorem pass_same (f : Info) (tol : Rat) (q : Nat) : ∀ n l, (∀ y ∈ l, f.pipe y = q) → pass f tol n l = l := by
  intro n
  induction n with
  | zero => intro l _; cases l <;> rfl
  | succ n ih =>
    intro l hl
    cases l with
    | nil => rfl
    | cons x rest =>
      have hp : pull f tol x rest = rest := by
        unfold pull
        cases f.interval (f.pipe x) with
        | none => rfl
        | some own =>
          dsimp only
          have happ := span_append (fun y => !(f.pipe y == f.pipe x && f.profile y == f.profile x + 1)) rest
          generalize rest.span (fun y => !(f.pipe y == f.pipe x && f.profile y == f.profile x + 1)) = sp at happ
          obtain ⟨crossed, tl⟩ := sp
          cases tl with
          | nil => rfl
          | cons next tail =>
            dsimp only at happ ⊢
            cases crossed with
            | nil => simpa using happ
            | cons y ys =>
              rw [if_neg]
              rintro ⟨h, _⟩
              have h2 := List.all_eq_true.mp h y List.mem_cons_self
              have h3 : f.pipe y = f.pipe x := by
                rw [hl y (List.mem_cons_of_mem _ (by rw [← happ]; simp)), hl x List.mem_cons_self]
              unfold tolerated at h2
              rw [h3] at h2
              split at h2
              · cases h2
              · simp at h2
      show x :: pass f tol n (pull f tol x rest) = x :: rest
      rw [hp, ih rest (fun y hy => hl y (List.mem_cons_of_mem _ hy))]

theorem pass_two (f : Info) (tol : Rat) (p q : Nat) (hpq : p ≠ q) (ip iq : Rat × Rat) (hip : f.interval p = some ip)
    (hiq : f.interval q = some iq) (h0 : ip.1 ≤ iq.1) (h1 : iq.1 ≤ ip.2) (h2 : ip.2 ≤ iq.1 + tol) :
    ∀ n x rest, rest.length < n → f.pipe x = p → (∀ y ∈ rest, f.pipe y = p ∨ f.pipe y = q) →
    ((x :: rest).filter (fun y => f.pipe y == p)).IsChain (fun a b => f.profile b = f.profile a + 1) →
    (∀ a ∈ rest, ∀ b ∈ rest, f.pipe a = p → f.pipe b = q → f.start a ≤ f.start b + tol) →
    pass f tol n (x :: rest) = (x :: rest).filter (fun y => f.pipe y == p) ++ (x :: rest).filter (fun y => f.pipe y == q) := by
  intro n
  induction n with
  | zero => intro x rest h; omega
  | succ n ih =>
    intro x rest hn hx hr hch hst
    have hxp : (x :: rest).filter (fun y => f.pipe y == p) = x :: rest.filter (fun y => f.pipe y == p) :=
      List.filter_cons_of_pos (by simp [hx])
    have hxq : (x :: rest).filter (fun y => f.pipe y == q) = rest.filter (fun y => f.pipe y == q) :=
      List.filter_cons_of_neg (by simp [hx, hpq])
    rw [hxp] at hch
    rw [hxp, hxq]
    show x :: pass f tol n (pull f tol x rest) = _
    rw [List.cons_append]
    congr 1
    cases hf : rest.filter (fun y => f.pipe y == p) with
    | nil =>
      have hq : ∀ y ∈ rest, f.pipe y = q := by
        intro y hy
        rcases hr y hy with h | h
        · have := List.filter_eq_nil_iff.mp hf y hy
          simp [h] at this
        · exact h
      have hpull : pull f tol x rest = rest := by
        unfold pull
        rw [hx, hip]
        dsimp only
        have : rest.span (fun y => !(f.pipe y == p && f.profile y == f.profile x + 1)) = (rest, []) := by
          rw [List.span_eq_takeWhile_dropWhile]
          have ht : ∀ y ∈ rest, (!(f.pipe y == p && f.profile y == f.profile x + 1)) = true := by
            intro y hy
            rw [hq y hy]
            simp [hpq.symm]
          have h3 := List.takeWhile_append_of_pos (l₂ := []) ht
          have h4 := List.dropWhile_append_of_pos (l₂ := []) ht
          rw [List.append_nil] at h3 h4
          rw [h3, h4]
          simp
        rw [this]
      rw [hpull, pass_same f tol q n rest hq, List.nil_append]
      exact (List.filter_eq_self.mpr (fun y hy => by simp [hq y hy])).symm
    | cons a as =>
      rw [hf, List.isChain_cons_cons] at hch
      obtain ⟨l1, l2, rfl, hl1, ha, hl2⟩ := List.filter_eq_cons_iff.mp hf
      have ha' : f.pipe a = p := by simpa using ha
      have hq1 : ∀ y ∈ l1, f.pipe y = q := by
        intro y hy
        rcases hr y (by simp [hy]) with h | h
        · exact absurd (by simp [h]) (hl1 y hy)
        · exact h
      have hpull : pull f tol x (l1 ++ a :: l2) = a :: (l1 ++ l2) := by
        unfold pull
        rw [hx, hip]
        dsimp only
        rw [span_split _ a l1 l2 (fun y hy => by rw [hq1 y hy]; simp [hpq.symm]) (by simp [ha', hch.1])]
        dsimp only
        rw [if_pos]
        refine ⟨List.all_eq_true.mpr (fun y hy => ?_), List.all_eq_true.mpr (fun y hy => ?_)⟩
        · unfold tolerated
          rw [hq1 y hy, hiq]
          simp only [Bool.and_eq_true, Bool.not_eq_true', beq_eq_false_iff_ne, decide_eq_true_eq]
          exact ⟨⟨⟨hpq.symm, h0⟩, by linarith⟩, by linarith⟩
        · have := hst a (by simp) y (by simp [hy]) ha' (hq1 y hy)
          exact decide_eq_true (by linarith)
      have hn1 : l1.filter (fun y => f.pipe y == p) = [] := List.filter_eq_nil_iff.mpr hl1
      have hfa : (a :: (l1 ++ l2)).filter (fun y => f.pipe y == p) = a :: as := by
        rw [List.filter_cons_of_pos (p := fun y => f.pipe y == p) ha, List.filter_append, hn1, List.nil_append, hl2]
      have hfq : (a :: (l1 ++ l2)).filter (fun y => f.pipe y == q) = (l1 ++ a :: l2).filter (fun y => f.pipe y == q) := by
        have hn : ¬ (f.pipe a == q) = true := by simp [ha', hpq]
        rw [List.filter_cons_of_neg (p := fun y => f.pipe y == q) hn, List.filter_append, List.filter_append,
          List.filter_cons_of_neg (p := fun y => f.pipe y == q) hn]
      have hmem : ∀ y, y ∈ l1 ++ l2 → y ∈ l1 ++ a :: l2 := by
        intro y hy
        rcases List.mem_append.mp hy with h | h <;> simp [h]
      rw [hpull, ih a (l1 ++ l2) (by simp at hn ⊢; omega) ha' (fun y hy => hr y (hmem y hy)) (by rw [hfa]; exact hch.2)
        (fun c hc d hd => hst c (hmem c hc) d (hmem d hd)), hfa, hfq]

/-- **C166.** If two pipes overlap by no more than the tolerance, all profiles of the first come before those of the second, in
whatever order the two were mixed. -/
theorem C166_together (f : Info) (tol : Rat) (ht : 0 < tol) (p q : Nat) (hpq : p ≠ q) (ip iq : Rat × Rat) (hip : f.interval p = some ip)
    (hiq : f.interval q = some iq) (h0 : ip.1 ≤ iq.1) (h1 : iq.1 ≤ ip.2) (h2 : ip.2 ≤ iq.1 + tol) (x : Nat) (rest : List Nat)
    (hx : f.pipe x = p) (hr : ∀ y ∈ rest, f.pipe y = p ∨ f.pipe y = q)
    (hch : ((x :: rest).filter (fun y => f.pipe y == p)).IsChain (fun a b => f.profile b = f.profile a + 1))
    (hst : ∀ a ∈ rest, ∀ b ∈ rest, f.pipe a = p → f.pipe b = q → f.start a ≤ f.start b + tol) :
    reorder f tol (x :: rest) = (x :: rest).filter (fun y => f.pipe y == p) ++ (x :: rest).filter (fun y => f.pipe y == q) := by
  have hp := pass_two f tol p q hpq ip iq hip hiq h0 h1 h2 (x :: rest).length x rest (by simp) hx hr hch hst
  unfold reorder
  by_cases hlen : (x :: rest).length < 2 ∨ tol ≤ 0
  · rw [if_pos hlen]
    rcases hlen with hlen | hlen
    · cases rest with
      | nil => simp [hx, hpq]
      | cons _ _ => simp only [List.length_cons] at hlen; omega
    · linarith
  · rw [if_neg hlen]; exact hp

/-- Two pipes: bounds 0, 1, 2 belong to the first one, 10, 11 to the second. -/
def demo : Info := ⟨fun y => y / 10, fun y => y % 10, fun y => if y < 10 then y else y - 8, fun p => if p = 0 then some (0, 2) else some (2, 3)⟩

/-- The hypotheses are met; the last profile of the first pipe is moved before the first one of the second. -/
example : reorder demo (1 / 2) [0, 1, 10, 2, 11] = [0, 1, 2, 10, 11] := by decide +kernel

example : Ordered demo.start (1 / 2) [0, 1, 10, 2, 11] ∧ sortByS demo.start (1 / 2) [0, 1, 10, 11, 2] = [0, 1, 10, 2, 11] := by
  unfold Ordered; decide +kernel

/-! ## C167 -/

/-- Two pieces overlap by more than the tolerance. -/
def Overlap (tol : Rat) (p q : Rat × Rat) : Prop := min p.2 q.2 - max p.1 q.1 > tol

theorem sweep_iff (tol : Rat) : ∀ (l : List (Rat × Rat)) (last : Option Rat), sweep tol last l = true ↔
    (∀ e, last = some e → ∀ p ∈ l, e - tol ≤ p.1) ∧ l.Pairwise (fun p q => p.2 - tol ≤ q.1) := by
  intro l
  induction l with
  | nil => intro last; simp [sweep]
  | cons p rest ih =>
    intro last
    unfold sweep
    cases last with
    | none =>
      dsimp only
      rw [if_neg (by decide), ih]
      simp only [List.pairwise_cons]
      constructor
      · rintro ⟨h1, h2⟩
        exact ⟨fun e he => (by cases he), h1 p.2 rfl, h2⟩
      · rintro ⟨_, h1, h2⟩
        exact ⟨fun e he => by cases he; exact h1, h2⟩
    | some e =>
      dsimp only
      by_cases hp : p.1 < e - tol
      · rw [if_pos (decide_eq_true hp)]
        constructor
        · intro h; cases h
        · rintro ⟨h, _⟩
          have := h e rfl p List.mem_cons_self
          linarith
      · rw [if_neg (by simpa using hp), ih]
        simp only [List.pairwise_cons]
        push Not at hp
        constructor
        · rintro ⟨h1, h2⟩
          refine ⟨?_, ?_, h2⟩
          · intro e' he' q hq
            cases he'
            rcases List.mem_cons.mp hq with hq | hq
            · rw [hq]; exact hp
            · by_cases hg : p.2 > e
              · have := h1 p.2 (if_pos hg) q hq; linarith
              · exact h1 e (if_neg hg) q hq
          · intro q hq
            by_cases hg : p.2 > e
            · exact h1 p.2 (if_pos hg) q hq
            · have := h1 e (if_neg hg) q hq; linarith
        · rintro ⟨h1, h2, h3⟩
          refine ⟨?_, h3⟩
          intro e' he' q hq
          by_cases hg : p.2 > e
          · rw [if_pos hg] at he'; cases he'; exact h2 q hq
          · rw [if_neg hg] at he'; cases he'; exact h1 e rfl q (List.mem_cons_of_mem _ hq)

/-- **C167.** The check passes exactly if no two of the pieces overlap by more than the tolerance. -/
theorem C167_valid (tol : Rat) (ps : List (Rat × Rat)) (hl : ∀ p ∈ ps, tol < p.2 - p.1) :
    valid tol ps = true ↔ ps.Pairwise (fun p q => ¬ Overlap tol p q) := by
  have : IsTrans (Rat × Rat) (fun a b => a.1 ≤ b.1) := ⟨fun a b c h1 h2 => le_trans h1 h2⟩
  have : Std.Total (fun a b : Rat × Rat => a.1 ≤ b.1) := ⟨fun a b => le_total _ _⟩
  have hperm := List.perm_insertionSort (fun a b : Rat × Rat => a.1 ≤ b.1) ps
  have hsort := List.pairwise_insertionSort (fun a b : Rat × Rat => a.1 ≤ b.1) ps
  have hsym : ∀ {p q : Rat × Rat}, ¬ Overlap tol p q → ¬ Overlap tol q p := by
    intro p q h h'
    apply h
    unfold Overlap at h' ⊢
    rwa [min_comm, max_comm]
  rw [← hperm.pairwise_iff hsym]
  unfold valid
  rw [sweep_iff]
  have hl' : ∀ p ∈ ps.insertionSort (fun a b => a.1 ≤ b.1), tol < p.2 - p.1 := fun p hp => hl p (hperm.mem_iff.mp hp)
  generalize ps.insertionSort (fun a b => a.1 ≤ b.1) = l at hsort hl'
  constructor
  · rintro ⟨_, h⟩
    refine (h.and hsort).imp ?_
    rintro p q ⟨h1, h2⟩ ho
    unfold Overlap at ho
    rw [max_eq_right h2] at ho
    have := min_le_left p.2 q.2
    linarith
  · intro h
    refine ⟨fun e he => (by cases he), ?_⟩
    have h2 : l.Pairwise (fun _ q => tol < q.2 - q.1) := by
      rw [List.pairwise_iff_forall_sublist]
      intro a b hs
      exact hl' b (hs.subset (by simp))
    refine ((h.and hsort).and h2).imp ?_
    rintro p q ⟨⟨h1, h3⟩, h4⟩
    by_contra hc
    push Not at hc
    apply h1
    unfold Overlap
    rw [max_eq_right h3]
    have : q.1 + tol < min p.2 q.2 := lt_min (by linarith) (by linarith)
    linarith

/-- The hypothesis is met by two pieces which touch, and by two which overlap. -/
example : valid (1 / 10) [(3, 5), (0, 3)] = true ∧ valid (1 / 10) [(3, 5), (0, 4)] = false := by decide +kernel

end Verif.AperModel.Bounds
