import Verif.Cleanup.AperLemmas
import Mathlib.Analysis.Convex.Basic
import Mathlib.Tactic.Linarith
import Mathlib.Tactic.Positivity
import Mathlib.Tactic.FieldSimp
import Mathlib.Tactic.Ring
import Mathlib.Tactic.NormNum

/-!
# C43: removing redundant apertures
-/

namespace Verif.Cleanup

open Frames

variable {A : Type}

/-- In a line without repeated names: the method does not raise, the result is a part of the line in the same order, names to keep
stay, and each aperture that went stands between two equal ones that stayed, with only drifts, markers and removed apertures
between. -/
theorem C43_between_partial [DecidableEq A] (d : Dict A) (keep need names : List String) (hnd : names.Nodup) :
    ∃ out, removeRedundant d keep need names = some out ∧ out.Sublist names ∧
      (∀ n ∈ names, n ∈ keep → n ∈ out) ∧ ∀ n ∈ names, n ∉ out → Redundant d need names out n := by
  obtain ⟨r, hr, h⟩ := scan_inv (keep := keep) (need := need) names [] ⟨none, none, none, []⟩ (by simpa using hnd) (inv_init (d := d))
  simp only [List.nil_append] at h
  have hout := foldl_erase_eq_filter r.rem names hnd
  refine ⟨_, by unfold removeRedundant; rw [hr], ?_, ?_, ?_⟩
  · rw [hout]; exact List.filter_sublist
  · intro n hn hk
    rw [hout]
    simp only [List.mem_filter, decide_eq_true_eq]
    exact ⟨hn, fun hx => (h.sub n hx).2 hk⟩
  · intro n hn hn'
    rw [hout] at hn' ⊢
    have hrem : n ∈ r.rem := by
      simp only [List.mem_filter, decide_eq_true_eq, not_and, not_not] at hn'
      exact hn' hn
    obtain ⟨a, l1, u, q1, q2, v, l2, e, ix, iu, iv, hu, hv, hq⟩ := h.wit n hrem
    refine ⟨a, l1, u, q1, q2, v, l2, e, ix, iu, iv, ?_, ?_, ?_⟩
    · simp only [List.mem_filter, decide_eq_true_eq]; exact ⟨by rw [e]; simp, hu⟩
    · simp only [List.mem_filter, decide_eq_true_eq]; exact ⟨by rw [e]; simp, hv⟩
    · intro x hx
      rcases hq x hx with h1 | h1
      · exact Or.inl h1
      · refine Or.inr ?_
        simp [h1]

/-- An aperture with only passive elements between it and an element that is neither passive nor an aperture stays, on
whichever side of the element it is. -/
theorem C43_adjacent_partial [DecidableEq A] (d : Dict A) (keep need names out : List String) (hnd : names.Nodup)
    (hout : removeRedundant d keep need names = some out) (l1 m l2 : List String) (n e : String)
    (hm : ∀ x ∈ m, Passive d need x) (he : ¬ Passive d need e) (he' : ∀ a, ¬ IsAperture d e a)
    (hl : names = l1 ++ n :: (m ++ e :: l2) ∨ names = l1 ++ e :: (m ++ n :: l2)) : n ∈ out := by
  obtain ⟨out', ho, _, _, hred⟩ := C43_between_partial d keep need names hnd
  rw [hout] at ho
  cases ho
  by_contra hn
  have hmem : n ∈ names := by rcases hl with h | h <;> rw [h] <;> simp
  obtain ⟨a, k1, u, q1, q2, v, k2, e1, _, iu, iv, hu, hv, hq⟩ := hred n hmem hn
  -- `e` is in the line and has to be kept
  have hemem : e ∈ names := by rcases hl with h | h <;> rw [h] <;> simp
  have heout : e ∈ out := by
    by_contra heo
    obtain ⟨b, _, _, _, _, _, _, _, ie, _⟩ := hred e hemem heo
    exact he' b ie
  have key : ∀ x ∈ q1 ++ q2, x ≠ e := by
    rintro x hx rfl
    rcases hq x hx with h1 | h1
    · exact he h1
    · exact h1 heout
  rcases hl with h | h
  · have e2 : (k1 ++ u :: q1) ++ n :: (q2 ++ v :: k2) = l1 ++ n :: (m ++ e :: l2) := by rw [← h, e1]; simp
    have hnd2 : ((k1 ++ u :: q1) ++ n :: (q2 ++ v :: k2)).Nodup := by rw [e2, ← h]; exact hnd
    obtain ⟨_, h3⟩ := append_cons_inj hnd2 e2
    -- the first entry of `q2 ++ v :: k2` that is not passive is not `e`
    rcases List.append_eq_append_iff.1 h3 with ⟨t, ht1, ht2⟩ | ⟨t, ht1, ht2⟩
    · cases t with
      | nil =>
        simp only [List.nil_append, List.cons.injEq] at ht2
        exact he' a (ht2.1 ▸ iv)
      | cons z t =>
        simp only [List.cons_append, List.cons.injEq] at ht2
        exact not_passive_of_aper iv (hm v (by rw [ht1, ht2.1]; simp))
    · cases t with
      | nil =>
        simp only [List.nil_append, List.cons.injEq] at ht2
        exact he' a (ht2.1 ▸ iv)
      | cons z t =>
        simp only [List.cons_append, List.cons.injEq] at ht2
        exact key e (by rw [ht1, ht2.1]; simp) rfl
  · have e2 : (k1 ++ u :: q1) ++ n :: (q2 ++ v :: k2) = (l1 ++ e :: m) ++ n :: l2 := by
      rw [show (l1 ++ e :: m) ++ n :: l2 = l1 ++ e :: (m ++ n :: l2) by simp, ← h, e1]; simp
    have hnd2 : ((k1 ++ u :: q1) ++ n :: (q2 ++ v :: k2)).Nodup := by
      rw [e2, show (l1 ++ e :: m) ++ n :: l2 = l1 ++ e :: (m ++ n :: l2) by simp, ← h]; exact hnd
    obtain ⟨h3, _⟩ := append_cons_inj hnd2 e2
    rcases List.append_eq_append_iff.1 h3 with ⟨t, ht1, ht2⟩ | ⟨t, ht1, ht2⟩
    · cases t with
      | nil =>
        simp only [List.nil_append, List.cons.injEq] at ht2
        exact he' a (ht2.1 ▸ iu)
      | cons z t =>
        simp only [List.cons_append, List.cons.injEq] at ht2
        exact key e (by rw [ht2.2]; simp) rfl
    · cases t with
      | nil =>
        simp only [List.nil_append, List.cons.injEq] at ht2
        exact he' a (ht2.1 ▸ iu)
      | cons z t =>
        simp only [List.cons_append, List.cons.injEq] at ht2
        exact not_passive_of_aper iu (hm u (by rw [ht2.2]; simp))

/-- Nothing redundant is left: of three equal apertures with only passive elements between them, the middle one is a name to
keep. -/
theorem C43_complete_partial [DecidableEq A] (d : Dict A) (keep need names out : List String) (hnd : names.Nodup)
    (hout : removeRedundant d keep need names = some out) (l1 q1 q2 l2 : List String) (u n v : String) (a : A)
    (e : out = l1 ++ u :: (q1 ++ n :: (q2 ++ v :: l2))) (hq : ∀ x ∈ q1 ++ q2, Passive d need x)
    (iu : IsAperture d u a) (i : IsAperture d n a) (iv : IsAperture d v a) : n ∈ keep := by
  obtain ⟨r, hr, h⟩ := scan_inv (keep := keep) (need := need) names [] ⟨none, none, none, []⟩ (by simpa using hnd) (inv_init (d := d))
  simp only [List.nil_append] at h
  unfold removeRedundant at hout
  rw [hr] at hout
  simp only [Option.some.injEq] at hout
  rw [foldl_erase_eq_filter r.rem names hnd] at hout
  rw [← hout] at e
  -- lift the decomposition to the original line
  obtain ⟨k1, k2, rfl, e1, e2⟩ := List.filter_eq_append_iff.1 e
  obtain ⟨k3, k4, rfl, hk3, hu, e3⟩ := List.filter_eq_cons_iff.1 e2
  obtain ⟨k5, k6, rfl, e4, e5⟩ := List.filter_eq_append_iff.1 e3
  obtain ⟨k7, k8, rfl, hk7, hn, e6⟩ := List.filter_eq_cons_iff.1 e5
  obtain ⟨k9, k10, rfl, e7, e8⟩ := List.filter_eq_append_iff.1 e6
  obtain ⟨k11, k12, rfl, hk11, hv, e9⟩ := List.filter_eq_cons_iff.1 e8
  simp only [decide_eq_true_eq] at hu hn hv
  have lift : ∀ {k q : List String}, k.filter (fun x => decide (x ∉ r.rem)) = q → (∀ x ∈ q, Passive d need x) →
      ∀ x ∈ k, Good d need r.rem x := by
    intro k q e hq x hx
    by_cases h1 : x ∈ r.rem
    · exact Or.inr h1
    · exact Or.inl (hq x (by rw [← e]; simp [hx, h1]))
  have lift' : ∀ {k : List String}, (∀ x ∈ k, ¬ (decide (x ∉ r.rem) = true)) → ∀ x ∈ k, Good d need r.rem x := by
    intro k hk x hx
    have := hk x hx
    simp only [decide_eq_true_eq, not_not] at this
    exact Or.inr this
  refine h.tri (k1 ++ k3) u (k5 ++ k7) n (k9 ++ k11) v k12 a (by simp) hu hn hv ?_ iu i iv
  intro x hx
  simp only [List.mem_append] at hx
  rcases hx with (hx | hx) | hx | hx
  · exact lift e4 (fun y hy => hq y (by simp [hy])) x hx
  · exact lift' hk7 x hx
  · exact lift e7 (fun y hy => hq y (by simp [hy])) x hx
  · exact lift' hk11 x hx

/-! ## Which particles survive -/

/-- An element whose only effect is to move the particle on along its direction, or to lose it. -/
def Straight (d : Dict A) (x : String) : Prop :=
  (d x).el = .marker ∨ (∃ a, (d x).el = .aper a) ∨ ∃ ex l, (d x).el = .drift ex l ∧ 0 ≤ l

theorem straight_through {inside : A → Set (ℝ × ℝ)} {d : Dict A} {x : String} (h : Straight d x) {p p' : Part} (hp : 0 ≤ p.rpp)
    (ht : through inside (d x).el p = some p') :
    p'.rpp = p.rpp ∧ p'.px = p.px ∧ p'.py = p.py ∧ ∃ t, 0 ≤ t ∧ p'.x = p.x + t * p.px ∧ p'.y = p.y + t * p.py := by
  rcases h with h | ⟨a, h⟩ | ⟨ex, l, h, hl⟩
  · rw [h] at ht
    cases ht
    exact ⟨rfl, rfl, rfl, 0, le_refl _, by ring, by ring⟩
  · rw [h] at ht
    unfold through at ht
    simp only at ht
    split at ht
    · cases ht
      exact ⟨rfl, rfl, rfl, 0, le_refl _, by ring, by ring⟩
    · cases ht
  · rw [h] at ht
    cases ex with
    | true =>
      cases ht
      refine ⟨rfl, rfl, rfl, 1 / Real.sqrt ((1 + p.delta) * (1 + p.delta) - p.px * p.px - p.py * p.py) * l, by positivity, ?_, ?_⟩
      · show p.x + p.px * _ * l = _; ring
      · show p.y + p.py * _ * l = _; ring
    | false =>
      cases ht
      refine ⟨rfl, rfl, rfl, p.rpp * l, by positivity, ?_, ?_⟩
      · show p.x + p.px * _ * l = _; ring
      · show p.y + p.py * _ * l = _; ring

theorem straight_fly {inside : A → Set (ℝ × ℝ)} {d : Dict A} : ∀ {q : List String}, (∀ x ∈ q, Straight d x) → ∀ {p p' : Part},
    0 ≤ p.rpp → fly inside d q p = some p' →
    p'.rpp = p.rpp ∧ p'.px = p.px ∧ p'.py = p.py ∧ ∃ t, 0 ≤ t ∧ p'.x = p.x + t * p.px ∧ p'.y = p.y + t * p.py
  | [], _, p, p', _, h => by
    cases h
    exact ⟨rfl, rfl, rfl, 0, le_refl _, by ring, by ring⟩
  | x :: q, hq, p, p', hp, h => by
    unfold fly at h
    obtain ⟨p1, h1, h2⟩ := Option.bind_eq_some_iff.1 h
    obtain ⟨a1, a2, a3, t, ht, a4, a5⟩ := straight_through (hq x (by simp)) hp h1
    obtain ⟨b1, b2, b3, t', ht', b4, b5⟩ := straight_fly (fun y hy => hq y (by simp [hy])) (by rw [a1]; exact hp) h2
    refine ⟨b1.trans a1, b2.trans a2, b3.trans a3, t + t', by positivity, ?_, ?_⟩
    · rw [b4, a4, a2]; ring
    · rw [b5, a5, a3]; ring

theorem fly_append (inside : A → Set (ℝ × ℝ)) (d : Dict A) : ∀ (a b : List String) (p : Part),
    fly inside d (a ++ b) p = (fly inside d a p).bind (fly inside d b)
  | [], b, p => rfl
  | n :: a, b, p => by
    rw [List.cons_append, fly, fly, Option.bind_assoc]
    congr 1
    funext q
    exact fly_append inside d a b q

theorem fly_in {inside : A → Set (ℝ × ℝ)} {d : Dict A} {n : String} {a : A} (i : IsAperture d n a) {l : List String} {p : Part}
    (h : (p.x, p.y) ∈ inside a) : fly inside d (n :: l) p = fly inside d l p := by
  rw [fly, show (d n).el = .aper a from i]
  unfold through
  simp only [if_pos h]
  rfl

theorem fly_out {inside : A → Set (ℝ × ℝ)} {d : Dict A} {n : String} {a : A} (i : IsAperture d n a) {l : List String} {p : Part}
    (h : (p.x, p.y) ∉ inside a) : fly inside d (n :: l) p = none := by
  rw [fly, show (d n).el = .aper a from i]
  unfold through
  simp only [if_neg h]
  rfl

/-- One aperture less. -/
theorem fly_skip {inside : A → Set (ℝ × ℝ)} {d : Dict A} {a : A} (hconv : Convex ℝ (inside a)) {u n v : String} {l1 q1 q2 l2 : List String}
    (iu : IsAperture d u a) (i : IsAperture d n a) (iv : IsAperture d v a) (hq : ∀ x ∈ q1 ++ q2, Straight d x) {p : Part}
    (hp : ∀ p', fly inside d l1 p = some p' → 0 ≤ p'.rpp) :
    fly inside d (l1 ++ u :: (q1 ++ n :: (q2 ++ v :: l2))) p = fly inside d (l1 ++ u :: (q1 ++ (q2 ++ v :: l2))) p := by
  rw [fly_append, fly_append]
  cases h1 : fly inside d l1 p with
  | none => rfl
  | some p1 =>
    have hp1 := hp p1 h1
    show fly inside d (u :: (q1 ++ n :: (q2 ++ v :: l2))) p1 = fly inside d (u :: (q1 ++ (q2 ++ v :: l2))) p1
    by_cases hin1 : (p1.x, p1.y) ∈ inside a
    case neg => rw [fly_out iu hin1, fly_out iu hin1]
    rw [fly_in iu hin1, fly_in iu hin1, fly_append, fly_append]
    cases h2 : fly inside d q1 p1 with
    | none => rfl
    | some p2 =>
      show fly inside d (n :: (q2 ++ v :: l2)) p2 = fly inside d (q2 ++ v :: l2) p2
      by_cases hin2 : (p2.x, p2.y) ∈ inside a
      · rw [fly_in i hin2]
      · rw [fly_out i hin2, fly_append]
        cases h3 : fly inside d q2 p2 with
        | none => rfl
        | some p3 =>
          show none = fly inside d (v :: l2) p3
          by_cases hin3 : (p3.x, p3.y) ∈ inside a
          case neg => rw [fly_out iv hin3]
          exfalso
          obtain ⟨a1, a2, a3, t, ht, a4, a5⟩ := straight_fly (fun y hy => hq y (by simp [hy])) hp1 h2
          obtain ⟨b1, b2, b3, t', ht', b4, b5⟩ := straight_fly (fun y hy => hq y (by simp [hy])) (by rw [a1]; exact hp1) h3
          apply hin2
          by_cases h0 : t + t' = 0
          · have : t = 0 := by linarith
            rw [a4, a5, this]
            simpa using hin1
          · have hpos : 0 < t + t' := lt_of_le_of_ne (by positivity) (Ne.symm h0)
            have := hconv hin1 hin3 (a := t' / (t + t')) (b := t / (t + t')) (by positivity) (by positivity)
              (by field_simp; ring)
            convert this using 1
            ext
            · simp only [Prod.fst_add, Prod.smul_fst, smul_eq_mul]
              rw [b4, a4, a2]; field_simp; ring
            · simp only [Prod.snd_add, Prod.smul_snd, smul_eq_mul]
              rw [b5, a5, a3]; field_simp; ring

/-- In a line without repeated names, with convex apertures, drifts of non-negative length and particles moving forward: the
clean-up changes for no particle whether it reaches the end, nor with which coordinates. -/
theorem C43_survive_partial [DecidableEq A] (inside : A → Set (ℝ × ℝ)) (d : Dict A) (keep need names out : List String)
    (hnd : names.Nodup) (hout : removeRedundant d keep need names = some out)
    (hconv : ∀ n ∈ names, ∀ a, IsAperture d n a → Convex ℝ (inside a))
    (hdrift : ∀ n ∈ names, ∀ ex l, (d n).el = .drift ex l → 0 ≤ l)
    (hfwd : ∀ n ∈ names, ∀ f, (d n).el = .active f → ∀ p p', 0 ≤ p.rpp → f p = some p' → 0 ≤ p'.rpp)
    (p : Part) (hp : 0 ≤ p.rpp) : fly inside d out p = fly inside d names p := by
  obtain ⟨out', ho, hsub, _, hred⟩ := C43_between_partial d keep need names hnd
  rw [hout] at ho
  cases ho
  -- particles always move forward
  have fwd : ∀ (l : List String), (∀ n ∈ l, n ∈ names) → ∀ p p', 0 ≤ p.rpp → fly inside d l p = some p' → 0 ≤ p'.rpp := by
    intro l
    induction l with
    | nil => intro _ p p' hp h; cases h; exact hp
    | cons n l ih =>
      intro hl p p' hp h
      unfold fly at h
      obtain ⟨p1, h1, h2⟩ := Option.bind_eq_some_iff.1 h
      refine ih (fun x hx => hl x (by simp [hx])) p1 p' ?_ h2
      cases he : (d n).el with
      | active f => rw [he] at h1; exact hfwd n (hl n (by simp)) f he p p1 hp h1
      | marker => rw [(straight_through (Or.inl he) hp h1).1]; exact hp
      | aper a => rw [(straight_through (Or.inr (Or.inl ⟨a, he⟩)) hp h1).1]; exact hp
      | drift ex k =>
        rw [(straight_through (Or.inr (Or.inr ⟨ex, k, he, hdrift n (hl n (by simp)) ex k he⟩)) hp h1).1]; exact hp
  -- taking the removed names away one after the other
  have step : ∀ (rem cur : List String), cur.Nodup → (∀ x ∈ cur, x ∈ names) → (∀ x ∈ rem, x ∉ out) →
      (∀ x ∈ cur, x ∉ out → Redundant d need cur out x) →
      fly inside d (cur.filter (fun x => decide (x ∉ rem))) p = fly inside d cur p := by
    intro rem
    induction rem with
    | nil => intro cur _ _ _ _; simp
    | cons r rem ih =>
      intro cur hcur hsubc hr hredc
      have hfil : cur.filter (fun x => decide (x ∉ r :: rem)) = (cur.filter (fun x => decide (x ≠ r))).filter (fun x => decide (x ∉ rem)) := by
        rw [List.filter_filter]
        apply List.filter_congr
        intro x _
        by_cases h1 : x = r <;> by_cases h2 : x ∈ rem <;> simp [h1, h2]
      rw [hfil, ih (cur.filter (fun x => decide (x ≠ r))) (hcur.filter _) (fun x hx => hsubc x (List.mem_of_mem_filter hx))
        (fun x hx => hr x (by simp [hx])) ?_]
      · by_cases hmem : r ∈ cur
        · obtain ⟨a, l1, u, q1, q2, v, l2, e, i, iu, iv, hu, hv, hq⟩ := hredc r hmem (hr r (by simp))
          have hc2 : cur.filter (fun x => decide (x ≠ r)) = l1 ++ u :: (q1 ++ (q2 ++ v :: l2)) := by
            have e' : cur = (l1 ++ u :: q1) ++ r :: (q2 ++ v :: l2) := by rw [e]; simp
            have hn2 := hcur
            rw [e'] at hn2
            have hd := List.nodup_append.1 hn2
            have h1 : ∀ x ∈ l1 ++ u :: q1, decide (x ≠ r) = true := by
              intro x hx
              simpa using hd.2.2 x hx r (by simp)
            have h2 : ∀ x ∈ q2 ++ v :: l2, decide (x ≠ r) = true := by
              intro x hx
              have := (List.nodup_cons.1 hd.2.1).1
              simp only [ne_eq, decide_not, Bool.not_eq_eq_eq_not, Bool.not_true, decide_eq_false_iff_not]
              rintro rfl
              exact this hx
            rw [e', List.filter_append, List.filter_eq_self.2 h1, List.filter_cons_of_neg (by simp), List.filter_eq_self.2 h2]
            simp
          rw [hc2, e]
          symm
          refine fly_skip (hconv r (hsubc r hmem) a i) iu i iv ?_ ?_
          · intro x hx
            have hxc : x ∈ cur := by
              rw [e]
              simp only [List.mem_append, List.mem_cons] at hx ⊢
              tauto
            rcases hq x hx with h1 | h1
            · rcases h1.2 with h2 | ⟨ex, l, h2⟩
              · exact Or.inl h2.1
              · exact Or.inr (Or.inr ⟨ex, l, h2, hdrift x (hsubc x hxc) ex l h2⟩)
            · obtain ⟨b, _, _, _, _, _, _, _, ib, _⟩ := hredc x hxc h1
              exact Or.inr (Or.inl ⟨b, ib⟩)
          · intro p' h'
            refine fwd l1 (fun x hx => hsubc x ?_) p p' hp h'
            rw [e]; simp [hx]
        · rw [List.filter_eq_self.2]
          intro x hx
          simp only [ne_eq, decide_not, Bool.not_eq_eq_eq_not, Bool.not_true, decide_eq_false_iff_not]
          rintro rfl
          exact hmem hx
      · intro x hx hx'
        obtain ⟨a, l1, u, q1, q2, v, l2, e, i, iu, iv, hu, hv, hq⟩ := hredc x (List.mem_of_mem_filter hx) hx'
        have hxr : x ≠ r := by simpa using (List.mem_filter.1 hx).2
        have hur : u ≠ r := by rintro rfl; exact hr u (by simp) hu
        have hvr : v ≠ r := by rintro rfl; exact hr v (by simp) hv
        refine ⟨a, l1.filter (fun x => decide (x ≠ r)), u, q1.filter (fun x => decide (x ≠ r)), q2.filter (fun x => decide (x ≠ r)), v,
          l2.filter (fun x => decide (x ≠ r)), ?_, i, iu, iv, hu, hv, ?_⟩
        · rw [e, List.filter_append, List.filter_cons_of_pos (by simpa using hur), List.filter_append,
            List.filter_cons_of_pos (by simpa using hxr), List.filter_append, List.filter_cons_of_pos (by simpa using hvr)]
        · intro y hy
          refine hq y ?_
          rw [← List.filter_append] at hy
          exact List.mem_of_mem_filter hy
  have hfin := step (names.filter (fun x => decide (x ∉ out))) names hnd (fun x hx => hx)
    (fun x hx => by simpa using (List.mem_filter.1 hx).2) hred
  rw [← hfin]
  congr 1
  have : out = names.filter (fun x => decide (x ∈ out)) := by
    symm
    have h1 : (names.filter (fun x => decide (x ∈ out))).Perm out := by
      apply (List.perm_ext_iff_of_nodup (hnd.filter _) (hsub.nodup hnd)).2
      intro x
      simp only [List.mem_filter, decide_eq_true_eq]
      exact ⟨fun h => h.2, fun h => ⟨hsub.subset h, h⟩⟩
    have h2 : out.Sublist (names.filter (fun x => decide (x ∈ out))) := by
      have := hsub.filter (fun x => decide (x ∈ out))
      rwa [List.filter_eq_self.2 (fun x hx => by simpa using hx)] at this
    exact (h2.eq_of_length h1.length_eq.symm).symm
  conv_lhs => rw [this]
  apply List.filter_congr
  intro x hx
  by_cases h : x ∈ out <;> simp [h, hx]

/-! ## Where the full statement fails, and cases that meet the hypotheses -/

/-- A particle at `(x, y)` going in the direction `(px, py)`. -/
noncomputable def ray (x y px py : ℝ) : Part :=
  { x := x, px := px, y := y, py := py, zeta := 0, s := 0, delta := 0, ptau := 0, rpp := 1, rvv := 1, beta0 := 1, chi := 1,
    spinX := 0, spinY := 0, spinZ := 0 }

/-- Names: `a…` the aperture, `d1`, `d2` drifts of length `s` and `t`, `k` an element that puts the particle on the axis. -/
noncomputable def demo (s t : ℝ) : Dict Unit := fun n =>
  if n = "d1" then ⟨false, .drift false s⟩
  else if n = "d2" then ⟨false, .drift false t⟩
  else if n = "m" then ⟨false, .marker⟩
  else if n = "k" then ⟨false, .active (fun p => some { p with x := 0, y := 0 })⟩
  else ⟨false, .aper ()⟩

/-- There is something to remove. -/
example (s t : ℝ) : ∃ names out, names.Nodup ∧ removeRedundant (demo s t) [] [] names = some out ∧ out ≠ names :=
  ⟨["k", "a1", "d1", "m", "a2", "d2", "a3", "k"].dedup, ["a1", "d1", "m", "d2", "a3", "k"], by decide, rfl, by decide⟩

/-- The element next to `a3` is active: `a3` stays, as `C43_adjacent_partial` says. -/
example (s t : ℝ) : ∃ out, removeRedundant (demo s t) [] [] ["a1", "d1", "a2", "d2", "a3", "m", "k"] = some out ∧ "a3" ∈ out :=
  ⟨["a1", "d1", "d2", "a3", "m", "k"], rfl, by decide⟩

/-- All the hypotheses of `C43_survive_partial` at once: a round opening, two drifts, an active element. -/
example (p : Part) (hp : 0 ≤ p.rpp) :
    fly (fun _ => Set.Icc (-1) 1 ×ˢ Set.univ) (demo 1 2) ["a1", "d1", "d2", "a3", "k"] p =
      fly (fun _ => Set.Icc (-1) 1 ×ˢ Set.univ) (demo 1 2) ["a1", "d1", "a2", "d2", "a3", "k"] p := by
  refine C43_survive_partial _ (demo 1 2) [] [] ["a1", "d1", "a2", "d2", "a3", "k"] _ (by decide) rfl ?_ ?_ ?_ p hp
  · intro _ _ _ _
    exact (convex_Icc (-1 : ℝ) 1).prod convex_univ
  · intro n hn ex l h
    simp only [List.mem_cons, List.not_mem_nil, or_false] at hn
    rcases hn with rfl | rfl | rfl | rfl | rfl | rfl <;> simp [demo] at h <;> rw [← h.2] <;> norm_num
  · intro n hn f h p p' hp hf
    simp only [List.mem_cons, List.not_mem_nil, or_false] at hn
    rcases hn with rfl | rfl | rfl | rfl | rfl | rfl <;> simp [demo] at h
    rw [← h] at hf
    cases hf
    exact hp

/-- With a name that is used several times it is the first one in the line that goes, wherever it is: here the aperture in front
of an active element, and a particle that was lost now reaches the end. -/
theorem C43_repeated_violated : ∃ (d : Dict Unit) (names out : List String) (inside : Unit → Set (ℝ × ℝ)) (p : Part),
    removeRedundant d [] [] names = some out ∧ Convex ℝ (inside ()) ∧
    out = ["k", "a", "d1", "a", "d2", "a"] ∧ names = "a" :: out.take 3 ++ ["a"] ++ out.drop 4 ∧
    fly inside d names p = none ∧ fly inside d out p ≠ none := by
  refine ⟨demo 1 1, ["a", "k", "a", "d1", "a", "d2", "a"], ["k", "a", "d1", "a", "d2", "a"], fun _ => Set.Icc (-1) 1 ×ˢ Set.univ,
    ray 2 0 0 0, rfl, (convex_Icc (-1 : ℝ) 1).prod convex_univ, rfl, rfl, ?_, ?_⟩
  · refine fly_out (a := ()) (by simp [IsAperture, demo]) ?_
    simp [ray]
  · have hk : through (fun _ : Unit => Set.Icc (-1 : ℝ) 1 ×ˢ (Set.univ : Set ℝ)) (demo 1 1 "k").el (ray 2 0 0 0) = some (ray 0 0 0 0) := by
      simp [through, demo, ray]
    have ha : ∀ p : Part, p.x = 0 → through (fun _ : Unit => Set.Icc (-1 : ℝ) 1 ×ˢ (Set.univ : Set ℝ)) (demo 1 1 "a").el p = some p := by
      intro p hp
      simp [through, demo, hp]
    have hd1 : ∀ p : Part, through (fun _ : Unit => Set.Icc (-1 : ℝ) 1 ×ˢ (Set.univ : Set ℝ)) (demo 1 1 "d1").el p = some (driftExpanded p 1) := by
      intro p
      simp [through, demo]
    have hd2 : ∀ p : Part, through (fun _ : Unit => Set.Icc (-1 : ℝ) 1 ×ˢ (Set.univ : Set ℝ)) (demo 1 1 "d2").el p = some (driftExpanded p 1) := by
      intro p
      simp [through, demo]
    have hx : ∀ p : Part, p.x = 0 → p.px = 0 → (driftExpanded p 1).x = 0 ∧ (driftExpanded p 1).px = 0 := by
      intro p h1 h2
      simp [driftExpanded, h1, h2]
    have h0 : (ray 0 0 0 0).x = 0 ∧ (ray 0 0 0 0).px = 0 := ⟨rfl, rfl⟩
    have h1 := hx _ h0.1 h0.2
    have h2 := hx _ h1.1 h1.2
    simp only [fly, hk, Option.bind_some, ha _ h0.1, hd1, ha _ h1.1, hd2, ha _ h2.1]
    simp

/-- Three equal apertures with two drifts between, tracked before and after. -/
theorem three_fly (S : Set (ℝ × ℝ)) (x y px py s t : ℝ) (h0 : (x, y) ∈ S) (h1 : (x + px * s, y + py * s) ∉ S)
    (h2 : (x + px * s + px * t, y + py * s + py * t) ∈ S) :
    fly (fun _ => S) (demo s t) ["a1", "d1", "a2", "d2", "a3"] (ray x y px py) = none ∧
    fly (fun _ => S) (demo s t) ["a1", "d1", "d2", "a3"] (ray x y px py) ≠ none := by
  have i : ∀ n, n ∈ ["a1", "a2", "a3"] → IsAperture (demo s t) n () := by
    intro n hn
    simp only [List.mem_cons, List.not_mem_nil, or_false] at hn
    rcases hn with rfl | rfl | rfl <;> simp [IsAperture, demo]
  have hd1 : ∀ (l : List String) (p : Part), fly (fun _ => S) (demo s t) ("d1" :: l) p = fly (fun _ => S) (demo s t) l (driftExpanded p s) := by
    intro l p
    simp [fly, through, demo]
  have hd2 : ∀ (l : List String) (p : Part), fly (fun _ => S) (demo s t) ("d2" :: l) p = fly (fun _ => S) (demo s t) l (driftExpanded p t) := by
    intro l p
    simp [fly, through, demo]
  have e1 : ∀ p : Part, p.rpp = 1 → (driftExpanded p s).x = p.x + p.px * s ∧ (driftExpanded p s).y = p.y + p.py * s := by
    intro p hp
    simp [driftExpanded, hp]
  have e2 : ∀ p : Part, p.rpp = 1 → (driftExpanded p t).x = p.x + p.px * t ∧ (driftExpanded p t).y = p.y + p.py * t := by
    intro p hp
    simp [driftExpanded, hp]
  constructor
  · rw [fly_in (i "a1" (by simp)) (by exact h0), hd1]
    refine fly_out (i "a2" (by simp)) ?_
    rw [(e1 _ rfl).1, (e1 _ rfl).2]
    exact h1
  · rw [fly_in (i "a1" (by simp)) (by exact h0), hd1, hd2, fly_in (i "a3" (by simp))]
    · simp [fly]
    · have : (driftExpanded (ray x y px py) s).rpp = 1 := rfl
      rw [(e2 _ this).1, (e2 _ this).2, (e1 _ rfl).1, (e1 _ rfl).2]
      exact h2

/-- The hypothesis on the shape is needed: for every opening that is not convex there are two drifts and a particle that is
lost in the line as it was and reaches the end after the clean-up. -/
theorem C43_concave_violated (S : Set (ℝ × ℝ)) (hS : ¬ Convex ℝ S) : ∃ (d : Dict Unit) (names out : List String) (p : Part),
    names.Nodup ∧ removeRedundant d [] [] names = some out ∧ (∀ n ex l, (d n).el = .drift ex l → 0 ≤ l) ∧
    fly (fun _ => S) d names p = none ∧ fly (fun _ => S) d out p ≠ none := by
  unfold Convex at hS
  simp only [StarConvex, not_forall] at hS
  obtain ⟨⟨x, y⟩, h0, ⟨x', y'⟩, h2, a, b, ha, hb, hab, h1⟩ := hS
  have hfl := three_fly S x y (x' - x) (y' - y) b a h0 ?_ ?_
  · refine ⟨demo b a, ["a1", "d1", "a2", "d2", "a3"], ["a1", "d1", "d2", "a3"], _, by decide, rfl, ?_, hfl.1, hfl.2⟩
    intro n ex l h
    unfold demo at h
    split at h
    · simp at h; rw [← h.2]; exact hb
    split at h
    · simp at h; rw [← h.2]; exact ha
    split at h
    · simp at h
    split at h <;> simp at h
  · convert h1 using 2
    have : a = 1 - b := by linarith
    subst this
    ext <;> simp <;> ring
  · convert h2 using 1
    have : a = 1 - b := by linarith
    subst this
    ext <;> simp <;> ring

/-- Nor can drifts of negative length be allowed. -/
theorem C43_negative_violated : ∃ (d : Dict Unit) (names out : List String) (S : Set (ℝ × ℝ)) (p : Part),
    names.Nodup ∧ removeRedundant d [] [] names = some out ∧ Convex ℝ S ∧
    fly (fun _ => S) d names p = none ∧ fly (fun _ => S) d out p ≠ none := by
  have hfl := three_fly (Set.Icc (-1) 1 ×ˢ Set.univ) 0 0 1 0 2 (-2) (by simp) (by simp) (by simp)
  exact ⟨demo 2 (-2), ["a1", "d1", "a2", "d2", "a3"], ["a1", "d1", "d2", "a3"], _, _, by decide, rfl,
    (convex_Icc (-1 : ℝ) 1).prod convex_univ, hfl.1, hfl.2⟩

end Verif.Cleanup
