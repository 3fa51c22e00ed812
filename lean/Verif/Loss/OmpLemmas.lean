import Verif.Loss.Lemmas
import Verif.Loss.Spec
/-! Auxiliary facts about the OpenMP variant (no property statements here). -/
namespace Verif.Loss
open Spec
variable {α : Type}

/-- Slot `k` of `l` is allocated. -/
def allocAt (l : List (Slot α)) (k : Nat) : Prop := ∃ s, l[k]? = some s ∧ -999999999 < s.state

/-- Allocated slots are a prefix of the arrays. -/
def AllocPrefix (l : List (Slot α)) : Prop := ∀ i j, i ≤ j → allocAt l j → allocAt l i

structure PartSpec (l : List (Slot α)) (lo hi : Nat) (l' : List (Slot α)) (flag : Bool) : Prop where
  perm : l'.Perm l
  len : l'.length = l.length
  frame : ∀ k, k < lo ∨ hi ≤ k → l'[k]? = l[k]?
  part : ∃ m, lo ≤ m ∧ m ≤ hi ∧ (∀ k, lo ≤ k → k < m → ∀ s, l'[k]? = some s → 0 < s.state) ∧
    (∀ k, m ≤ k → k < hi → ∀ s, l'[k]? = some s → s.state ≤ 0)
  flag_iff : flag = true ↔ ∃ k, lo ≤ k ∧ k < hi ∧ ∃ s, l'[k]? = some s ∧ 0 < s.state
  alloc : AllocPrefix l → ∀ k, allocAt l' k ↔ allocAt l k

theorem ompLoop_spec (l : List (Slot α)) (lo hi left right : Nat) (sw ha : Bool)
    (hhi : hi ≤ l.length) (hr : right < hi) (hlo : lo ≤ left) (hlr : left ≤ right + 1)
    (h2 : lo + 1 < hi)
    (hal : ∀ k, lo ≤ k → k < left → ∀ s, l[k]? = some s → 0 < s.state)
    (hde : ∀ k, right < k → k < hi → ∀ s, l[k]? = some s → s.state ≤ 0)
    (hfl : (sw || ha) = true ↔ lo < left)
    (hfirst : left = lo → right + 1 < hi → ∀ s, l[lo]? = some s → s.state ≤ 0) :
    PartSpec l lo hi (ompLoop l left right sw ha).1
      ((ompLoop l left right sw ha).2.1 || (ompLoop l left right sw ha).2.2) := by
  induction hd : right + 1 - left using Nat.strong_induction_on generalizing l left right sw ha with
  | _ d ih =>
    unfold ompLoop
    split
    · rename_i h
      have hL : left < l.length := by omega
      have hR : right < l.length := by omega
      rw [List.getElem?_eq_getElem hL, List.getElem?_eq_getElem hR]
      simp only
      split
      · rename_i ha1
        refine ih _ (by omega) l (left + 1) right sw true hhi hr (by omega) (by omega) ?_ hde ?_ ?_ rfl
        · intro k hk1 hk2 s hs
          by_cases hk : k = left
          · subst hk
            rw [List.getElem?_eq_getElem hL] at hs
            cases hs; exact ha1
          · exact hal k hk1 (by omega) s hs
        · simp; omega
        · intro hc; omega
      · rename_i ha1
        split
        · rename_i hb1
          refine ih _ (by omega) l left (right - 1) sw ha hhi (by omega) hlo (by omega) hal ?_ hfl ?_ rfl
          · intro k hk1 hk2 s hs
            by_cases hk : k = right
            · subst hk
              rw [List.getElem?_eq_getElem hR] at hs
              cases hs; exact hb1
            · exact hde k (by omega) hk2 s hs
          · intro hc _ s hs
            subst hc
            rw [List.getElem?_eq_getElem hL] at hs
            cases hs; omega
        · rename_i hb1
          have hge := exchange_getElem? l left right
          have key := ih _ (by omega) (exchange l left right) (left + 1) (right - 1) true ha
            (by rw [exchange_length]; exact hhi) (by omega) (by omega) (by omega) ?_ ?_ ?_ ?_ rfl
          · refine ⟨key.perm.trans (exchange_perm _ _ _), key.len.trans (exchange_length _ _ _), ?_,
              key.part, key.flag_iff, ?_⟩
            · intro k hk
              rw [key.frame k hk, hge k hL hR, if_neg (by omega), if_neg (by omega)]
            · intro hp
              have hallocR : allocAt l right := ⟨_, List.getElem?_eq_getElem hR, by omega⟩
              have hallocL : allocAt l left := hp left right (by omega) hallocR
              have hex : ∀ k, allocAt (exchange l left right) k ↔ allocAt l k := by
                intro k
                unfold allocAt
                rw [hge k hL hR]
                by_cases hk : k = right
                · subst hk
                  simp only [if_true]
                  exact ⟨fun _ => hallocR, fun _ => hallocL⟩
                · by_cases hk' : k = left
                  · subst hk'
                    simp only [hk, if_true, if_false]
                    exact ⟨fun _ => hallocL, fun _ => hallocR⟩
                  · simp [hk, hk']
              have hp' : AllocPrefix (exchange l left right) := by
                intro i j hij hj
                rw [hex] at hj ⊢
                exact hp i j hij hj
              intro k
              rw [key.alloc hp' k, hex]
          · intro k hk1 hk2 s hs
            rw [hge k hL hR, if_neg (by omega)] at hs
            by_cases hk : k = left
            · rw [if_pos hk, List.getElem?_eq_getElem hR] at hs
              cases hs; omega
            · rw [if_neg hk] at hs
              exact hal k hk1 (by omega) s hs
          · intro k hk1 hk2 s hs
            rw [hge k hL hR] at hs
            by_cases hk : k = right
            · rw [if_pos hk, List.getElem?_eq_getElem hL] at hs
              cases hs; omega
            · rw [if_neg hk, if_neg (by omega)] at hs
              exact hde k (by omega) hk2 s hs
          · simp; omega
          · intro hc; omega
    · rename_i h
      simp only
      have hpart : ∃ m, lo ≤ m ∧ m ≤ hi ∧
          (∀ k, lo ≤ k → k < m → ∀ s, l[k]? = some s → 0 < s.state) ∧
          (∀ k, m ≤ k → k < hi → ∀ s, l[k]? = some s → s.state ≤ 0) := by
        by_cases hcase : left = right
        · have hL : left < l.length := by omega
          by_cases hs : 0 < (l[left]).state
          · refine ⟨left + 1, by omega, by omega, ?_, fun k hk1 hk2 => hde k (by omega) hk2⟩
            intro k hk1 hk2 s hs'
            by_cases hk : k = left
            · subst hk
              rw [List.getElem?_eq_getElem hL] at hs'
              cases hs'; exact hs
            · exact hal k hk1 (by omega) s hs'
          · refine ⟨left, by omega, by omega, hal, ?_⟩
            intro k hk1 hk2 s hs'
            by_cases hk : k = left
            · subst hk
              rw [List.getElem?_eq_getElem hL] at hs'
              cases hs'; omega
            · exact hde k (by omega) hk2 s hs'
        · exact ⟨left, by omega, by omega, hal, fun k hk1 hk2 => hde k (by omega) hk2⟩
      refine ⟨List.Perm.refl _, rfl, fun _ _ => rfl, hpart, ?_, fun _ _ => Iff.rfl⟩
      rw [hfl]
      constructor
      · intro hlt
        have hL : lo < l.length := by omega
        exact ⟨lo, le_refl _, by omega, _, List.getElem?_eq_getElem hL,
          hal lo (le_refl _) hlt _ (List.getElem?_eq_getElem hL)⟩
      · rintro ⟨k, hk1, hk2, s, hs, hpos⟩
        by_contra hc
        have hleft : left = lo := by omega
        by_cases hk : k = lo
        · subst hk
          have := hfirst hleft (by omega) s hs
          omega
        · have := hde k (by omega) hk2 s hs
          omega

theorem ompCheck_spec (l : List (Slot α)) (lo hi : Nat) (hlo : lo ≤ hi) (hhi : hi ≤ l.length) :
    PartSpec l lo hi (ompCheckIsActive l lo hi).1 (ompCheckIsActive l lo hi).2 := by
  unfold ompCheckIsActive
  split
  · rename_i h
    have : hi = lo := by omega
    subst this
    refine ⟨List.Perm.refl _, rfl, fun _ _ => rfl, ⟨hi, le_refl _, le_refl _, ?_, ?_⟩, ?_,
      fun _ _ => Iff.rfl⟩
    · intro k h1 h2; omega
    · intro k h1 h2; omega
    · simp only [Bool.false_eq_true, false_iff]
      rintro ⟨k, h1, h2, _⟩; omega
  · split
    · rename_i h1 h2
      have hL : lo < l.length := by omega
      simp only [List.getElem?_eq_getElem hL]
      refine ⟨List.Perm.refl _, rfl, fun _ _ => rfl, ?_, ?_, fun _ _ => Iff.rfl⟩
      · by_cases hs : 0 < (l[lo]).state
        · refine ⟨hi, by omega, by omega, ?_, by intro k a b; omega⟩
          intro k a b s hs'
          have : k = lo := by omega
          subst this
          rw [List.getElem?_eq_getElem hL] at hs'
          cases hs'; exact hs
        · refine ⟨lo, by omega, by omega, by intro k a b; omega, ?_⟩
          intro k a b s hs'
          have : k = lo := by omega
          subst this
          rw [List.getElem?_eq_getElem hL] at hs'
          cases hs'; omega
      · rw [decide_eq_true_iff]
        constructor
        · intro hs
          exact ⟨lo, le_refl _, by omega, _, List.getElem?_eq_getElem hL, hs⟩
        · rintro ⟨k, a, b, s, hs, hp⟩
          have : k = lo := by omega
          subst this
          rw [List.getElem?_eq_getElem hL] at hs
          cases hs; exact hp
    · rename_i h1 h2
      exact ompLoop_spec l lo hi lo (hi - 1) false false hhi (by omega) (le_refl _) (by omega) (by omega)
        (by intro k a b; omega) (by intro k a b; omega) (by simp) (by intro _ h; omega)

/-- The slots `[lo, hi)`. -/
def seg (lo hi : Nat) (l : List (Slot α)) : List (Slot α) := (l.take hi).drop lo

theorem seg_congr (lo hi : Nat) (l l' : List (Slot α)) (h : ∀ k, lo ≤ k → k < hi → l'[k]? = l[k]?) :
    seg lo hi l' = seg lo hi l := by
  apply List.ext_getElem?
  intro i
  simp only [seg, List.getElem?_drop, List.getElem?_take]
  split
  · exact h _ (by omega) (by assumption)
  · rfl

theorem split3 (lo hi : Nat) (hlo : lo ≤ hi) (l : List (Slot α)) :
    l = l.take lo ++ (seg lo hi l ++ l.drop hi) := by
  unfold seg
  rw [← List.append_assoc]
  have : l.take lo ++ (l.take hi).drop lo = l.take hi := by
    have h := List.take_append_drop lo (l.take hi)
    rw [List.take_take, Nat.min_eq_left hlo] at h
    exact h
  rw [this, List.take_append_drop]

theorem seg_mem (lo hi : Nat) (l : List (Slot α)) (s : Slot α) :
    s ∈ seg lo hi l ↔ ∃ k, lo ≤ k ∧ k < hi ∧ l[k]? = some s := by
  rw [List.mem_iff_getElem?]
  simp only [seg, List.getElem?_drop, List.getElem?_take]
  constructor
  · rintro ⟨i, hi'⟩
    split at hi'
    · exact ⟨lo + i, by omega, by assumption, hi'⟩
    · simp at hi'
  · rintro ⟨k, h1, h2, h3⟩
    refine ⟨k - lo, ?_⟩
    rw [show lo + (k - lo) = k by omega, if_pos h2]
    exact h3

theorem take_congr (lo : Nat) (l l' : List (Slot α)) (h : ∀ k < lo, l'[k]? = l[k]?) :
    l'.take lo = l.take lo := by
  apply List.ext_getElem?
  intro i
  simp only [List.getElem?_take]
  split
  · exact h _ (by assumption)
  · rfl

theorem drop_congr (hi : Nat) (l l' : List (Slot α)) (h : ∀ k, hi ≤ k → l'[k]? = l[k]?) :
    l'.drop hi = l.drop hi := by
  apply List.ext_getElem?
  intro i
  simp only [List.getElem?_drop]
  exact h _ (by omega)

theorem seg_perm {lo hi : Nat} {l l' : List (Slot α)} (hlo : lo ≤ hi) (hp : l'.Perm l)
    (hf : ∀ k, k < lo ∨ hi ≤ k → l'[k]? = l[k]?) : (seg lo hi l').Perm (seg lo hi l) := by
  have h1 := split3 lo hi hlo l
  have h2 := split3 lo hi hlo l'
  rw [take_congr lo l l' (fun k hk => hf k (Or.inl hk)),
    drop_congr hi l l' (fun k hk => hf k (Or.inr hk))] at h2
  rw [h2] at hp
  conv at hp => rhs; rw [h1]
  rw [List.perm_append_left_iff, List.perm_append_right_iff] at hp
  exact hp

/-- What an operation on the chunk `[lo, hi)` does: `F` on every particle of the chunk, up to order,
and nothing outside. -/
structure ChunkSpec (F : Slot α → Slot α) (lo hi : Nat) (l l' : List (Slot α)) : Prop where
  len : l'.length = l.length
  frame : ∀ k, k < lo ∨ hi ≤ k → l'[k]? = l[k]?
  mid : (seg lo hi l').Perm ((seg lo hi l).map F)
  alloc : AllocPrefix l → ∀ k, allocAt l' k ↔ allocAt l k

theorem allocPrefix_of_iff {l l' : List (Slot α)} (h : ∀ k, allocAt l' k ↔ allocAt l k)
    (hp : AllocPrefix l) : AllocPrefix l' := by
  intro i j hij hj
  rw [h] at hj ⊢
  exact hp i j hij hj

theorem ChunkSpec.trans {F G : Slot α → Slot α} {lo hi : Nat} {l l' l'' : List (Slot α)}
    (h1 : ChunkSpec F lo hi l l') (h2 : ChunkSpec G lo hi l' l'') :
    ChunkSpec (G ∘ F) lo hi l l'' := by
  refine ⟨h2.len.trans h1.len, fun k hk => (h2.frame k hk).trans (h1.frame k hk), ?_, ?_⟩
  · refine h2.mid.trans ((h1.mid.map G).trans ?_)
    rw [List.map_map]
  · intro hp k
    rw [h2.alloc (allocPrefix_of_iff (h1.alloc hp) hp) k, h1.alloc hp k]

theorem ChunkSpec.congr {F G : Slot α → Slot α} {lo hi : Nat} {l l' : List (Slot α)}
    (h1 : ChunkSpec F lo hi l l') (h : ∀ s ∈ seg lo hi l, F s = G s) : ChunkSpec G lo hi l l' :=
  ⟨h1.len, h1.frame, h1.mid.trans (List.Perm.of_eq (List.map_congr_left h)), h1.alloc⟩

theorem ChunkSpec.refl (lo hi : Nat) (l : List (Slot α)) : ChunkSpec id lo hi l l :=
  ⟨rfl, fun _ _ => rfl, by rw [List.map_id], fun _ _ => Iff.rfl⟩

theorem PartSpec.chunk {lo hi : Nat} {l l' : List (Slot α)} {b : Bool} (hlo : lo ≤ hi)
    (h : PartSpec l lo hi l' b) : ChunkSpec id lo hi l l' :=
  ⟨h.len, h.frame, by rw [List.map_id]; exact seg_perm hlo h.perm h.frame, h.alloc⟩

theorem PartSpec.dead {lo hi : Nat} {l l' : List (Slot α)} (h : PartSpec l lo hi l' false) :
    ∀ s ∈ seg lo hi l', ¬ 0 < s.state := by
  intro s hs hpos
  rw [seg_mem] at hs
  obtain ⟨k, h1, h2, h3⟩ := hs
  exact absurd (h.flag_iff.mpr ⟨k, h1, h2, s, h3, hpos⟩) (by simp)

theorem ompPerParticle_spec (f : Slot α → Slot α) (lo hi : Nat) (l : List (Slot α))
    (hf : ∀ s : Slot α, 0 < s.state → -999999999 < (f s).state) :
    ChunkSpec (onAlive f) lo hi l (ompPerParticle f lo hi l) := by
  have hg : ∀ k, (ompPerParticle f lo hi l)[k]? =
      l[k]?.map (fun s => if lo ≤ k ∧ k < hi ∧ 0 < s.state then f s else s) := by
    intro k
    simp [ompPerParticle, List.getElem?_mapIdx]
  refine ⟨by simp [ompPerParticle], ?_, ?_, ?_⟩
  · intro k hk
    rw [hg]
    have : ∀ s : Slot α, ¬ (lo ≤ k ∧ k < hi ∧ 0 < s.state) := by rintro s ⟨a, b, c⟩; omega
    simp [this]
  · apply List.Perm.of_eq
    apply List.ext_getElem?
    intro i
    simp only [seg, List.getElem?_drop, List.getElem?_take, List.getElem?_map]
    split
    · rename_i h
      rw [hg]
      congr 1
      funext s
      by_cases hs : 0 < s.state <;> simp [onAlive, hs, h]
    · rfl
  · intro _ k
    unfold allocAt
    rw [hg]
    cases hk : l[k]? with
    | none => simp
    | some s =>
      simp only [Option.map_some, Option.some.injEq, exists_eq_left']
      split
      · rename_i h
        have := hf s h.2.2
        have h3 := h.2.2
        constructor
        · intro _; omega
        · intro _; exact this
      · rfl

theorem alongTurns_dead (els : List (Elem α)) (b : Bool) (n : Nat) (t : Slot α)
    (ht : ¬ 0 < t.state) : alongTurns els b n t = t := by
  cases n <;> simp [alongTurns, Alive, ht]

/-- Elements never mark a particle as unallocated. -/
def Sane (els : List (Elem α)) : Prop := ∀ e ∈ els, ∀ s, -999999999 < (e s).1

theorem ompElemLoop_spec (lo hi : Nat) (hlo : lo ≤ hi) (es : List (Elem α)) (l : List (Slot α))
    (hhi : hi ≤ l.length) (hsane : Sane es) :
    ChunkSpec (onAlive (alongElements es)) lo hi l (ompElemLoop lo hi es l).1 ∧
    ((ompElemLoop lo hi es l).2 = false →
      ∀ s ∈ seg lo hi (ompElemLoop lo hi es l).1, ¬ 0 < s.state) := by
  induction es generalizing l with
  | nil =>
    refine ⟨(ChunkSpec.refl lo hi l).congr ?_, by simp [ompElemLoop]⟩
    intro s _; simp [onAlive, alongElements]
  | cons e es ih =>
    have hp := ompPerParticle_spec (applyElem e) lo hi l
      (fun s _ => hsane e List.mem_cons_self s)
    have hc := ompCheck_spec (ompPerParticle (applyElem e) lo hi l) lo hi hlo (by rw [hp.len]; exact hhi)
    simp only [ompElemLoop]
    generalize hr : ompCheckIsActive (ompPerParticle (applyElem e) lo hi l) lo hi = r at hc
    obtain ⟨r1, r2⟩ := r
    simp only at hc
    have h1 := hp.trans (hc.chunk hlo)
    cases r2 with
    | true =>
      simp only [if_true]
      have hi' := ompPerParticle_spec incAtElement lo hi r1
        (fun s hs => by simp only [incAtElement]; omega)
      obtain ⟨i1, i2⟩ := ih (ompPerParticle incAtElement lo hi r1)
        (by rw [hi'.len, h1.len]; exact hhi) (fun e' he' => hsane e' (List.mem_cons_of_mem _ he'))
      refine ⟨((h1.trans hi').trans i1).congr ?_, i2⟩
      intro s _
      simp only [Function.comp, onAlive, alongElements, applyElem, incAtElement, through, Alive, id]
      by_cases g1 : 0 < s.state <;> by_cases g2 : 0 < (e s).1 <;> simp [g1, g2]
    | false =>
      simp only [Bool.false_eq_true, if_false]
      refine ⟨h1.congr ?_, fun _ => hc.dead⟩
      intro s hs
      have hm : onAlive (applyElem e) s ∈ seg lo hi r1 := by
        have := h1.mid.symm.mem_iff.mp (List.mem_map_of_mem hs)
        simpa using this
      have := hc.dead _ hm
      by_cases g1 : 0 < s.state
      · simp only [onAlive, g1, if_true, applyElem] at this
        simp [onAlive, g1, this, alongElements, applyElem, through, Alive]
      · simp [onAlive, g1]

theorem ompTurnLoop_spec (lo hi : Nat) (hlo : lo ≤ hi) (els : List (Elem α)) (endTurn : Bool) (n : Nat)
    (l : List (Slot α)) (act : Bool) (hhi : hi ≤ l.length) (hsane : Sane els)
    (hact : act = false → ∀ s ∈ seg lo hi l, ¬ 0 < s.state) :
    ChunkSpec (alongTurns els endTurn n) lo hi l (ompTurnLoop lo hi els endTurn n l act) := by
  induction n generalizing l act with
  | zero =>
    refine (ChunkSpec.refl lo hi l).congr ?_
    intro s _; simp [alongTurns]
  | succ n ih =>
    cases act with
    | false =>
      simp only [ompTurnLoop, Bool.false_eq_true, if_false]
      refine (ChunkSpec.refl lo hi l).congr ?_
      intro s hs
      rw [alongTurns_dead _ _ _ _ (hact rfl s hs)]; rfl
    | true =>
      obtain ⟨e1, e2⟩ := ompElemLoop_spec lo hi hlo els l hhi hsane
      simp only [ompTurnLoop, if_true]
      generalize hr : ompElemLoop lo hi els l = r at *
      obtain ⟨q, b⟩ := r
      simp only at e1 e2
      have hq : hi ≤ q.length := by rw [e1.len]; exact hhi
      cases b with
      | true =>
        simp only
        cases endTurn with
        | true =>
          simp only [if_true]
          have hi' := ompPerParticle_spec incAtTurn lo hi q
            (fun s hs => by simp only [incAtTurn]; omega)
          have i1 := ih (ompPerParticle incAtTurn lo hi q) true (by rw [hi'.len]; exact hq) (by simp)
          refine ((e1.trans hi').trans i1).congr ?_
          intro s _
          simp only [Function.comp, onAlive]
          by_cases h1 : 0 < s.state
          · by_cases h2 : 0 < (alongElements els s).state
            · simp [h1, h2, alongTurns, Alive, incAtTurn]
            · simp [h1, h2, alongTurns, Alive, alongTurns_dead _ _ _ _ h2]
          · simp [h1, alongTurns, Alive, alongTurns_dead _ _ _ _ h1]
        | false =>
          simp only [Bool.false_eq_true, if_false]
          have i1 := ih q true hq (by simp)
          refine (e1.trans i1).congr ?_
          intro s _
          simp only [Function.comp, onAlive]
          by_cases h1 : 0 < s.state
          · by_cases h2 : 0 < (alongElements els s).state
            · simp [h1, h2, alongTurns, Alive]
            · simp [h1, h2, alongTurns, Alive, alongTurns_dead _ _ _ _ h2]
          · simp [h1, alongTurns, Alive, alongTurns_dead _ _ _ _ h1]
      | false =>
        simp only
        have i1 := ih q false hq (fun _ => e2 rfl)
        refine (e1.trans i1).congr ?_
        intro s hs
        have hm := e2 rfl _ (e1.mid.symm.mem_iff.mp (List.mem_map_of_mem hs))
        simp only [Function.comp, onAlive] at hm ⊢
        by_cases h1 : 0 < s.state
        · simp only [h1, if_true] at hm ⊢
          simp [h1, hm, alongTurns, Alive, alongTurns_dead _ _ _ _ hm]
        · simp [h1, alongTurns, Alive, alongTurns_dead _ _ _ _ h1]

theorem ompChunk_spec (els : List (Elem α)) (endTurn : Bool) (n lo hi : Nat) (l : List (Slot α))
    (hlo : lo ≤ hi) (hhi : hi ≤ l.length) (hsane : Sane els) :
    ChunkSpec (alongTurns els endTurn n) lo hi l (ompChunk els endTurn n lo hi l) := by
  have hc := ompCheck_spec l lo hi hlo hhi
  unfold ompChunk
  generalize ompCheckIsActive l lo hi = r at hc
  obtain ⟨r1, r2⟩ := r
  simp only at hc ⊢
  refine ((hc.chunk hlo).trans (ompTurnLoop_spec lo hi hlo els endTurn n r1 r2
    (by rw [hc.len]; exact hhi) hsane ?_)).congr (fun _ _ => rfl)
  rintro rfl
  exact hc.dead

/-- An empty chunk does nothing, whatever its bounds. -/
theorem ompChunk_empty (els : List (Elem α)) (endTurn : Bool) (n lo hi : Nat) (l : List (Slot α))
    (h : hi ≤ lo) : ompChunk els endTurn n lo hi l = l := by
  unfold ompChunk ompCheckIsActive
  rw [if_pos h]
  cases n <;> simp [ompTurnLoop]

/-- Counting over a prefix-allocated array. -/
theorem countLoop_spec (l : List (Slot α)) (a b : Nat) (h : AllocPrefix l) :
    countLoop l (a, b) =
      (a + l.countP (fun s => decide (0 < s.state)),
       b + l.countP (fun s => decide (-999999999 < s.state ∧ s.state ≤ 0))) := by
  induction l generalizing a b with
  | nil => simp [countLoop]
  | cons s l ih =>
    have htail : AllocPrefix l := by
      intro i j hij hj
      have : allocAt (s :: l) (j + 1) := by simpa [allocAt] using hj
      simpa [allocAt] using h (i + 1) (j + 1) (by omega) this
    unfold countLoop
    split
    · rename_i hs
      have hnone : ∀ t ∈ l, ¬ -999999999 < t.state := by
        intro t ht hpos
        obtain ⟨k, hk⟩ := List.mem_iff_getElem?.mp ht
        have : allocAt (s :: l) (k + 1) := ⟨t, by simpa using hk, hpos⟩
        obtain ⟨s', h1, h2⟩ := h 0 (k + 1) (by omega) this
        simp at h1; subst h1; omega
      have c1 : (s :: l).countP (fun s => decide (0 < s.state)) = 0 := by
        rw [List.countP_eq_zero]
        intro t ht
        rcases List.mem_cons.mp ht with rfl | ht
        · simp; omega
        · have := hnone t ht; simp; omega
      have c2 : (s :: l).countP (fun s => decide (-999999999 < s.state ∧ s.state ≤ 0)) = 0 := by
        rw [List.countP_eq_zero]
        intro t ht
        rcases List.mem_cons.mp ht with rfl | ht
        · simp; omega
        · have := hnone t ht; simp; omega
      rw [c1, c2]
      rfl
    · rename_i hs
      split
      · rename_i h0
        have h0' : ¬ s.state ≤ 0 := by omega
        rw [ih _ _ htail]
        simp [h0, h0']
        omega
      · rename_i h0
        have h0' : s.state ≤ 0 := by omega
        have h1' : -999999999 < s.state := by omega
        rw [ih _ _ htail]
        simp [h0, h0', h1']
        omega

end Verif.Loss
