import Verif.Composer.Resolve
import Mathlib.Tactic.Linarith
import Mathlib.Tactic.Ring
import Mathlib.Tactic.Push
import Mathlib.Data.List.Basic

/-! Lemmas about position resolution. -/

namespace Verif.Composer

/-- Chain of dependencies that ends at a place with an absolute position or at the first place. -/
inductive Grounded (ps : List Place) : Nat → Prop
  | first (p) : ps[0]? = some p → p.at_ = none → Grounded ps 0
  | next (i p) : ps[i + 1]? = some p → p.at_ = none → Grounded ps i → Grounded ps (i + 1)
  | absolute (i p) : ps[i]? = some p → p.at_ ≠ none → p.from_ = none → Grounded ps i
  | relative (i j p q) : ps[i]? = some p → p.at_ ≠ none → p.from_ = some q.name → ps[j]? = some q → Grounded ps j →
      Grounded ps i

variable (ps : List Place) (len : String → ℝ) (refer : Anchor)

/-- The entry of place `i` in the state is the one demanded, in terms of other entries. -/
def Meets' (st : RSt) (i : Nat) (p : Place) : Prop :=
  match p.at_, p.from_ with
  | none, _ => (i = 0 ∧ st.s 0 = some 0) ∨
      (0 < i ∧ ∃ q v, ps[i - 1]? = some q ∧ st.s (i - 1) = some v ∧ st.s i = some (v + len q.name))
  | some a, none => st.s i = some (a - offset (p.anchor.getD refer) (len p.name))
  | some a, some f => ∃ j q v, ps[j]? = some q ∧ q.name = f ∧ st.s j = some v ∧
      st.s i = some (v + offset (p.fromAnchor.getD refer) (len q.name) + a - offset (p.anchor.getD refer) (len p.name)) ∧
      st.ref i = some (j, p.fromAnchor)

structure Inv (st : RSt) : Prop where
  meets : ∀ i p, ps[i]? = some p → st.s i ≠ none → Meets' ps len refer st i p
  grounded : ∀ i, st.s i ≠ none → Grounded ps i
  last : ∀ f r, st.last f = some r → ∃ q, ps[r]? = some q ∧ q.name = f ∧ st.s r ≠ none
  known : ∀ i p, ps[i]? = some p → st.s i ≠ none → st.last p.name ≠ none
  first : ∀ p, ps[0]? = some p → p.at_ = none → st.s 0 ≠ none
  refs : ∀ i j a, st.s i ≠ none → st.ref i = some (j, a) → st.s j ≠ none
  acyclic : ∀ C : List Nat, C ≠ [] → ¬ ∀ c ∈ C, st.s c ≠ none ∧ ∃ d ∈ C, ∃ a, st.ref c = some (d, a)

/-- `st'` keeps what `st` has resolved. -/
def Le (st st' : RSt) : Prop := ∀ i, st.s i ≠ none → st'.s i = st.s i ∧ st'.ref i = st.ref i

theorem Le.refl (st : RSt) : Le st st := fun _ _ => ⟨rfl, rfl⟩

theorem Le.trans {a b c : RSt} (h1 : Le a b) (h2 : Le b c) : Le a c := by
  intro i hi
  have h := h1 i hi
  have h' := h2 i (by rw [h.1]; exact hi)
  exact ⟨h'.1.trans h.1, h'.2.trans h.2⟩

theorem Meets'.mono {st st' : RSt} (h : Le st st') {i : Nat} {p : Place} (hi : st.s i ≠ none)
    (hm : Meets' ps len refer st i p) : Meets' ps len refer st' i p := by
  unfold Meets' at hm ⊢
  have hi' := h i hi
  split
  · next ha =>
    simp only [ha] at hm
    rcases hm with ⟨h0, hs⟩ | ⟨h0, q, v, hq, hv, hs⟩
    · left; refine ⟨h0, ?_⟩; subst h0; rw [hi'.1]; exact hs
    · right; refine ⟨h0, q, v, hq, ?_, ?_⟩
      · rw [(h (i - 1) (by simp [hv])).1]; exact hv
      · rw [hi'.1]; exact hs
  · next a ha hf => simp only [ha, hf] at hm; rw [hi'.1]; exact hm
  · next a f ha hf =>
    simp only [ha, hf] at hm
    obtain ⟨j, q, v, hq, hn, hv, hs, hr⟩ := hm
    refine ⟨j, q, v, hq, hn, ?_, ?_, ?_⟩
    · rw [(h j (by simp [hv])).1]; exact hv
    · rw [hi'.1]; exact hs
    · rw [hi'.2]; exact hr

theorem inv_init : Inv ps len refer (init ps) := by
  cases ps with
  | nil => constructor <;> simp [init] <;> exact fun C hC => List.exists_mem_of_ne_nil C hC
  | cons p0 ps =>
    obtain ⟨n, a, f, an, fa⟩ := p0
    cases a with
    | some a => constructor <;> simp [init] <;> exact fun C hC => List.exists_mem_of_ne_nil C hC
    | none =>
      constructor
      · intro i p hp hi
        have : i = 0 := by by_contra h; simp [init, h] at hi
        subst this
        simp at hp; subst hp
        simp [Meets', init]
      · intro i hi
        have : i = 0 := by by_contra h; simp [init, h] at hi
        subst this
        exact .first ⟨n, none, f, an, fa⟩ rfl rfl
      · intro g r h
        simp only [init] at h
        split at h
        · next hg => cases h; exact ⟨_, rfl, by simp [hg], by simp [init]⟩
        · cases h
      · intro i p hp hi
        have : i = 0 := by by_contra h; simp [init, h] at hi
        subst this
        simp at hp; subst hp
        simp [init]
      · intro p hp ha; simp [init]
      · intro i j a _ h; simp [init] at h
      · intro C hC h
        obtain ⟨c, hc⟩ := List.exists_mem_of_ne_nil C hC
        obtain ⟨-, d, -, a, h⟩ := h c hc
        simp [init] at h

theorem le_put (st : RSt) (i : Nat) (n : String) (s : ℝ) (r : Option (Nat × Option Anchor)) (h : st.s i = none) :
    Le st (st.put i n s r) := by
  intro j hj
  have : j ≠ i := by rintro rfl; exact hj h
  simp [RSt.put, this]

/-- What `visit` does: nothing, or it fills an empty entry. -/
theorem visit_cases (st : RSt) (i : Nat) :
    visit ps len refer st i = st ∨
      (st.s i = none ∧ ∃ p s r, ps[i]? = some p ∧ position ps len refer st i p = some (s, r) ∧
        visit ps len refer st i = st.put i p.name s r) := by
  unfold visit
  split
  · left; rfl
  · next h =>
    split
    · left; rfl
    · next p hp =>
      split
      · left; rfl
      · next s r hpos => right; exact ⟨h, p, s, r, hp, hpos, rfl⟩

theorem inv_visit (st : RSt) (i : Nat) (hI : Inv ps len refer st) : Inv ps len refer (visit ps len refer st i) := by
  rcases visit_cases ps len refer st i with h | ⟨hi, p, s, r, hp, hpos, h⟩
  · rw [h]; exact hI
  · rw [h]
    have hle := le_put st i p.name s r hi
    have hself : (st.put i p.name s r).s i = some s := by simp [RSt.put]
    have hr : ∀ j a, r = some (j, a) → st.s j ≠ none := by
      intro j a hr
      unfold position at hpos
      split at hpos
      · split at hpos
        · next sp prev hsp hprev =>
          simp only [Option.some.injEq, Prod.mk.injEq] at hpos
          rw [← hpos.2] at hr
          split at hr
          · cases hr
          · simp only [Option.some.injEq, Prod.mk.injEq] at hr
            rw [← hr.1, hsp]; simp
        · cases hpos
      · split at hpos
        · simp only [Option.some.injEq, Prod.mk.injEq] at hpos
          rw [← hpos.2] at hr; cases hr
        · split at hpos
          · cases hpos
          · split at hpos
            · next pr sr hpr hsr =>
              simp only [Option.some.injEq, Prod.mk.injEq] at hpos
              rw [← hpos.2] at hr
              simp only [Option.some.injEq, Prod.mk.injEq] at hr
              rw [← hr.1, hsr]; simp
            · cases hpos
    have hm : Meets' ps len refer (st.put i p.name s r) i p ∧ Grounded ps i := by
      unfold position at hpos
      unfold Meets'
      split at hpos
      · next ha =>
        simp only [ha]
        split at hpos
        · next sp prev hsp hprev =>
          simp only [Option.some.injEq, Prod.mk.injEq] at hpos
          have hne : i ≠ 0 := by
            rintro rfl
            exact hI.first p hp ha hi
          obtain ⟨k, rfl⟩ := Nat.exists_eq_succ_of_ne_zero hne
          simp only [Nat.succ_eq_add_one, Nat.add_sub_cancel] at hsp hprev hpos ⊢
          refine ⟨Or.inr ⟨Nat.succ_pos k, prev, sp, hprev, ?_, ?_⟩, ?_⟩
          · rw [(hle k (by simp [hsp])).1]; exact hsp
          · rw [hself, ← hpos.1]
          · exact .next k p hp ha (hI.grounded k (by simp [hsp]))
        · cases hpos
      · next a ha =>
        split at hpos
        · next hf =>
          simp only [ha, hf]
          simp only [Option.some.injEq, Prod.mk.injEq] at hpos
          exact ⟨by rw [hself, ← hpos.1], .absolute i p hp (by simp [ha]) hf⟩
        · next f hf =>
          simp only [ha, hf]
          split at hpos
          · cases hpos
          · next j hj =>
            obtain ⟨q, hq, hqn, hqs⟩ := hI.last f j hj
            split at hpos
            · next pr sr hpr hsr =>
              rw [hq] at hpr; cases hpr
              simp only [Option.some.injEq, Prod.mk.injEq] at hpos
              refine ⟨⟨j, q, sr, hq, hqn, ?_, ?_, ?_⟩, ?_⟩
              · rw [(hle j hqs).1]; exact hsr
              · rw [hself, ← hpos.1]
              · simp [RSt.put, ← hpos.2]
              · exact .relative i j p q hp (by simp [ha]) (by rw [hf, hqn]) hq (hI.grounded j hqs)
            · cases hpos
    constructor
    · intro j q hq hj
      by_cases hji : j = i
      · subst hji; rw [hp] at hq; cases hq; exact hm.1
      · have hj' : st.s j ≠ none := by simpa [RSt.put, hji] using hj
        exact (hI.meets j q hq hj').mono ps len refer hle hj'
    · intro j hj
      by_cases hji : j = i
      · subst hji; exact hm.2
      · exact hI.grounded j (by simpa [RSt.put, hji] using hj)
    · intro f k hk
      simp only [RSt.put] at hk
      split at hk
      · next hf => cases hk; exact ⟨p, hp, hf.symm, by simp [RSt.put]⟩
      · obtain ⟨q, hq, hqn, hqs⟩ := hI.last f k hk
        exact ⟨q, hq, hqn, by rw [(hle k hqs).1]; exact hqs⟩
    · intro j q hq hj
      by_cases hji : j = i
      · subst hji; rw [hp] at hq; cases hq; simp [RSt.put]
      · have hj' : st.s j ≠ none := by simpa [RSt.put, hji] using hj
        have := hI.known j q hq hj'
        simp only [RSt.put]; split
        · simp
        · exact this
    · intro q hq ha
      have := hI.first q hq ha
      rw [(hle 0 this).1]; exact this
    · intro c d a hc hd
      have key : st.s d ≠ none := by
        by_cases hci : c = i
        · subst hci
          exact hr d a (by simpa [RSt.put] using hd)
        · exact hI.refs c d a (by simpa [RSt.put, hci] using hc) (by simpa [RSt.put, hci] using hd)
      rw [(hle d key).1]; exact key
    · intro C hC hall
      have hold : ∀ c ∈ C, ∃ d ∈ C, d ≠ i ∧ (c ≠ i → st.s c ≠ none ∧ ∃ a, st.ref c = some (d, a)) := by
        intro c hc
        obtain ⟨hcs, d, hd, a, hda⟩ := hall c hc
        by_cases hci : c = i
        · refine ⟨d, hd, ?_, fun h => absurd hci h⟩
          rintro rfl
          subst hci
          exact hr c a (by simpa [RSt.put] using hda) hi
        · have hcs' : st.s c ≠ none := by simpa [RSt.put, hci] using hcs
          have hda' : st.ref c = some (d, a) := by simpa [RSt.put, hci] using hda
          refine ⟨d, hd, ?_, fun _ => ⟨hcs', a, hda'⟩⟩
          rintro rfl
          exact hI.refs c d a hcs' hda' hi
      apply hI.acyclic (C.filter (fun c => c ≠ i))
      · obtain ⟨c, hc⟩ := List.exists_mem_of_ne_nil C hC
        obtain ⟨d, hd, hdi, -⟩ := hold c hc
        exact List.ne_nil_of_mem (List.mem_filter.mpr ⟨hd, by simpa using hdi⟩)
      · intro c hc
        rw [List.mem_filter] at hc
        obtain ⟨d, hd, hdi, h⟩ := hold c hc.1
        obtain ⟨h1, a, h2⟩ := h (by simpa using hc.2)
        exact ⟨h1, d, List.mem_filter.mpr ⟨hd, by simpa using hdi⟩, a, h2⟩

theorem le_visit (st : RSt) (i : Nat) : Le st (visit ps len refer st i) := by
  rcases visit_cases ps len refer st i with h | ⟨hi, p, s, r, hp, hpos, h⟩
  · rw [h]; exact Le.refl st
  · rw [h]; exact le_put st i p.name s r hi

theorem fold_spec (l : List Nat) (st : RSt) (hI : Inv ps len refer st) :
    Inv ps len refer (l.foldl (visit ps len refer) st) ∧ Le st (l.foldl (visit ps len refer) st) := by
  induction l generalizing st with
  | nil => exact ⟨hI, Le.refl st⟩
  | cons a l ih =>
    have := ih _ (inv_visit ps len refer st a hI)
    exact ⟨this.1, (le_visit ps len refer st a).trans this.2⟩

/-- A scan that resolves nothing changes nothing. -/
theorem fold_stuck (l : List Nat) (st : RSt) (hI : Inv ps len refer st)
    (h : ∀ i ∈ l, (l.foldl (visit ps len refer) st).s i ≠ none → st.s i ≠ none) :
    ∀ i ∈ l, visit ps len refer st i = st := by
  induction l generalizing st with
  | nil => simp
  | cons a l ih =>
    have ha : visit ps len refer st a = st := by
      rcases visit_cases ps len refer st a with h' | ⟨hi, p, s, r, hp, hpos, h'⟩
      · exact h'
      · exfalso
        have h1 := h a (by simp)
        apply h1 _ hi
        have h2 := (fold_spec ps len refer l _ (inv_visit ps len refer st a hI)).2 a (by rw [h']; simp [RSt.put])
        rw [List.foldl_cons, h2.1, h']
        simp [RSt.put]
    intro i hi
    rw [List.mem_cons] at hi
    rcases hi with rfl | hi
    · exact ha
    · apply ih st hI _ i hi
      intro j hj
      have := h j (by simp [hj])
      rwa [List.foldl_cons, ha] at this

theorem inv_scan (st : RSt) (hI : Inv ps len refer st) : Inv ps len refer (scanAll ps len refer st) :=
  (fold_spec ps len refer _ st hI).1

theorem unresolved_le (st : RSt) (hI : Inv ps len refer st) :
    List.Sublist ((List.range ps.length).filter (fun i => ((scanAll ps len refer st).s i).isNone))
      ((List.range ps.length).filter (fun i => (st.s i).isNone)) := by
  apply List.monotone_filter_right
  intro i hi
  have hle := (fold_spec ps len refer (List.range ps.length) st hI).2 i
  show (st.s i).isNone = true
  by_contra hn
  have : st.s i ≠ none := by simpa using hn
  have h2 := hle this
  change ((scanAll ps len refer st).s i = _ ∧ _) at h2
  rw [h2.1] at hi
  exact hn hi

/-- After the outer loop no place can be resolved any more. -/
theorem outer_spec (k : Nat) (st : RSt) (hI : Inv ps len refer st) (hk : unresolved ps st < k) :
    Inv ps len refer (outer ps len refer k st) ∧
      ∀ i < ps.length, visit ps len refer (outer ps len refer k st) i = outer ps len refer k st := by
  induction k generalizing st with
  | zero => omega
  | succ k ih =>
    have hI' := inv_scan ps len refer st hI
    unfold outer
    split
    · next hlt => exact ih _ hI' (by omega)
    · next hge =>
      have hsub := unresolved_le ps len refer st hI
      have heq := hsub.eq_of_length (le_antisymm hsub.length_le (not_lt.mp hge))
      have hst : ∀ i ∈ List.range ps.length, visit ps len refer st i = st := by
        apply fold_stuck ps len refer _ st hI
        intro i hi hsome
        by_contra hn
        have hmem : i ∈ (List.range ps.length).filter (fun i => (st.s i).isNone) := by
          rw [List.mem_filter]; exact ⟨hi, by simp [hn]⟩
        rw [← heq, List.mem_filter] at hmem
        have := hmem.2
        change ((scanAll ps len refer st).s i ≠ none) at hsome
        simp at this
        exact hsome this
      have hsc : scanAll ps len refer st = st := by
        unfold scanAll
        generalize List.range ps.length = l at hst
        induction l with
        | nil => rfl
        | cons a l ihl =>
          rw [List.foldl_cons, hst a (by simp)]
          exact ihl (fun i hi => hst i (by simp [hi]))
      rw [hsc]
      exact ⟨hI, fun i hi => hst i (List.mem_range.mpr hi)⟩

theorem unresolved_init : unresolved ps (init ps) < ps.length + 1 := by
  unfold unresolved
  have := List.length_filter_le (fun i => ((init ps).s i).isNone) (List.range ps.length)
  rw [List.length_range] at this
  omega

/-- A grounded place is resolved when nothing can be resolved any more. -/
theorem resolved_of_grounded (st : RSt) (hI : Inv ps len refer st)
    (hst : ∀ i < ps.length, visit ps len refer st i = st) (i : Nat) (hg : Grounded ps i) : st.s i ≠ none := by
  have key : ∀ i p, ps[i]? = some p → st.s i = none → position ps len refer st i p = none := by
    intro i p hp hn
    by_contra hpos
    obtain ⟨sr, hsr⟩ := Option.ne_none_iff_exists'.mp hpos
    have hlt : i < ps.length := by
      by_contra hge
      rw [List.getElem?_eq_none (by omega)] at hp; cases hp
    have := hst i hlt
    unfold visit at this
    rw [hn] at this
    simp only [hp, hsr] at this
    have h2 := congrArg (fun t => t.s i) this
    simp [RSt.put, hn] at h2
  induction hg with
  | first p hp ha => exact hI.first p hp ha
  | next i p hp ha _ ih =>
    intro hn
    have := key _ p hp hn
    obtain ⟨v, hv⟩ := Option.ne_none_iff_exists'.mp ih
    have hlt : i < ps.length := by
      by_contra hge
      rw [List.getElem?_eq_none (by omega)] at hp; cases hp
    simp [position, ha, hv, List.getElem?_eq_getElem hlt] at this
  | absolute i p hp ha hf =>
    intro hn
    have := key _ p hp hn
    obtain ⟨v, hv⟩ := Option.ne_none_iff_exists'.mp ha
    simp [position, hv, hf] at this
  | relative i j p q hp ha hf hq _ ih =>
    intro hn
    have h1 := key _ p hp hn
    obtain ⟨v, hv⟩ := Option.ne_none_iff_exists'.mp ha
    obtain ⟨r, hr⟩ := Option.ne_none_iff_exists'.mp (hI.known j q hq ih)
    obtain ⟨q', hq', -, hs'⟩ := hI.last _ _ hr
    obtain ⟨w, hw⟩ := Option.ne_none_iff_exists'.mp hs'
    simp [position, hv, hf, hr, hq', hw] at h1

/-- Final state of the resolution. -/
noncomputable def final : RSt := outer ps len refer (ps.length + 1) (init ps)

theorem final_inv : Inv ps len refer (final ps len refer) :=
  (outer_spec ps len refer _ _ (inv_init ps len refer) (unresolved_init ps)).1

theorem final_grounded (i : Nat) (hg : Grounded ps i) : (final ps len refer).s i ≠ none :=
  resolved_of_grounded ps len refer _ (final_inv ps len refer)
    (outer_spec ps len refer _ _ (inv_init ps len refer) (unresolved_init ps)).2 i hg

theorem resolve_eq_some (rows : List Row) (h : resolve ps len refer = some rows) :
    (∀ p ∈ ps, p.consistent) ∧ (∀ i < ps.length, (final ps len refer).s i ≠ none) ∧
      ∀ i : Nat, rows[i]? = ps[i]?.map (fun p => ⟨p.name, ((final ps len refer).s i).getD 0, (final ps len refer).ref i⟩) := by
  unfold resolve at h
  split at h
  · cases h
  · next hc =>
    push Not at hc
    simp only at h
    split at h
    · cases h
    · next hu =>
      push Not at hu
      simp only [Option.some.injEq] at h
      refine ⟨hc, hu, ?_⟩
      intro i
      rw [← h, List.getElem?_map, List.getElem?_zipIdx]
      cases ps[i]? <;> simp [final]

end Verif.Composer
