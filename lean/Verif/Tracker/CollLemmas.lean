import Verif.Tracker.Props

/-!
# Auxiliary facts on collective tracking
-/

namespace Verif.Tracker

/-- First element of a part. -/
def Part.lo : Part → Nat
  | .nc a _ => a
  | .co i => i

/-- One past the last element of a part. -/
def Part.hi : Part → Nat
  | .nc _ b => b
  | .co i => i + 1

/-- The parts are consecutive, not empty, and go from `lo` to `hi`. -/
def chain : Nat → List Part → Nat → Prop
  | lo, [], hi => lo = hi
  | lo, p :: ps, hi => p.lo = lo ∧ p.lo < p.hi ∧ chain p.hi ps hi

theorem chain_append (lo mid hi : Nat) (ps qs : List Part) (h1 : chain lo ps mid) (h2 : chain mid qs hi) :
    chain lo (ps ++ qs) hi := by
  induction ps generalizing lo with
  | nil => have : lo = mid := h1; subst this; exact h2
  | cons p ps ih => exact ⟨h1.1, h1.2.1, ih _ h1.2.2⟩

theorem chain_lower (lo hi : Nat) (ps : List Part) (h : chain lo ps hi) : ∀ p ∈ ps, lo ≤ p.lo ∧ p.lo < p.hi := by
  induction ps generalizing lo with
  | nil => intro p hp; simp at hp
  | cons q ps ih =>
    intro p hp
    obtain ⟨h1, h2, h3⟩ := h
    rcases List.mem_cons.mp hp with rfl | hp
    · omega
    · have := ih _ h3 p hp; omega

theorem chain_le (lo hi : Nat) (ps : List Part) (h : chain lo ps hi) : lo ≤ hi := by
  induction ps generalizing lo with
  | nil => exact Nat.le_of_eq h
  | cons q ps ih => have := ih _ h.2.2; have := h.1; have := h.2.1; omega

theorem chain_pairwise (lo hi : Nat) (ps : List Part) (h : chain lo ps hi) :
    ps.Pairwise (fun q r => q.hi ≤ r.lo) := by
  induction ps generalizing lo with
  | nil => exact List.Pairwise.nil
  | cons q ps ih =>
    refine List.Pairwise.cons ?_ (ih _ h.2.2)
    intro r hr
    exact (chain_lower _ _ _ h.2.2 r hr).1

theorem chain_lt (lo hi : Nat) (ps : List Part) (h : chain lo ps hi) (j k : Nat) (q r : Part)
    (hj : ps[j]? = some q) (hk : ps[k]? = some r) (hjk : j < k) : q.hi ≤ r.lo := by
  have hp := chain_pairwise lo hi ps h
  rw [List.pairwise_iff_getElem] at hp
  obtain ⟨h1, h1'⟩ := List.getElem?_eq_some_iff.mp hj
  obtain ⟨h2, h2'⟩ := List.getElem?_eq_some_iff.mp hk
  have := hp j k h1 h2 hjk
  rw [h1', h2'] at this
  exact this

/-- Element `i` is found where `_element_part` and `_element_index_in_part` say. -/
def Located (parts : List Part) (eP : List Nat) (eI : List (Option Nat)) (i : Nat) : Prop :=
  ∃ k p, eP[i]? = some k ∧ parts[k]? = some p ∧
    ((∃ lo hi, p = .nc lo hi ∧ lo ≤ i ∧ i < hi ∧ eI[i]? = some (some (i - lo))) ∨ (p = .co i ∧ eI[i]? = some none))

theorem Located.append {parts : List Part} {eP : List Nat} {eI : List (Option Nat)} {i : Nat}
    (h : Located parts eP eI i) (x : List Part) (y : List Nat) (z : List (Option Nat)) :
    Located (parts ++ x) (eP ++ y) (eI ++ z) i := by
  obtain ⟨k, p, h1, h2, h3⟩ := h
  have g : ∀ {α : Type} (l l' : List α) (n : Nat) (v : α), l[n]? = some v → (l ++ l')[n]? = some v := by
    intro α l l' n v hv
    obtain ⟨hlt, _⟩ := List.getElem?_eq_some_iff.mp hv
    rw [List.getElem?_append_left hlt, hv]
  refine ⟨k, p, g _ _ _ _ h1, g _ _ _ _ h2, ?_⟩
  rcases h3 with ⟨lo, hi, a, b, c, d⟩ | ⟨a, b⟩
  · exact Or.inl ⟨lo, hi, a, b, c, g _ _ _ _ d⟩
  · exact Or.inr ⟨a, g _ _ _ _ b⟩

/-- The kind of the elements agrees with the kind of the part. -/
def KindOk (line : List Bool) (p : Part) : Prop :=
  match p with
  | .nc a b => ∀ i, a ≤ i → i < b → line[i]? = some false
  | .co i => line[i]? = some true

theorem KindOk.append {line : List Bool} {p : Part} (h : KindOk line p) (l : List Bool) : KindOk (line ++ l) p := by
  have g : ∀ (n : Nat) (v : Bool), line[n]? = some v → (line ++ l)[n]? = some v := by
    intro n v hv
    obtain ⟨hlt, _⟩ := List.getElem?_eq_some_iff.mp hv
    rw [List.getElem?_append_left hlt, hv]
  cases p with
  | nc a b => intro i h1 h2; exact g _ _ (h i h1 h2)
  | co i => exact g _ _ h

/-- What holds before each iteration of the splitting loop; `c` is the first element of the open
part. -/
structure SplitInv (line : List Bool) (s : Split) (c : Nat) : Prop where
  idx : s.idx = line.length
  cle : c ≤ s.idx
  this : s.this = List.range' c (s.idx - c)
  iInPart : s.iInPart = s.idx - c
  chain : chain 0 s.parts c
  iPart : s.iPart = s.parts.length
  lenP : s.elementPart.length = s.idx
  lenI : s.elementIndex.length = s.idx
  done : ∀ i, i < c → Located s.parts s.elementPart s.elementIndex i
  openP : ∀ i, c ≤ i → i < s.idx → s.elementPart[i]? = some s.iPart ∧ s.elementIndex[i]? = some (some (i - c))
  kinds : ∀ p ∈ s.parts, KindOk line p
  openKind : ∀ i, c ≤ i → i < s.idx → line[i]? = some false

theorem closePart_range (c n : Nat) (h : 0 < n) : closePart (List.range' c n) = [.nc c (c + n)] := by
  obtain ⟨m, rfl⟩ : ∃ m, n = m + 1 := ⟨n - 1, by omega⟩
  rw [List.range'_succ]
  simp only [closePart]
  congr 2
  have : (c :: List.range' (c + 1) m) = List.range' c m ++ [c + m] := by
    rw [← List.range'_succ, List.range'_concat]
    simp
  simp only [this, List.getLast_append]
  simp
  omega

theorem getElem?_concat {α : Type} (l : List α) (v : α) (n : Nat) (h : l.length = n) : (l ++ [v])[n]? = some v := by
  subst h; simp

theorem getElem?_append_lt {α : Type} (l l' : List α) (n : Nat) (h : n < l.length) : (l ++ l')[n]? = l[n]? :=
  List.getElem?_append_left h

/-- The parts after closing the open one. -/
theorem close_inv (line : List Bool) (s : Split) (c : Nat) (h : SplitInv line s c) :
    chain 0 (s.parts ++ closePart s.this) s.idx ∧
    (s.parts ++ closePart s.this).length = (if s.this.length > 0 then s.iPart + 1 else s.iPart) ∧
    (∀ i, i < s.idx → Located (s.parts ++ closePart s.this) s.elementPart s.elementIndex i) ∧
    (∀ p ∈ s.parts ++ closePart s.this, KindOk line p) := by
  by_cases hc : c = s.idx
  · have ht : s.this = [] := by rw [h.this, hc]; simp
    rw [ht]
    simp only [closePart, List.append_nil, List.length_nil, Nat.lt_irrefl, if_false, gt_iff_lt]
    refine ⟨hc ▸ h.chain, h.iPart.symm, ?_, h.kinds⟩
    intro i hi
    exact h.done i (by omega)
  · have hpos : 0 < s.idx - c := by have := h.cle; omega
    have hcl : closePart s.this = [.nc c s.idx] := by
      rw [h.this, closePart_range c _ hpos]
      congr 2
      have := h.cle; omega
    have hlen : s.this.length > 0 := by rw [h.this]; simpa using hpos
    rw [hcl, if_pos hlen]
    refine ⟨?_, ?_, ?_, ?_⟩
    · exact chain_append 0 c s.idx _ _ h.chain ⟨rfl, by show c < s.idx; omega, rfl⟩
    · simp [h.iPart]
    · intro i hi
      by_cases hic : i < c
      · have := (h.done i hic).append [.nc c s.idx] [] []
        simpa using this
      · obtain ⟨h1, h2⟩ := h.openP i (by omega) hi
        refine ⟨s.iPart, .nc c s.idx, h1, ?_, Or.inl ⟨c, s.idx, rfl, by omega, hi, h2⟩⟩
        exact getElem?_concat _ _ _ h.iPart.symm
    · intro p hp
      rcases List.mem_append.mp hp with hp | hp
      · exact h.kinds p hp
      · rw [List.mem_singleton.mp hp]
        intro i h1 h2
        exact h.openKind i h1 h2

theorem splitStep_inv (line : List Bool) (s : Split) (c : Nat) (b : Bool) (h : SplitInv line s c) :
    ∃ c', SplitInv (line ++ [b]) (splitStep s b) c' := by
  cases b with
  | false =>
    refine ⟨c, ?_⟩
    have hs : splitStep s false =
        ⟨s.parts, s.elementPart ++ [s.iPart], s.elementIndex ++ [some s.iInPart], s.this ++ [s.idx],
          s.iInPart + 1, s.iPart, s.idx + 1⟩ := rfl
    rw [hs]
    have hcle := h.cle
    constructor
    · show s.idx + 1 = _; rw [h.idx]; simp
    · show c ≤ s.idx + 1; omega
    · show s.this ++ [s.idx] = List.range' c (s.idx + 1 - c)
      rw [h.this, show s.idx + 1 - c = (s.idx - c) + 1 by omega, List.range'_concat]
      congr 2; omega
    · show s.iInPart + 1 = s.idx + 1 - c; rw [h.iInPart]; omega
    · exact h.chain
    · exact h.iPart
    · show (s.elementPart ++ [s.iPart]).length = s.idx + 1; simp [h.lenP]
    · show (s.elementIndex ++ [some s.iInPart]).length = s.idx + 1; simp [h.lenI]
    · intro i hi
      have := (h.done i hi).append [] [s.iPart] [some s.iInPart]
      simpa using this
    · intro i h1 h2
      have h2' : i < s.idx + 1 := h2
      show (s.elementPart ++ [s.iPart])[i]? = some s.iPart ∧ (s.elementIndex ++ [some s.iInPart])[i]? = some (some (i - c))
      by_cases hi : i < s.idx
      · rw [getElem?_append_lt _ _ _ (by rw [h.lenP]; exact hi), getElem?_append_lt _ _ _ (by rw [h.lenI]; exact hi)]
        exact h.openP i h1 hi
      · have : i = s.idx := by omega
        subst this
        rw [getElem?_concat _ _ _ h.lenP, getElem?_concat _ _ _ h.lenI, h.iInPart]
        exact ⟨rfl, rfl⟩
    · intro p hp; exact (h.kinds p hp).append _
    · intro i h1 h2
      have h2' : i < s.idx + 1 := h2
      by_cases hi : i < s.idx
      · rw [getElem?_append_lt _ _ _ (by rw [← h.idx]; exact hi)]
        exact h.openKind i h1 hi
      · have : i = s.idx := by omega
        subst this
        exact getElem?_concat _ _ _ h.idx.symm
  | true =>
    refine ⟨s.idx + 1, ?_⟩
    obtain ⟨k1, k2, k3, k4⟩ := close_inv line s c h
    have hs : splitStep s true =
        ⟨s.parts ++ closePart s.this ++ [.co s.idx],
          s.elementPart ++ [if s.this.length > 0 then s.iPart + 1 else s.iPart],
          s.elementIndex ++ [none], [], 0,
          (if s.this.length > 0 then s.iPart + 1 else s.iPart) + 1, s.idx + 1⟩ := rfl
    rw [hs, ← k2]
    constructor
    · show s.idx + 1 = _; rw [h.idx]; simp
    · exact Nat.le_refl _
    · show [] = List.range' (s.idx + 1) (s.idx + 1 - (s.idx + 1)); simp
    · show 0 = s.idx + 1 - (s.idx + 1); omega
    · exact chain_append 0 s.idx (s.idx + 1) _ _ k1 ⟨rfl, Nat.lt_succ_self _, rfl⟩
    · show _ = (s.parts ++ closePart s.this ++ [Part.co s.idx]).length
      rw [List.length_append (as := s.parts ++ closePart s.this)]; rfl
    · show (s.elementPart ++ [_]).length = s.idx + 1; simp [h.lenP]
    · show (s.elementIndex ++ [_]).length = s.idx + 1; simp [h.lenI]
    · intro i hi
      by_cases hlt : i < s.idx
      · exact (k3 i hlt).append [.co s.idx] _ [none]
      · have : i = s.idx := by omega
        subst this
        exact ⟨_, .co s.idx, getElem?_concat _ _ _ h.lenP, getElem?_concat _ _ _ rfl,
          Or.inr ⟨rfl, getElem?_concat _ _ _ h.lenI⟩⟩
    · intro i h1 h2
      have h2' : i < s.idx + 1 := h2
      omega
    · intro p hp
      rcases List.mem_append.mp hp with hp | hp
      · exact (k4 p hp).append _
      · rw [List.mem_singleton.mp hp]
        exact getElem?_concat _ _ _ h.idx.symm
    · intro i h1 h2
      have h2' : i < s.idx + 1 := h2
      omega

theorem split_inv (done line : List Bool) (s : Split) (c : Nat) (h : SplitInv done s c) :
    ∃ c', SplitInv (done ++ line) (line.foldl splitStep s) c' := by
  induction line generalizing done s c with
  | nil => exact ⟨c, by simpa using h⟩
  | cons b line ih =>
    obtain ⟨c', h'⟩ := splitStep_inv done s c b h
    have := ih (done ++ [b]) (splitStep s b) c' h'
    simpa using this

theorem splitParts_spec (line : List Bool) :
    chain 0 (splitParts line).1 line.length ∧
    (∀ i, i < line.length → Located (splitParts line).1 (splitParts line).2.1 (splitParts line).2.2 i) ∧
    (∀ p ∈ (splitParts line).1, KindOk line p) := by
  have h0 : SplitInv [] ⟨[], [], [], [], 0, 0, 0⟩ 0 := by
    constructor <;> simp [chain]
  obtain ⟨c, h⟩ := split_inv [] line _ 0 h0
  rw [List.nil_append] at h
  obtain ⟨k1, _, k3, k4⟩ := close_inv line _ c h
  have hidx := h.idx
  refine ⟨?_, ?_, k4⟩
  · rw [hidx] at k1; exact k1
  · intro i hi
    exact k3 i (by rw [hidx]; exact hi)

/-! ## One part -/

/-- A session whose parts come from splitting a line. -/
structure WF (s : Session) : Prop where
  chain : chain 0 s.parts s.L
  loc : ∀ i, i < s.L → Located s.parts s.elementPart s.elementIndex i
  start : s.start < s.L

theorem loc_cmp {s : Session} (wf : WF s) (i ipp : Nat) (p : Part) (hi : i < s.L) (hp : s.parts[ipp]? = some p) :
    ∃ k, s.elementPart[i]? = some k ∧ (i < p.lo → k < ipp) ∧ (p.hi ≤ i → ipp < k) ∧
      (p.lo ≤ i → i < p.hi → k = ipp) ∧ (k = ipp → p.lo ≤ i ∧ i < p.hi) := by
  obtain ⟨k, q, h1, h2, h3⟩ := wf.loc i hi
  have hq : q.lo ≤ i ∧ i < q.hi := by
    rcases h3 with ⟨lo, hi', rfl, a, b, _⟩ | ⟨rfl, _⟩
    · exact ⟨a, b⟩
    · exact ⟨Nat.le_refl _, Nat.lt_succ_self _⟩
  have e1 : k < ipp → q.hi ≤ p.lo := chain_lt _ _ _ wf.chain k ipp q p h2 hp
  have e2 : ipp < k → p.hi ≤ q.lo := chain_lt _ _ _ wf.chain ipp k p q hp h2
  have e3 : k = ipp → q = p := by
    intro h; subst h; rw [h2] at hp; exact Option.some.inj hp
  have hpl := (chain_lower _ _ _ wf.chain p (List.mem_of_getElem? hp)).2
  refine ⟨k, h1, ?_, ?_, ?_, ?_⟩
  · intro h
    rcases Nat.lt_trichotomy k ipp with h' | h' | h'
    · exact h'
    · have := e3 h'; subst this; omega
    · have := e2 h'; omega
  · intro h
    rcases Nat.lt_trichotomy k ipp with h' | h' | h'
    · have := e1 h'; omega
    · have := e3 h'; subst this; omega
    · exact h'
  · intro ha hb
    rcases Nat.lt_trichotomy k ipp with h' | h' | h'
    · have := e1 h'; omega
    · exact h'
    · have := e2 h'; omega
  · intro h
    have := e3 h
    subst this
    exact hq

theorem loc_index {s : Session} (wf : WF s) (i ipp : Nat) (p : Part) (hi : i < s.L) (hp : s.parts[ipp]? = some p)
    (h1 : p.lo ≤ i) (h2 : i < p.hi) :
    (∃ lo hi, p = .nc lo hi ∧ s.elementIndex[i]? = some (some (i - lo))) ∨
      (p = .co i ∧ s.elementIndex[i]? = some none) := by
  obtain ⟨k, q, g1, g2, g3⟩ := wf.loc i hi
  obtain ⟨k', c1, _, _, c2, _⟩ := loc_cmp wf i ipp p hi hp
  have hk : k = k' := Option.some.inj (g1.symm.trans c1)
  have : k = ipp := by rw [hk]; exact c2 h1 h2
  subst this
  rw [g2] at hp
  have := Option.some.inj hp
  subst this
  rcases g3 with ⟨lo, hi, a, _, _, b⟩ | ⟨a, b⟩
  · exact Or.inl ⟨lo, hi, a, b⟩
  · exact Or.inr ⟨a, b⟩

theorem track_inside (L a n : Nat) (h : a + n ≤ L) :
    track L false false false none ⟨some a, none, some n, none⟩ = some (eles a n) := by
  have h1 : startElement L none ⟨some a, none, some n, none⟩ = some a := by
    simp only [startElement, Option.bind_eq_bind, Option.bind_some, Option.getD_some]
    rw [if_pos (by omega)]
  have h2 : splitTurns L a ⟨some a, none, some n, none⟩ = some ⟨n, 0, 0⟩ := by
    simp only [splitTurns, Option.isSome_none]
    rw [if_neg (by simp), if_neg (by simp), if_pos (by omega)]
  rw [track_fwd L a false false none _ _ h1 h2]
  simp [monL, endL, rep]

theorem track_endTurn (L : Nat) (e : Bool) :
    track L false false e none ⟨some L, none, some 0, none⟩ = some (endL e) := by
  have h1 : startElement L none ⟨some L, none, some 0, none⟩ = some L := by
    simp only [startElement, Option.bind_eq_bind, Option.bind_some, Option.getD_some]
    rw [if_pos (Nat.le_refl L)]
  have h2 : splitTurns L L ⟨some L, none, some 0, none⟩ = some ⟨0, 0, 0⟩ := by
    simp only [splitTurns, Option.isSome_none]
    rw [if_neg (by simp), if_neg (by simp), if_pos (by omega)]
  rw [track_fwd L L false e none _ _ h1 h2]
  simp [monL, rep, eles]

/-- The stop point in turn `tt`, if there is one. -/
def stopB (s : Session) (tt : Nat) : Option Nat :=
  match s.stop with
  | none => none
  | some b => if b < s.L ∧ tt + 1 = s.numTurns then some b else none

/-- First element tracked in turn `tt`. -/
def startA (s : Session) (tt : Nat) : Nat := if tt = 0 then s.start else 0

theorem stopB_some {s : Session} {tt b : Nat} (h : stopB s tt = some b) :
    s.stop = some b ∧ b < s.L ∧ tt + 1 = s.numTurns := by
  unfold stopB at h
  split at h
  · exact absurd h (by simp)
  · rename_i v hv
    split at h
    · rename_i hc
      have := Option.some.inj h
      subst this
      exact ⟨hv, hc.1, hc.2⟩
    · exact absurd h (by simp)

theorem stopHere_iff {s : Session} (wf : WF s) (tt ipp : Nat) (p : Part) (hp : s.parts[ipp]? = some p) :
    stopHere s tt ipp = true ↔ ∃ b, stopB s tt = some b ∧ p.lo ≤ b ∧ b < p.hi := by
  unfold stopHere stopB
  cases s.stop with
  | none => simp
  | some b =>
    simp only [Bool.and_eq_true, decide_eq_true_eq, beq_iff_eq]
    constructor
    · rintro ⟨⟨h1, h2⟩, h3⟩
      refine ⟨b, if_pos ⟨h1, h2⟩, ?_⟩
      obtain ⟨k, g1, _, _, _, g2⟩ := loc_cmp wf b ipp p h1 hp
      rw [g1] at h3
      exact g2 (Option.some.inj h3)
    · rintro ⟨b', h, h1, h2⟩
      split at h
      · rename_i hc
        have := Option.some.inj h
        subst this
        obtain ⟨k, g1, _, _, g2, _⟩ := loc_cmp wf b ipp p hc.1 hp
        exact ⟨hc, by rw [g1, g2 h1 h2]⟩
      · exact absurd h (by simp)

/-- Start and stop of the session are in order, and a session of zero elements does not start on a
collective element. -/
structure Ordered (s : Session) : Prop where
  le : ∀ b, stopB s 0 = some b → s.start ≤ b
  notCo : ∀ b, stopB s 0 = some b → s.start = b → s.elementIndex[b]? ≠ some none

theorem trackNC_eq (s : Session) (ps pe i n : Nat) (h : ps + i + n = pe) (hL : pe ≤ s.L) :
    trackNC s ps pe (some i) none none = some (eles (ps + i) n) := by
  unfold trackNC
  simp only
  rw [if_neg (by omega), show pe - (ps + i) = n by omega]
  exact track_inside _ _ _ (by omega)

theorem trackPart_spec {s : Session} (wf : WF s) (ord : Ordered s) (tt ipp : Nat) (p : Part)
    (hp : s.parts[ipp]? = some p) (hL : p.hi ≤ s.L) :
    trackPart s p tt ipp [] = some (
      if p.hi ≤ startA s tt then ⟨[], false, true, [], false⟩
      else if (stopB s tt).any (fun b => decide (p.lo ≤ b ∧ b < p.hi)) then
        ⟨eles (max p.lo (startA s tt)) ((stopB s tt).getD 0 - max p.lo (startA s tt)), true, false, [], false⟩
      else ⟨eles (max p.lo (startA s tt)) (p.hi - max p.lo (startA s tt)), false, false, [], false⟩) := by
  have hlo : p.lo < p.hi := (chain_lower _ _ _ wf.chain p (List.mem_of_getElem? hp)).2
  obtain ⟨ks, cs, c1, c2, c3, c4⟩ := loc_cmp wf s.start ipp p wf.start hp
  have hstop := stopHere_iff wf tt ipp p hp
  have hany : (stopB s tt).any (fun b => decide (p.lo ≤ b ∧ b < p.hi)) = true ↔
      ∃ b, stopB s tt = some b ∧ p.lo ≤ b ∧ b < p.hi := by
    cases stopB s tt <;> simp
  unfold trackPart
  rw [cs]
  simp only [Option.getD_some]
  by_cases hskip : p.hi ≤ startA s tt
  · have htt : tt = 0 := by
      unfold startA at hskip
      split at hskip
      · assumption
      · omega
    rw [if_pos hskip, if_pos]
    refine ⟨htt, c2 ?_⟩
    unfold startA at hskip
    rw [if_pos htt] at hskip
    exact hskip
  · rw [if_neg hskip]
    have hns : ¬ (tt = 0 ∧ ipp < ks) := by
      rintro ⟨htt, hlt⟩
      unfold startA at hskip
      rw [if_pos htt] at hskip
      by_cases h : p.lo ≤ s.start
      · have := c3 h (by omega); omega
      · have := c1 (by omega); omega
    rw [if_neg hns]
    by_cases hst : tt = 0 ∧ some ks = some ipp
    · rw [if_pos hst]
      obtain ⟨htt, hk⟩ := hst
      obtain ⟨hin1, hin2⟩ := c4 (Option.some.inj hk)
      have hA : startA s tt = s.start := by unfold startA; rw [if_pos htt]
      rw [hA, Nat.max_eq_right hin1]
      rcases loc_index wf s.start ipp p wf.start hp hin1 hin2 with ⟨lo, hi, rfl, hidx⟩ | ⟨rfl, hidx⟩
      · rw [hidx]
        simp only [Option.join_some]
        by_cases hsh : stopHere s tt ipp = true
        · obtain ⟨b, hb, hb1, hb2⟩ := hstop.mp hsh
          rw [if_pos hsh, if_pos (hany.mpr ⟨b, hb, hb1, hb2⟩), hb]
          obtain ⟨hb3, hb4, _⟩ := stopB_some hb
          have hord := ord.le b (by rw [← htt]; exact hb)
          rcases loc_index wf b ipp (.nc lo hi) hb4 hp hb1 hb2 with ⟨lo', hi', heq, hbi⟩ | ⟨heq, _⟩
          · simp only [Part.nc.injEq] at heq
            obtain ⟨rfl, rfl⟩ := heq
            have hsi : stopIndex s = some (b - lo) := by
              unfold stopIndex
              rw [hb3]
              simp [hbi]
            rw [hsi]
            have hb1' : lo ≤ b := hb1
            have hin1' : lo ≤ s.start := hin1
            unfold trackNC
            simp only
            rw [if_neg (by omega), show lo + (b - lo) - (lo + (s.start - lo)) = b - s.start by omega,
              show lo + (s.start - lo) = s.start by omega, track_inside _ _ _ (by omega)]
            rfl
          · exact absurd heq (by simp)
        · rw [if_neg hsh, if_neg (fun h => hsh (hstop.mpr (hany.mp h)))]
          have hin1' : lo ≤ s.start := hin1
          have hin2' : s.start < hi := hin2
          rw [trackNC_eq s lo hi (s.start - lo) (hi - s.start) (by omega) hL,
            show lo + (s.start - lo) = s.start by omega]
          rfl
      · rw [hidx]
        simp only [Option.join_some]
        have hno : ¬ ((stopB s tt).any (fun b => decide (Part.lo (.co s.start) ≤ b ∧ b < Part.hi (.co s.start))) = true) := by
          intro h
          obtain ⟨b, hb, hb1, hb2⟩ := hany.mp h
          have hb1' : s.start ≤ b := hb1
          have hb2' : b < s.start + 1 := hb2
          have : s.start = b := by omega
          exact ord.notCo b (by rw [← htt]; exact hb) this (by rw [← this]; exact hidx)
        rw [if_neg hno]
        have : Part.hi (.co s.start) - s.start = 1 := by show s.start + 1 - s.start = 1; omega
        rw [this]
        rfl
    · rw [if_neg hst]
      have hA : max p.lo (startA s tt) = p.lo := by
        unfold startA at hskip ⊢
        split
        · rename_i htt
          rw [if_pos htt] at hskip
          by_cases h : p.lo ≤ s.start
          · exfalso
            exact hst ⟨htt, by rw [c3 h (by omega)]⟩
          · omega
        · omega
      rw [hA]
      by_cases hsh : stopHere s tt ipp = true
      · obtain ⟨b, hb, hb1, hb2⟩ := hstop.mp hsh
        rw [if_pos hsh, if_pos (hany.mpr ⟨b, hb, hb1, hb2⟩), hb]
        obtain ⟨hb3, hb4, _⟩ := stopB_some hb
        rcases loc_index wf b ipp p hb4 hp hb1 hb2 with ⟨lo, hi, rfl, hbi⟩ | ⟨rfl, hbi⟩
        · have hsi : stopIndex s = some (b - lo) := by
            unfold stopIndex
            rw [hb3]
            simp [hbi]
          rw [hsi]
          have hb1' : lo ≤ b := hb1
          simp only [trackNC]
          rw [track_inside _ _ _ (by omega)]
          rfl
        · have hsi : stopIndex s = none := by
            unfold stopIndex
            rw [hb3]
            simp [hbi]
          rw [hsi]
          simp only [Option.getD_some]
          have : b - Part.lo (.co b) = 0 := Nat.sub_self b
          rw [this]
          rfl
      · rw [if_neg hsh, if_neg (fun h => hsh (hstop.mpr (hany.mp h)))]
        cases p with
        | nc lo hi =>
          have hlo' : lo < hi := hlo
          have hL' : hi ≤ s.L := hL
          simp only [trackNC]
          rw [if_neg (by omega), track_inside _ _ _ (by omega)]
          rfl
        | co idx =>
          have : Part.hi (.co idx) - Part.lo (.co idx) = 1 := by show idx + 1 - idx = 1; omega
          rw [this]
          rfl

/-- All parts of a turn. -/
theorem partsLoop_spec {s : Session} (wf : WF s) (ord : Ordered s) (tt : Nat) (ps : List Part) (ipp lo : Nat)
    (hps : s.parts.drop ipp = ps) (hch : chain lo ps s.L) (hlo : ∀ b, stopB s tt = some b → lo ≤ b) :
    partsLoop s tt ps ipp none [] = some
      ⟨eles (max lo (startA s tt)) ((stopB s tt).getD s.L - max lo (startA s tt)),
       .finished (stopB s tt).isSome, []⟩ := by
  induction ps generalizing ipp lo with
  | nil =>
    have hl : lo = s.L := hch
    cases hB : stopB s tt with
    | none =>
      have : s.L - max lo (startA s tt) = 0 := by omega
      simp only [Option.getD_none, this]
      rfl
    | some b =>
      have := hlo b hB
      have := (stopB_some hB).2.1
      omega
  | cons p ps ih =>
    obtain ⟨h1, h2, h3⟩ := hch
    have hget : s.parts[ipp]? = some p := by
      have := congrArg List.head? hps
      rw [List.head?_drop] at this
      simpa using this
    have hdrop : s.parts.drop (ipp + 1) = ps := by
      rw [Nat.add_comm, ← List.drop_drop]
      have : (s.parts.drop ipp).drop 1 = ps := by rw [hps]; rfl
      rw [List.drop_drop] at this ⊢
      rw [← this]
      congr 1
      omega
    have hhi := chain_le _ _ _ h3
    rw [partsLoop]
    simp only [Option.any_none, Bool.false_eq_true, if_false, Option.bind_eq_bind]
    rw [trackPart_spec wf ord tt ipp p hget hhi]
    simp only [Option.bind_some]
    by_cases hskip : p.hi ≤ startA s tt
    · have hb' : ∀ b, stopB s tt = some b → p.hi ≤ b := by
        intro b hb
        have htt : tt = 0 := by
          unfold startA at hskip
          split at hskip
          · assumption
          · omega
        subst htt
        have := ord.le b hb
        have hA : startA s 0 = s.start := rfl
        omega
      rw [if_pos hskip]
      simp only [Bool.false_eq_true, if_false]
      rw [ih (ipp + 1) p.hi hdrop h3 hb']
      simp only [Option.bind_some, List.nil_append]
      rw [show max lo (startA s tt) = max p.hi (startA s tt) by omega]
    · rw [if_neg hskip]
      cases hB : stopB s tt with
      | none =>
        simp only [Option.any_none, Bool.false_eq_true, if_false]
        rw [ih (ipp + 1) p.hi hdrop h3 (by intro b hb; rw [hB] at hb; exact absurd hb (by simp))]
        simp only [Option.bind_some, hB, Option.getD_none, Option.isSome_none]
        congr 2
        rw [h1, show max p.hi (startA s tt) = max lo (startA s tt) + (p.hi - max lo (startA s tt)) by omega, ← eles_append]
        congr 1
        omega
      | some b =>
        have hblo := hlo b hB
        have hbL := (stopB_some hB).2.1
        simp only [Option.any_some, decide_eq_true_eq]
        by_cases hin : p.lo ≤ b ∧ b < p.hi
        · rw [if_pos hin]
          simp only [Bool.false_eq_true, if_false, if_true, Option.getD_some, Option.isSome_some, h1]
        · rw [if_neg hin]
          simp only [Bool.false_eq_true, if_false]
          rw [ih (ipp + 1) p.hi hdrop h3 (by intro b' hb; rw [hB] at hb; have := Option.some.inj hb; omega)]
          simp only [Option.bind_some, hB, Option.getD_some, Option.isSome_some]
          congr 2
          rw [h1, show max p.hi (startA s tt) = max lo (startA s tt) + (p.hi - max lo (startA s tt)) by omega, ← eles_append]
          congr 1
          omega

end Verif.Tracker
