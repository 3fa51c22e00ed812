import Verif.Pipeline.Model
import Verif.Tracker.CollProps

/-!
# C23, C53: pipeline
-/

namespace Verif.Pipeline

/-! ## C23: tags -/

/-- Names of particles registered. -/
def particleNames (regs : List Reg) : List String :=
  regs.filterMap (fun r => match r with | .particles n _ => some n | _ => none)

/-- Names of elements registered. -/
def elementNames (regs : List Reg) : List String :=
  regs.filterMap (fun r => match r with | .element n => some n | _ => none)

/-- The manager after the registrations. -/
def registered (regs : List Reg) : Manager := regs.foldl Manager.reg Manager.new

theorem mem_of_lookup {β : Type} (d : List (String × β)) (k : String) (v : β) (h : d.lookup k = some v) : (k, v) ∈ d := by
  induction d with
  | nil => simp at h
  | cons e d ih =>
    obtain ⟨k', v'⟩ := e
    rw [List.lookup_cons] at h
    split at h
    · rename_i hk
      have hk' : k = k' := by simpa using hk
      rw [hk', Option.some.inj h]
      exact List.mem_cons_self
    · exact List.mem_cons_of_mem _ (ih h)

theorem insert_new {β : Type} (d : List (String × β)) (k : String) (v : β) (h : ∀ e ∈ d, e.1 ≠ k) :
    insert d k v = d ++ [(k, v)] := by
  unfold insert
  rw [if_neg]
  simp only [List.any_eq_true, not_exists, not_and, beq_iff_eq]
  exact h

/-- What registration of distinct names guarantees. -/
structure Good (m : Manager) (ps es : List String) : Prop where
  names : m.ids.map Prod.fst = ps
  enames : m.elements.map Prod.fst = es
  perRank : m.perRank = m.ids.map (fun e => (e.2.rank, e.1))
  number : ∀ e ∈ m.ids, e.2.number < (m.perRank.filter (fun q => q.1 == e.2.rank)).length
  inj : ∀ e ∈ m.ids, ∀ e' ∈ m.ids, e.2 = e'.2 → e.1 = e'.1
  index : ∀ e ∈ m.elements, e.2 < m.elements.length
  einj : ∀ e ∈ m.elements, ∀ e' ∈ m.elements, e.2 = e'.2 → e.1 = e'.1

theorem good_particles (m : Manager) (ps es : List String) (h : Good m ps es) (n : String) (r : Nat) (hn : n ∉ ps) :
    Good (m.addParticles n r) (ps ++ [n]) es := by
  have hnew : ∀ e ∈ m.ids, e.1 ≠ n := by
    intro e he hc
    exact hn (by rw [← h.names, ← hc]; exact List.mem_map_of_mem he)
  have hids : (m.addParticles n r).ids = m.ids ++ [(n, ⟨r, (m.perRank.filter (fun e => e.1 == r)).length⟩)] := by
    unfold Manager.addParticles
    exact insert_new _ _ _ hnew
  have hpr : (m.addParticles n r).perRank = m.perRank ++ [(r, n)] := rfl
  have hel : (m.addParticles n r).elements = m.elements := rfl
  have hcount : ∀ q : Nat, (m.perRank.filter (fun e => e.1 == q)).length ≤
      ((m.perRank ++ [(r, n)]).filter (fun e => e.1 == q)).length := by
    intro q
    rw [List.filter_append, List.length_append]
    omega
  constructor
  · rw [hids, List.map_append, h.names]; rfl
  · rw [hel]; exact h.enames
  · rw [hids, hpr, List.map_append, h.perRank]; rfl
  · intro e he
    rw [hids] at he
    rw [hpr]
    rcases List.mem_append.mp he with he | he
    · exact Nat.lt_of_lt_of_le (h.number e he) (hcount _)
    · rw [List.mem_singleton.mp he]
      simp [List.filter_append]
  · intro e he e' he' heq
    rw [hids] at he he'
    have key : ∀ x ∈ m.ids, x.2 ≠ (⟨r, (m.perRank.filter (fun e => e.1 == r)).length⟩ : ID) := by
      intro x hx hc
      have := h.number x hx
      rw [hc] at this
      exact Nat.lt_irrefl _ this
    rcases List.mem_append.mp he with he | he <;> rcases List.mem_append.mp he' with he' | he'
    · exact h.inj e he e' he' heq
    · rw [List.mem_singleton.mp he'] at heq
      exact absurd heq (key e he)
    · rw [List.mem_singleton.mp he] at heq
      exact absurd heq.symm (key e' he')
    · rw [List.mem_singleton.mp he, List.mem_singleton.mp he']
  · rw [hel]; exact h.index
  · rw [hel]; exact h.einj

theorem good_element (m : Manager) (ps es : List String) (h : Good m ps es) (n : String) (hn : n ∉ es) :
    Good (m.addElement n) ps (es ++ [n]) := by
  have hnew : ∀ e ∈ m.elements, e.1 ≠ n := by
    intro e he hc
    exact hn (by rw [← h.enames, ← hc]; exact List.mem_map_of_mem he)
  have hel : (m.addElement n).elements = m.elements ++ [(n, m.elements.length)] := insert_new _ _ _ hnew
  constructor
  · exact h.names
  · rw [hel, List.map_append, h.enames]; rfl
  · exact h.perRank
  · exact h.number
  · exact h.inj
  · intro e he
    rw [hel] at he ⊢
    rw [List.length_append]
    rcases List.mem_append.mp he with he | he
    · have := h.index e he; simp; omega
    · rw [List.mem_singleton.mp he]; simp
  · intro e he e' he' heq
    rw [hel] at he he'
    rcases List.mem_append.mp he with he | he <;> rcases List.mem_append.mp he' with he' | he'
    · exact h.einj e he e' he' heq
    · rw [List.mem_singleton.mp he'] at heq
      have := h.index e he
      simp only at heq
      omega
    · rw [List.mem_singleton.mp he] at heq
      have := h.index e' he'
      simp only at heq
      omega
    · rw [List.mem_singleton.mp he, List.mem_singleton.mp he']

theorem good_fold (regs : List Reg) (m : Manager) (ps es : List String) (h : Good m ps es)
    (hp : (ps ++ particleNames regs).Nodup) (he : (es ++ elementNames regs).Nodup) :
    Good (regs.foldl Manager.reg m) (ps ++ particleNames regs) (es ++ elementNames regs) := by
  induction regs generalizing m ps es with
  | nil => simpa [particleNames, elementNames] using h
  | cons r regs ih =>
    cases r with
    | particles n rk =>
      have e1 : particleNames (.particles n rk :: regs) = n :: particleNames regs := rfl
      have e2 : elementNames (.particles n rk :: regs) = elementNames regs := rfl
      rw [e1] at hp ⊢
      rw [e2] at he ⊢
      have hn : n ∉ ps := by
        rw [List.nodup_append] at hp
        intro hc
        exact hp.2.2 n hc n List.mem_cons_self rfl
      have := ih (m.addParticles n rk) (ps ++ [n]) es (good_particles m ps es h n rk hn) (by simpa using hp) he
      rw [List.foldl_cons]
      simpa [Manager.reg] using this
    | element n =>
      have e1 : particleNames (.element n :: regs) = particleNames regs := rfl
      have e2 : elementNames (.element n :: regs) = n :: elementNames regs := rfl
      rw [e1] at hp ⊢
      rw [e2] at he ⊢
      have hn : n ∉ es := by
        rw [List.nodup_append] at he
        intro hc
        exact he.2.2 n hc n List.mem_cons_self rfl
      have := ih (m.addElement n) ps (es ++ [n]) (good_element m ps es h n hn) hp (by simpa using he)
      rw [List.foldl_cons]
      simpa [Manager.reg] using this

theorem good_registered (regs : List Reg) (hp : (particleNames regs).Nodup) (he : (elementNames regs).Nodup) :
    Good (registered regs) (particleNames regs) (elementNames regs) := by
  have h0 : Good Manager.new [] [] := by
    constructor <;> simp [Manager.new]
  have := good_fold regs Manager.new [] [] h0 (by simpa using hp) (by simpa using he)
  simpa [registered] using this

theorem number_lt {m : Manager} {ps es : List String} (h : Good m ps es) (e : String × ID) (he : e ∈ m.ids) :
    e.2.number < m.ids.length := by
  have h1 := h.number e he
  have h2 := List.length_filter_le (fun q : Nat × String => q.1 == e.2.rank) m.perRank
  have h3 : m.perRank.length = m.ids.length := by rw [h.perRank, List.length_map]
  omega

theorem radix {n a b x y : Nat} (ha : a < n) (hb : b < n) (h : a + n * x = b + n * y) : a = b ∧ x = y := by
  have h1 : (a + n * x) % n = a := by rw [Nat.add_mul_mod_self_left, Nat.mod_eq_of_lt ha]
  have h2 : (b + n * y) % n = b := by rw [Nat.add_mul_mod_self_left, Nat.mod_eq_of_lt hb]
  have hab : a = b := by rw [← h1, ← h2, h]
  subst hab
  have : n * x = n * y := by omega
  exact ⟨rfl, Nat.eq_of_mul_eq_mul_left (by omega) this⟩

/-- **C23 (partial), tags.**  After any registrations in which no particles name and no element name is
used twice, two messages with the same tag between the same two ranks belong to the same element,
sender, receiver and internal tag.
Missing: names registered twice, see `C23_registered_twice_violated`. -/
theorem C23_tags_distinct_partial (regs : List Reg) (hp : (particleNames regs).Nodup) (he : (elementNames regs).Nodup)
    (r r' : Route) (t : Nat) (ht : (registered regs).tag r = some t) (ht' : (registered regs).tag r' = some t)
    (hs : (registered regs).rank r.sender = (registered regs).rank r'.sender)
    (hd : (registered regs).rank r.receiver = (registered regs).rank r'.receiver) : r = r' := by
  have g := good_registered regs hp he
  generalize registered regs = m at *
  unfold Manager.tag at ht ht'
  simp only [Option.bind_eq_bind] at ht ht'
  obtain ⟨e, h1, ht⟩ := Option.bind_eq_some_iff.mp ht
  obtain ⟨s, h2, ht⟩ := Option.bind_eq_some_iff.mp ht
  obtain ⟨d, h3, ht⟩ := Option.bind_eq_some_iff.mp ht
  obtain ⟨e', h1', ht'⟩ := Option.bind_eq_some_iff.mp ht'
  obtain ⟨s', h2', ht'⟩ := Option.bind_eq_some_iff.mp ht'
  obtain ⟨d', h3', ht'⟩ := Option.bind_eq_some_iff.mp ht'
  have hsr : s.rank = s'.rank := by
    unfold Manager.rank at hs
    rw [h2, h2'] at hs
    exact Option.some.inj hs
  have hdr : d.rank = d'.rank := by
    unfold Manager.rank at hd
    rw [h3, h3'] at hd
    exact Option.some.inj hd
  have m1 := mem_of_lookup _ _ _ h1
  have m2 := mem_of_lookup _ _ _ h2
  have m3 := mem_of_lookup _ _ _ h3
  have m1' := mem_of_lookup _ _ _ h1'
  have m2' := mem_of_lookup _ _ _ h2'
  have m3' := mem_of_lookup _ _ _ h3'
  have heq : e + m.elements.length * (s.number + m.ids.length * (d.number + m.ids.length * r.internal)) =
      e' + m.elements.length * (s'.number + m.ids.length * (d'.number + m.ids.length * r'.internal)) := by
    have a := (Option.some.inj ht).trans (Option.some.inj ht').symm
    simp only [Nat.mul_add, ← Nat.mul_assoc, ← Nat.add_assoc]
    exact a
  obtain ⟨q1, heq⟩ := radix (g.index _ m1) (g.index _ m1') heq
  obtain ⟨q2, heq⟩ := radix (number_lt g _ m2) (number_lt g _ m2') heq
  obtain ⟨q3, q4⟩ := radix (number_lt g _ m3) (number_lt g _ m3') heq
  have n1 := g.einj _ m1 _ m1' q1
  have n2 := g.inj _ m2 _ m2' (by
    show s = s'
    cases s; cases s'; simp only at hsr q2; rw [hsr, q2])
  have n3 := g.inj _ m3 _ m3' (by
    show d = d'
    cases d; cases d'; simp only at hdr q3; rw [hdr, q3])
  cases r; cases r'
  simp only at n1 n2 n3 q4
  rw [n1, n2, n3, q4]

/-- Two ranks with two bunches each, two elements. -/
example : (particleNames [.particles "b1" 0, .particles "b2" 1, .element "ip1", .particles "b3" 0, .element "ip2"]).Nodup ∧
    (registered [.particles "b1" 0, .particles "b2" 1, .element "ip1", .particles "b3" 0, .element "ip2"]).tag
      ⟨"ip2", "b3", "b2", 1⟩ = some 21 := by decide +kernel

/-- **C23 violated** when an element is registered twice: two different elements share a tag. -/
theorem C23_registered_twice_violated :
    (registered [.particles "b1" 0, .particles "b2" 0, .element "ip0", .element "ip1", .element "ip2", .element "ip1",
        .element "ip0"]).tag ⟨"ip0", "b1", "b2", 0⟩ =
    (registered [.particles "b1" 0, .particles "b2" 0, .element "ip0", .element "ip1", .element "ip2", .element "ip1",
        .element "ip0"]).tag ⟨"ip1", "b1", "b2", 0⟩ ∧
    ((registered [.particles "b1" 0, .particles "b2" 0, .element "ip0", .element "ip1", .element "ip2", .element "ip1",
        .element "ip0"]).tag ⟨"ip0", "b1", "b2", 0⟩).isSome := by decide +kernel

/-! ## C23: delivery -/

/-- What the user expects: for each element, sender, receiver and internal tag a queue of messages (the
buffer sent and its contents when it was sent), and the turn of the last message. -/
structure Box where
  queue : Route → List (Nat × Nat)
  last : Route → Option Nat
  heap : Nat → Nat

/-- Sending appends to the queue of the route, receiving takes its oldest message. -/
def Box.step (b : Box) : Op → Option Box
  | .send r buf turn => some { b with
      queue := fun q => if q = r then b.queue q ++ [(buf, b.heap buf)] else b.queue q
      last := fun q => if q = r then some turn else b.last q }
  | .recv r buf =>
    match b.queue r with
    | [] => none
    | msg :: rest => some { b with
        queue := fun q => if q = r then rest else b.queue q
        heap := fun x => if x = buf then msg.2 else b.heap x }
  | .write buf v => some { b with heap := fun x => if x = buf then v else b.heap x }

/-- The route of an operation. -/
def Op.route : Op → Option Route
  | .send r _ _ => some r
  | .recv r _ => some r
  | .write _ _ => none

/-- The buffer changed by an operation. -/
def Op.target : Op → Option Nat
  | .send _ _ _ => none
  | .recv _ buf => some buf
  | .write buf _ => some buf

/-- No buffer is changed while a message sent from it has not been received yet. -/
def Safe : Box → List Op → Prop
  | _, [] => True
  | b, op :: ops =>
    match b.step op with
    | none => True
    | some b' => (∀ x, op.target = some x → ∀ q, ∀ msg ∈ b'.queue q, msg.1 ≠ x) ∧ Safe b' ops

/-- Agreement of the communicator with the expectation. -/
structure Agree (m : Manager) (rk : Nat) (c : Comm) (b : Box) : Prop where
  heap : c.heap = b.heap
  queue : ∀ r t, m.tag r = some t → c.messages rk t = (b.queue r).map Prod.fst
  value : ∀ r, ∀ msg ∈ b.queue r, b.heap msg.1 = msg.2
  last : ∀ r t, m.tag r = some t → c.last (key r t) = b.last r

/-- Tags identify routes (conclusion of `C23_tags_distinct_partial` when there is one rank only). -/
def TagsDistinct (m : Manager) : Prop := ∀ r r' t, m.tag r = some t → m.tag r' = some t → r = r'

theorem step_agree (m : Manager) (rk : Nat) (hd : TagsDistinct m) (hr : ∀ n k, m.rank n = some k → k = rk) (c : Comm) (b : Box)
    (h : Agree m rk c b) (op : Op) (hop : ∀ r, op.route = some r → (m.tag r).isSome)
    (hsafe : ∀ b', b.step op = some b' → ∀ x, op.target = some x → ∀ q, ∀ msg ∈ b'.queue q, msg.1 ≠ x) :
    (step m c op = none ∧ b.step op = none) ∨
    (∃ c' b', step m c op = some c' ∧ b.step op = some b' ∧ Agree m rk c' b') := by
  have ranks : ∀ r, (m.tag r).isSome → m.rank r.sender = some rk ∧ m.rank r.receiver = some rk := by
    intro r hr'
    obtain ⟨t, ht⟩ := Option.isSome_iff_exists.mp hr'
    unfold Manager.tag at ht
    simp only [Option.bind_eq_bind] at ht
    obtain ⟨e, h1, ht⟩ := Option.bind_eq_some_iff.mp ht
    obtain ⟨s, h2, ht⟩ := Option.bind_eq_some_iff.mp ht
    obtain ⟨d, h3, ht⟩ := Option.bind_eq_some_iff.mp ht
    have a1 : m.rank r.sender = some s.rank := by unfold Manager.rank; rw [h2]; rfl
    have a2 : m.rank r.receiver = some d.rank := by unfold Manager.rank; rw [h3]; rfl
    exact ⟨by rw [a1, hr _ _ a1], by rw [a2, hr _ _ a2]⟩
  cases op with
  | send r buf turn =>
    obtain ⟨t, ht⟩ := Option.isSome_iff_exists.mp (hop r rfl)
    obtain ⟨_, hrr⟩ := ranks r (hop r rfl)
    right
    refine ⟨({ c with last := fun k => if k = key r t then some turn else c.last k } : Comm).issend buf rk t, _,
      by simp only [step, send, ht, hrr, Option.bind_eq_bind, Option.bind_some], rfl, ?_⟩
    constructor
    · exact h.heap
    · intro q t' hq
      show (if rk = rk ∧ t' = t then c.messages rk t' ++ [buf] else c.messages rk t') =
        (if q = r then b.queue q ++ [(buf, b.heap buf)] else b.queue q).map Prod.fst
      by_cases hqr : q = r
      · subst hqr
        have : t' = t := by rw [ht] at hq; exact (Option.some.inj hq).symm
        rw [if_pos ⟨rfl, this⟩, if_pos rfl, List.map_append, h.queue q t' hq]
        rfl
      · have : t' ≠ t := by
          intro hc
          subst hc
          exact hqr (hd _ _ _ hq ht)
        rw [if_neg (fun hc => this hc.2), if_neg hqr, h.queue q t' hq]
    · intro q msg hmsg
      have hmsg : msg ∈ (if q = r then b.queue q ++ [(buf, b.heap buf)] else b.queue q) := hmsg
      split at hmsg
      · rcases List.mem_append.mp hmsg with hm | hm
        · exact h.value q msg hm
        · rw [List.mem_singleton.mp hm]
      · exact h.value q msg hmsg
    · intro q t' hq
      show (if key q t' = key r t then some turn else c.last (key q t')) = (if q = r then some turn else b.last q)
      by_cases hqr : q = r
      · subst hqr
        have : t' = t := by rw [ht] at hq; exact (Option.some.inj hq).symm
        rw [if_pos (by rw [this]), if_pos rfl]
      · have : key q t' ≠ key r t := by
          intro hc
          have : t' = t := congrArg Prod.snd hc
          subst this
          exact hqr (hd _ _ _ hq ht)
        rw [if_neg this, if_neg hqr, h.last q t' hq]
  | recv r buf =>
    obtain ⟨t, ht⟩ := Option.isSome_iff_exists.mp (hop r rfl)
    obtain ⟨hsr, _⟩ := ranks r (hop r rfl)
    have hq := h.queue r t ht
    have hstep : step m c (.recv r buf) = c.recv buf rk t := by
      simp only [step, receive, ht, hsr, Option.bind_eq_bind, Option.bind_some]
    rw [hstep]
    cases hb : b.queue r with
    | nil =>
      rw [hb] at hq
      left
      constructor
      · unfold Comm.recv; rw [hq]; rfl
      · simp only [Box.step, hb]
    | cons msg rest =>
      rw [hb] at hq
      have hbs : b.step (.recv r buf) = some ⟨fun q => if q = r then rest else b.queue q, b.last,
        fun x => if x = buf then msg.2 else b.heap x⟩ := by simp only [Box.step, hb]
      right
      refine ⟨⟨fun d t' => if d = rk ∧ t' = t then rest.map Prod.fst else c.messages d t', c.last,
        fun x => if x = buf then c.heap msg.1 else c.heap x⟩, _, ?_, hbs, ?_⟩
      · unfold Comm.recv; rw [hq]; rfl
      · have hs := hsafe _ hbs buf rfl
        constructor
        · show (fun x => if x = buf then c.heap msg.1 else c.heap x) = _
          rw [h.heap, h.value r msg (by rw [hb]; exact List.mem_cons_self)]
        · intro q t' hq'
          show (if rk = rk ∧ t' = t then rest.map Prod.fst else c.messages rk t') = (if q = r then rest else b.queue q).map Prod.fst
          by_cases hqr : q = r
          · subst hqr
            have : t' = t := by rw [ht] at hq'; exact (Option.some.inj hq').symm
            rw [if_pos ⟨rfl, this⟩, if_pos rfl]
          · have : t' ≠ t := by
              intro hc
              subst hc
              exact hqr (hd _ _ _ hq' ht)
            rw [if_neg (fun hc => this hc.2), if_neg hqr, h.queue q t' hq']
        · intro q msg' hmsg
          have hne := hs q msg' hmsg
          show (if msg'.1 = buf then msg.2 else b.heap msg'.1) = msg'.2
          rw [if_neg hne]
          have hmsg2 : msg' ∈ (if q = r then rest else b.queue q) := hmsg
          by_cases hqr : q = r
          · rw [if_pos hqr] at hmsg2
            subst hqr
            exact h.value q msg' (by rw [hb]; exact List.mem_cons_of_mem _ hmsg2)
          · rw [if_neg hqr] at hmsg2
            exact h.value q msg' hmsg2
        · exact h.last
  | write buf v =>
    right
    refine ⟨_, _, rfl, rfl, ?_⟩
    constructor
    · show (fun x => if x = buf then v else c.heap x) = _
      rw [h.heap]
    · exact h.queue
    · intro q msg hmsg
      have hne := hsafe _ rfl buf rfl q msg hmsg
      show (if msg.1 = buf then v else b.heap msg.1) = msg.2
      rw [if_neg hne]
      exact h.value q msg hmsg
    · exact h.last

theorem run_agree (m : Manager) (rk : Nat) (hd : TagsDistinct m) (hr : ∀ n k, m.rank n = some k → k = rk) (ops : List Op)
    (c : Comm) (b : Box) (h : Agree m rk c b) (hops : ∀ op ∈ ops, ∀ r, op.route = some r → (m.tag r).isSome)
    (hsafe : Safe b ops) :
    (run m c ops = none ∧ ops.foldlM Box.step b = none) ∨
    (∃ c' b', run m c ops = some c' ∧ ops.foldlM Box.step b = some b' ∧ Agree m rk c' b') := by
  induction ops generalizing c b with
  | nil => exact Or.inr ⟨c, b, rfl, rfl, h⟩
  | cons op ops ih =>
    have hop := hops op List.mem_cons_self
    have hs1 : ∀ b', b.step op = some b' → ∀ x, op.target = some x → ∀ q, ∀ msg ∈ b'.queue q, msg.1 ≠ x := by
      intro b' hb'
      rw [Safe, hb'] at hsafe
      exact hsafe.1
    unfold run
    rw [List.foldlM_cons, List.foldlM_cons]
    rcases step_agree m rk hd hr c b h op hop hs1 with ⟨h1, h2⟩ | ⟨c', b', h1, h2, h3⟩
    · left
      rw [h1, h2]
      exact ⟨rfl, rfl⟩
    · rw [h1, h2]
      have hs2 : Safe b' ops := by
        rw [Safe, h2] at hsafe
        exact hsafe.2
      exact ih c' b' h3 (fun o ho => hops o (List.mem_cons_of_mem _ ho)) hs2

/-- **C23 (partial), delivery.**  With the communicator that comes with xtrack, all particles on one
rank, and names registered once: for every sequence of sends, receives and buffer changes in which no
buffer is changed while its message is pending, the buffers hold what they hold when each route
(element, sender, receiver, internal tag) has its own first-in first-out queue; a receive fails exactly when the
queue of the route is empty; `is_ready_to_receive` is true exactly when it is not empty; and `is_ready_to_send`
is false exactly when a message was already sent on this route in this turn or a later one.
Missing: buffers reused while pending (`C23_buffer_reused_violated`), several ranks
(`C23_two_ranks_violated`). -/
theorem C23_delivery_partial (regs : List Reg) (hp : (particleNames regs).Nodup) (he : (elementNames regs).Nodup) (rk : Nat)
    (hr : ∀ n k, (registered regs).rank n = some k → k = rk) (heap : Nat → Nat) (ops : List Op)
    (hops : ∀ op ∈ ops, ∀ r, op.route = some r → ((registered regs).tag r).isSome)
    (hsafe : Safe ⟨fun _ => [], fun _ => none, heap⟩ ops) :
    match run (registered regs) (Comm.new heap) ops, ops.foldlM Box.step ⟨fun _ => [], fun _ => none, heap⟩ with
    | none, none => True
    | some c, some b => c.heap = b.heap ∧
        ∀ r, ((registered regs).tag r).isSome →
          readyToReceive (registered regs) c r = some (!(b.queue r).isEmpty) ∧
          ∀ turn, readyToSend (registered regs) c r turn = some (!(b.last r).any (fun t => decide (turn ≤ t)))
    | _, _ => False := by
  have hd : TagsDistinct (registered regs) := by
    intro r r' t h1 h2
    apply C23_tags_distinct_partial regs hp he r r' t h1 h2
    · have key : ∀ q t, (registered regs).tag q = some t → (registered regs).rank q.sender = some rk := by
        intro q t hq
        unfold Manager.tag at hq
        simp only [Option.bind_eq_bind] at hq
        obtain ⟨e, _, hq⟩ := Option.bind_eq_some_iff.mp hq
        obtain ⟨s, h2, hq⟩ := Option.bind_eq_some_iff.mp hq
        have a1 : (registered regs).rank q.sender = some s.rank := by unfold Manager.rank; rw [h2]; rfl
        rw [a1, hr _ _ a1]
      rw [key r t h1, key r' t h2]
    · have key : ∀ q t, (registered regs).tag q = some t → (registered regs).rank q.receiver = some rk := by
        intro q t hq
        unfold Manager.tag at hq
        simp only [Option.bind_eq_bind] at hq
        obtain ⟨e, _, hq⟩ := Option.bind_eq_some_iff.mp hq
        obtain ⟨s, _, hq⟩ := Option.bind_eq_some_iff.mp hq
        obtain ⟨s, h2, hq⟩ := Option.bind_eq_some_iff.mp hq
        have a1 : (registered regs).rank q.receiver = some s.rank := by unfold Manager.rank; rw [h2]; rfl
        rw [a1, hr _ _ a1]
      rw [key r t h1, key r' t h2]
  have h0 : Agree (registered regs) rk (Comm.new heap) ⟨fun _ => [], fun _ => none, heap⟩ := by
    constructor
    · rfl
    · intro r t _; rfl
    · intro r msg hm; simp at hm
    · intro r t _; rfl
  rcases run_agree _ rk hd hr ops _ _ h0 hops hsafe with ⟨h1, h2⟩ | ⟨c, b, h1, h2, h3⟩
  · rw [h1, h2]; trivial
  · rw [h1, h2]
    refine ⟨h3.heap, ?_⟩
    intro r hreg
    obtain ⟨t, ht⟩ := Option.isSome_iff_exists.mp hreg
    have hrank : (registered regs).rank r.sender = some rk := by
      have hq := ht
      unfold Manager.tag at hq
      simp only [Option.bind_eq_bind] at hq
      obtain ⟨e, _, hq⟩ := Option.bind_eq_some_iff.mp hq
      obtain ⟨s, hs, hq⟩ := Option.bind_eq_some_iff.mp hq
      have a1 : (registered regs).rank r.sender = some s.rank := by unfold Manager.rank; rw [hs]; rfl
      rw [a1, hr _ _ a1]
    constructor
    · simp only [readyToReceive, ht, hrank, Option.bind_eq_bind, Option.bind_some, Comm.iprobe, h3.queue r t ht]
      cases b.queue r <;> rfl
    · intro turn
      simp only [readyToSend, ht, Option.bind_eq_bind, Option.bind_some, h3.last r t ht]
      cases b.last r with
      | none => rfl
      | some t' =>
        simp only [Option.any_some]
        by_cases h : turn ≤ t' <;> simp [h]

/-- The witnesses below and a delivery in both directions. -/
def exampleRegs : List Reg := [.particles "b1" 0, .particles "b2" 0, .element "ip1"]

example : (run (registered exampleRegs) (Comm.new (fun b => b + 10))
    [.send ⟨"ip1", "b1", "b2", 0⟩ 1 0, .send ⟨"ip1", "b2", "b1", 0⟩ 2 0, .recv ⟨"ip1", "b1", "b2", 0⟩ 4,
     .recv ⟨"ip1", "b2", "b1", 0⟩ 3]).map (fun c => (c.heap 3, c.heap 4)) = some (12, 11) := by decide +kernel

/-- **C23 violated**: `is_ready_to_send` says that the next message can be sent although the previous one
was not received (the local communicator always reports completion); changing the buffer then changes
the pending message. -/
theorem C23_buffer_reused_violated :
    ((run (registered exampleRegs) (Comm.new (fun _ => 0)) [.write 1 7, .send ⟨"ip1", "b1", "b2", 0⟩ 1 0]).bind
      (fun c => readyToSend (registered exampleRegs) c ⟨"ip1", "b1", "b2", 0⟩ 1)) = some true ∧
    (run (registered exampleRegs) (Comm.new (fun _ => 0))
      [.write 1 7, .send ⟨"ip1", "b1", "b2", 0⟩ 1 0, .write 1 8, .send ⟨"ip1", "b1", "b2", 0⟩ 1 1,
       .recv ⟨"ip1", "b1", "b2", 0⟩ 2]).map (fun c => c.heap 2) = some 8 := by decide +kernel

/-- **C23 violated** for two ranks with the local communicator: messages are stored under the rank of the
receiver and looked up under the rank of the sender, so that a message never arrives. -/
theorem C23_two_ranks_violated :
    (run (registered [.particles "b1" 0, .particles "b2" 1, .element "ip1"]) (Comm.new (fun _ => 0))
      [.send ⟨"ip1", "b1", "b2", 0⟩ 1 0]).isSome ∧
    (run (registered [.particles "b1" 0, .particles "b2" 1, .element "ip1"]) (Comm.new (fun _ => 0))
      [.send ⟨"ip1", "b1", "b2", 0⟩ 1 0, .recv ⟨"ip1", "b1", "b2", 0⟩ 2]).isNone ∧
    ((run (registered [.particles "b1" 0, .particles "b2" 1, .element "ip1"]) (Comm.new (fun _ => 0))
      [.send ⟨"ip1", "b1", "b2", 0⟩ 1 0]).bind
      (fun c => readyToReceive (registered [.particles "b1" 0, .particles "b2" 1, .element "ip1"]) c
        ⟨"ip1", "b1", "b2", 0⟩)) = some false := by decide +kernel

/-! ## C53: several branches -/

open Verif.Tracker

/-- A branch whose uninterrupted tracking (by itself) does the actions `tr`. -/
def Tracks (b : Branch) (tr : List Ev) : Prop :=
  b.evs = [] ∧ b.hold = none ∧
  ∃ line mon e startAt args, newSession line mon false e startAt args = some b.s ∧
    trackCollective line mon e startAt args = some tr

/-- State of a branch with respect to uninterrupted tracking, with fewer than `n` answers left if on hold. -/
def Progress (n : Nat) (b : Branch) (tr : List Ev) : Prop :=
  b.s.timeVars = false ∧
  match b.hold with
  | none => applied b.evs = tr
  | some p => b.hs.length < n ∧
      ∃ w, turnsLoop b.s b.s.numTurns 0 (some p) [] = some w ∧ applied b.evs ++ w.evs = tr

theorem go_progress (b : Branch) (tr : List Ev) (n : Nat) (resume : Option (Nat × Nat))
    (htv : b.s.timeVars = false) (hn : b.hs.length ≤ n) (w : CallResult)
    (hw : turnsLoop b.s b.s.numTurns 0 resume [] = some w) (hev : applied b.evs ++ w.evs = tr) :
    ∃ b', b.go resume = some b' ∧ Progress n b' tr := by
  obtain ⟨_, r, hr, h⟩ := turnsLoop_hold b.s htv b.s.numTurns 0 resume b.hs (fun _ _ => Nat.zero_le _) w hw
  refine ⟨⟨b.s, b.evs ++ r.evs, r.session, r.hs⟩, by unfold Branch.go; rw [hr]; rfl, htv, ?_⟩
  rcases h with ⟨h1, h2⟩ | ⟨tt', ipp', h1, _, h3, w', h4, h5⟩
  · simp only [h1]
    rw [applied_append, h2, hev]
  · simp only [h1]
    refine ⟨by omega, w', h4, ?_⟩
    rw [applied_append, List.append_assoc, h5, hev]

theorem resumeRound_progress (n : Nat) (bs : List Branch) (trs : List (List Ev))
    (h : List.Forall₂ (Progress (n + 1)) bs trs) :
    ∃ bs', resumeRound bs = some bs' ∧ List.Forall₂ (Progress n) bs' trs := by
  induction h with
  | nil => exact ⟨[], rfl, List.Forall₂.nil⟩
  | cons hb _ ih =>
    rename_i b tr bs trs _
    obtain ⟨bs', h1, h2⟩ := ih
    have key : ∃ b', b.resume = some b' ∧ Progress n b' tr := by
      unfold Branch.resume
      obtain ⟨htv, hb⟩ := hb
      cases hh : b.hold with
      | none =>
        rw [hh] at hb
        refine ⟨b, rfl, htv, ?_⟩
        rw [hh]
        exact hb
      | some p =>
        rw [hh] at hb
        obtain ⟨hl, w, hw, hev⟩ := hb
        exact go_progress b tr n (some p) htv (by omega) w hw hev
    obtain ⟨b', h3, h4⟩ := key
    refine ⟨b' :: bs', ?_, List.Forall₂.cons h4 h2⟩
    rw [resumeRound, h3, h1]
    rfl

theorem resumeLoop_progress (n : Nat) (bs : List Branch) (trs : List (List Ev)) (h : List.Forall₂ (Progress n) bs trs) :
    ∃ bs', resumeLoop n bs = some bs' ∧ List.Forall₂ (fun b tr => b.hold = none ∧ applied b.evs = tr) bs' trs := by
  have idle : ∀ n (bs : List Branch) (trs : List (List Ev)), List.Forall₂ (Progress n) bs trs →
      (∀ b ∈ bs, b.hold = none) → List.Forall₂ (fun b tr => b.hold = none ∧ applied b.evs = tr) bs trs := by
    intro n bs trs h hn
    induction h with
    | nil => exact List.Forall₂.nil
    | cons hb _ ih =>
      refine List.Forall₂.cons ?_ (ih (fun b hb => hn b (List.mem_cons_of_mem _ hb)))
      have h0 := hn _ List.mem_cons_self
      have := hb.2
      rw [h0] at this
      exact ⟨h0, this⟩
  induction n generalizing bs with
  | zero =>
    refine ⟨bs, rfl, idle 0 bs trs h ?_⟩
    clear idle
    induction h with
    | nil => simp
    | cons hb _ ih =>
      intro b hm
      rcases List.mem_cons.mp hm with hm | hm
      · subst hm
        have := hb.2
        cases hh : b.hold with
        | none => rfl
        | some p =>
          rw [hh] at this
          exact absurd this.1 (Nat.not_lt_zero _)
      · exact ih b hm
  | succ n ih =>
    rw [resumeLoop]
    by_cases ha : bs.any (fun b => b.hold.isSome) = true
    · rw [if_pos ha]
      obtain ⟨bs', h1, h2⟩ := resumeRound_progress n bs trs h
      rw [h1]
      exact ih bs' h2
    · rw [if_neg ha]
      refine ⟨bs, rfl, idle (n + 1) bs trs h ?_⟩
      intro b hb
      cases hh : b.hold with
      | none => rfl
      | some p =>
        exact absurd (List.any_eq_true.mpr ⟨b, hb, by rw [hh]; rfl⟩) ha

theorem tracks_loop (b : Branch) (tr : List Ev) (h : Tracks b tr) :
    b.s.timeVars = false ∧ ∃ w, turnsLoop b.s b.s.numTurns 0 none [] = some w ∧ w.evs = tr := by
  obtain ⟨_, _, line, mon, e, startAt, args, hses, htr⟩ := h
  unfold trackCollective at htr
  rw [hses] at htr
  simp only [Option.bind_eq_bind, Option.bind_some] at htr
  obtain ⟨u, hu, hu'⟩ := Option.bind_eq_some_iff.mp htr
  have htv : b.s.timeVars = false := by
    unfold newSession at hses
    simp only [Option.bind_eq_bind] at hses
    obtain ⟨v, _, hv⟩ := Option.bind_eq_some_iff.mp hses
    obtain ⟨x, y, z⟩ := v
    simp only at hv
    rw [← Option.some.inj hv]
  exact ⟨htv, u, hu, Option.some.inj hu'⟩

/-- **C53 (partial).**  The multi-tracker ends with every branch completely tracked, whatever the number
of branches, whatever the collective elements of each branch answer (any finite number of holds), and
each branch has then applied the same elements in the same order, with the same end-of-turn
actions and records, as if it had been tracked alone without holds.  The number of passes over the branches does not
exceed the largest number of answers of a branch.
Missing: lines with time-dependent variables (`C22_time_dependent_violated`); that elements waiting for each
other answer eventually. -/
theorem C53_multitracker_partial (bs : List Branch) (trs : List (List Ev)) (h : List.Forall₂ Tracks bs trs) (fuel : Nat)
    (hf : ∀ b ∈ bs, b.hs.length ≤ fuel) :
    ∃ bs', multiTrack fuel bs = some bs' ∧ List.Forall₂ (fun b tr => b.hold = none ∧ applied b.evs = tr) bs' trs := by
  have first : ∃ bs', firstRound bs = some bs' ∧ List.Forall₂ (Progress fuel) bs' trs := by
    induction h with
    | nil => exact ⟨[], rfl, List.Forall₂.nil⟩
    | cons hb _ ih =>
      rename_i b tr bs trs _
      obtain ⟨bs', h1, h2⟩ := ih (fun b hb => hf b (List.mem_cons_of_mem _ hb))
      obtain ⟨htv, w, hw, hev⟩ := tracks_loop b tr hb
      obtain ⟨b', h3, h4⟩ := go_progress b tr fuel none htv (hf b List.mem_cons_self) w hw
        (by rw [hb.1]; exact hev)
      refine ⟨b' :: bs', ?_, List.Forall₂.cons h4 h2⟩
      rw [firstRound, h3, h1]
      rfl
  obtain ⟨bs', h1, h2⟩ := first
  unfold multiTrack
  rw [h1]
  exact resumeLoop_progress fuel bs' trs h2

/-- Two branches with a collective element, held twice and once. -/
example : ((newSession [false, true, false] false false true none ⟨some 0, none, none, some 1⟩).bind
      (fun s => multiTrack 3 [⟨s, [], none, [true, true, false]⟩, ⟨s, [], none, [true]⟩])).map
        (fun bs => bs.map (fun b => (b.evs, b.hold))) =
    some [([.ele 0, .held 1, .held 1, .ele 1, .ele 2, .endTurn], none), ([.ele 0, .held 1, .ele 1, .ele 2, .endTurn], none)] := by
  decide

end Verif.Pipeline
