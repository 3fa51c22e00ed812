import Verif.Config.Model
import Mathlib.Data.List.Induction

/-!
# C29 (track flags) and C54 (temporary settings)
-/

namespace Verif.Config

/-! ## C29 -/

/-- Value of a flag according to the user: the last value written to it, `False` if there is none. -/
def lastWritten (n : String) (h : List (String × Bool)) : Bool :=
  ((h.reverse.find? (fun w => decide (w.1 = n))).map Prod.snd).getD false

theorem lastWritten_append (n : String) (h : List (String × Bool)) (w : String × Bool) :
    lastWritten n (h ++ [w]) = if w.1 = n then w.2 else lastWritten n h := by
  unfold lastWritten
  rw [List.reverse_append, List.reverse_singleton, List.singleton_append, List.find?_cons]
  by_cases hw : w.1 = n
  · simp [hw]
  · simp [hw]

theorem foldl_snoc {α β : Type} (f : β → α → β) (b : β) (l : List α) (a : α) :
    (l ++ [a]).foldl f b = f (l.foldl f b) a := by simp

theorem history_flags (h : List (String × Bool)) (n : String) :
    (h.foldl write flagDefaults) n =
      if n ∈ flagMapping.map Prod.fst then some (lastWritten n h) else none := by
  induction h using List.reverseRecOn generalizing n with
  | nil => rfl
  | append_singleton g w ih =>
    rw [foldl_snoc, lastWritten_append]
    have hw := ih w.1
    have hn := ih n
    generalize g.foldl write flagDefaults = f at hw hn
    unfold write setFlag
    by_cases hin : w.1 ∈ flagMapping.map Prod.fst
    · rw [if_pos hin] at hw
      rw [hw]
      simp only [Option.isSome_some, if_true, Option.getD_some]
      unfold upd
      by_cases e : n = w.1
      · subst e
        rw [if_pos rfl, if_pos hin, if_pos rfl]
      · rw [if_neg e, if_neg (fun x : w.1 = n => e x.symm), hn]
    · rw [if_neg hin] at hw
      rw [hw]
      simp only [Option.isSome_none, Bool.false_eq_true, if_false, Option.getD_none]
      rw [hn]
      by_cases hn' : n ∈ flagMapping.map Prod.fst
      · rw [if_pos hn', if_pos hn', if_neg]
        intro e
        exact hin (e ▸ hn')
      · rw [if_neg hn', if_neg hn']

theorem registerNat_aux (m : List (String × Nat)) (f : Flags) (r i : Nat) :
    (m.foldl (fun reg e => if (f e.1).getD false then reg ||| (1 <<< e.2) else reg) r).testBit i =
      (r.testBit i || m.any (fun e => (f e.1).getD false && decide (e.2 = i))) := by
  induction m generalizing r with
  | nil => simp
  | cons e m ih =>
    rw [List.foldl_cons, ih, List.any_cons]
    by_cases h : (f e.1).getD false = true
    · rw [if_pos h, h, Nat.testBit_or, Nat.shiftLeft_eq, Nat.one_mul, Nat.testBit_two_pow]
      simp [Bool.or_assoc]
    · rw [if_neg h]
      have : (f e.1).getD false = false := by simpa using h
      rw [this]
      simp

theorem registerNat_testBit (m : List (String × Nat)) (f : Flags) (i : Nat) :
    (registerNat m f).testBit i = m.any (fun e => (f e.1).getD false && decide (e.2 = i)) := by
  unfold registerNat
  rw [registerNat_aux]
  simp

/-- The name that owns a bit of the register. -/
def owner (i : Nat) : Option String := (flagMapping.find? (fun e => decide (e.2 = i))).map Prod.fst

theorem checkFlag_eq (reg : BitVec 64) (i : Nat) : checkFlag reg i = if reg.getLsbD i then 1 else 0 := by
  unfold checkFlag
  apply BitVec.eq_of_getLsbD_eq
  intro j hj
  rw [BitVec.getLsbD_and, BitVec.getLsbD_ushiftRight]
  have h1 : (1 : BitVec 64).getLsbD j = decide (j = 0) := by
    rw [show (1 : BitVec 64) = 1#64 from rfl, BitVec.getLsbD_one]
    simp
  rw [h1]
  by_cases hj0 : j = 0
  · subst hj0
    by_cases hb : reg.getLsbD i <;> simp [hb]
  · have : decide (j = 0) = false := by simpa using hj0
    rw [this, Bool.and_false]
    by_cases hb : reg.getLsbD i
    · rw [if_pos hb, h1, this]
    · rw [if_neg hb]; simp

/-- **C29.**  After any sequence of writes (also of unknown names, which raise): every flag reads as the value last written
to it (`False` before the first write); the C code sees the same value at the position of the flag; every other
bit of the register is zero. -/
theorem C29_flags (h : List (String × Bool)) :
    (∀ e ∈ flagMapping, (h.foldl write flagDefaults) e.1 = some (lastWritten e.1 h) ∧
      checkFlag (register (h.foldl write flagDefaults)) e.2 = if lastWritten e.1 h then 1 else 0) ∧
    (∀ i, (∀ e ∈ flagMapping, e.2 ≠ i) → checkFlag (register (h.foldl write flagDefaults)) i = 0) := by
  have hreg : ∀ i, (register (h.foldl write flagDefaults)).getLsbD i =
      (decide (i < 64) && flagMapping.any (fun e => ((h.foldl write flagDefaults) e.1).getD false && decide (e.2 = i))) := by
    intro i
    unfold register
    rw [BitVec.getLsbD_ofNat, registerNat_testBit]
  have hval : ∀ e ∈ flagMapping, (h.foldl write flagDefaults) e.1 = some (lastWritten e.1 h) := by
    intro e he
    rw [history_flags, if_pos (List.mem_map.mpr ⟨e, he, rfl⟩)]
  constructor
  · intro e he
    refine ⟨hval e he, ?_⟩
    rw [checkFlag_eq, hreg]
    have h64 : e.2 < 64 := by
      have : ∀ e ∈ flagMapping, e.2 < 64 := by decide
      exact this e he
    have hany : flagMapping.any (fun e' => ((h.foldl write flagDefaults) e'.1).getD false && decide (e'.2 = e.2)) =
        lastWritten e.1 h := by
      have hinj : ∀ e' ∈ flagMapping, ∀ e ∈ flagMapping, e'.2 = e.2 → e' = e := by decide
      rw [Bool.eq_iff_iff, List.any_eq_true]
      constructor
      · rintro ⟨e', he', hx⟩
        rw [Bool.and_eq_true, decide_eq_true_eq] at hx
        have := hinj e' he' e he hx.2
        subst this
        rw [hval e' he'] at hx
        exact hx.1
      · intro hx
        refine ⟨e, he, ?_⟩
        rw [hval e he]
        simpa using hx
    rw [hany]
    simp [h64]
  · intro i hi
    rw [checkFlag_eq, hreg]
    have : flagMapping.any (fun e' => ((h.foldl write flagDefaults) e'.1).getD false && decide (e'.2 = i)) = false := by
      rw [Bool.eq_false_iff]
      intro hx
      obtain ⟨e', he', hx⟩ := List.any_eq_true.mp hx
      rw [Bool.and_eq_true, decide_eq_true_eq] at hx
      exact hi e' he' hx.2
    rw [this]
    simp

/-- Writing one flag leaves the others alone. -/
theorem C29_independent (h : List (String × Bool)) (n n' : String) (v : Bool) (hne : n' ≠ n) :
    ((h ++ [(n, v)]).foldl write flagDefaults) n' = (h.foldl write flagDefaults) n' := by
  rw [foldl_snoc]
  generalize h.foldl write flagDefaults = f
  unfold write setFlag
  split
  · simp only [Option.getD_some, upd]
    rw [if_neg hne]
  · rfl

example : lastWritten "XS_FLAG_SR_TAPER" [("XS_FLAG_SR_TAPER", true), ("XS_FLAG_BACKTRACK", true), ("XS_FLAG_SR_TAPER", false)] = false
    ∧ register ([("XS_FLAG_SR_TAPER", true), ("XS_FLAG_BACKTRACK", true)].foldl write flagDefaults) = 33#64 := by
  decide +kernel

/-! ## C54 -/

/-- Programs that write flags or configuration only inside a context that restores them. -/
inductive Clean : (inFlags inCfg : Bool) → Prog → Prop where
  | skip {a b} : Clean a b .skip
  | note {a b} : Clean a b .note
  | raise {a b} : Clean a b .raise
  | writeFlag {b} (n v) : Clean true b (.writeFlag n v)
  | writeItem {a} (k v) : Clean a true (.writeItem k v)
  | writeAttr {a} (k v) : Clean a true (.writeAttr k v)
  | freezeEnergy {a} (f) : Clean a true (.freezeEnergy f)
  | seq {a b p q} : Clean a b p → Clean a b q → Clean a b (.seq p q)
  | catching {a b p q} : Clean a b p → Clean a b q → Clean a b (.catching p q)
  | look {a b f} : (∀ s, Clean a b (f s)) → Clean a b (.look f)
  | withFlags {a b p} : Clean true b p → Clean a b (.withFlags p)
  | withConfig {a b p} : Clean a true p → Clean a b (.withConfig p)
  | withFreezeLongitudinal {a b p} : Clean a true p → Clean a b (.withFreezeLongitudinal p)

theorem visible_ofItems (c : Cfg) : visible (ofItems (ofItems c)) = visible c := by
  funext n
  unfold visible ofItems
  by_cases h : c n = some .fals <;> simp [h]

theorem exec_clean {a b : Bool} {p : Prog} (h : Clean a b p) :
    ∀ s, (a = false → (exec p s).1.flags = s.flags) ∧ (b = false → visible (exec p s).1.cfg = visible s.cfg) ∧
      (exec p s).1.collective = s.collective := by
  induction h with
  | skip => intro s; exact ⟨fun _ => rfl, fun _ => rfl, rfl⟩
  | note => intro s; exact ⟨fun _ => rfl, fun _ => rfl, rfl⟩
  | raise => intro s; exact ⟨fun _ => rfl, fun _ => rfl, rfl⟩
  | writeFlag n v =>
    intro s
    refine ⟨fun h => absurd h (by simp), ?_, ?_⟩ <;> (unfold exec; split <;> simp)
  | writeItem k v => intro s; exact ⟨fun _ => rfl, fun h => absurd h (by simp), rfl⟩
  | writeAttr k v => intro s; exact ⟨fun _ => rfl, fun h => absurd h (by simp), rfl⟩
  | freezeEnergy f =>
    intro s
    refine ⟨fun _ => ?_, fun h => absurd h (by simp), ?_⟩ <;> (unfold exec; split <;> rfl)
  | seq _ _ ihp ihq =>
    intro s
    rename_i a b p q _ _
    obtain ⟨p1, p2, p3⟩ := ihp s
    obtain ⟨q1, q2, q3⟩ := ihq (exec p s).1
    unfold exec
    simp only
    split
    · exact ⟨p1, p2, p3⟩
    · exact ⟨fun h => (q1 h).trans (p1 h), fun h => (q2 h).trans (p2 h), q3.trans p3⟩
  | catching _ _ ihp ihq =>
    intro s
    rename_i a b p q _ _
    obtain ⟨p1, p2, p3⟩ := ihp s
    obtain ⟨q1, q2, q3⟩ := ihq (exec p s).1
    unfold exec
    simp only
    split
    · exact ⟨fun h => (q1 h).trans (p1 h), fun h => (q2 h).trans (p2 h), q3.trans p3⟩
    · exact ⟨p1, p2, p3⟩
  | look _ ih =>
    intro s
    rename_i f _
    have := ih s s
    unfold exec
    exact this
  | withFlags _ ih =>
    intro s
    obtain ⟨_, p2, p3⟩ := ih s
    unfold exec restoreFlags
    exact ⟨fun _ => rfl, p2, p3⟩
  | withConfig _ ih =>
    intro s
    obtain ⟨p1, _, p3⟩ := ih s
    unfold exec restoreCfg
    exact ⟨p1, fun _ => visible_ofItems _, p3⟩
  | withFreezeLongitudinal _ ih =>
    intro s
    unfold exec
    split
    · exact ⟨fun _ => rfl, fun _ => rfl, rfl⟩
    · rename_i p _ _
      obtain ⟨p1, _, p3⟩ := ih { s with cfg := freezeVars s.cfg (energyVars ++ ["zeta"]) }
      unfold restoreCfg
      exact ⟨p1, fun _ => visible_ofItems _, p3⟩

/-- **C54.**  Whatever happens inside, exceptions included, the contexts give back the flags and the configuration as the
kernels see it: for every program that changes them only inside contexts, at any nesting. -/
theorem C54_contexts_restore (p : Prog) (h : Clean false false p) (s : St) :
    (exec p s).1.flags = s.flags ∧ visible (exec p s).1.cfg = visible s.cfg :=
  ⟨(exec_clean h s).1 rfl, (exec_clean h s).2.1 rfl⟩

theorem clean_writeFlags {b : Bool} (l : List (String × Bool)) : Clean true b (writeFlags l) := by
  induction l with
  | nil => exact .skip
  | cons e l ih => exact .seq (.writeFlag _ _) ih

theorem clean_writeAttrs {a : Bool} (l : List (String × Val)) : Clean a true (writeAttrs l) := by
  induction l with
  | nil => exact .skip
  | cons e l ih => exact .seq (.writeAttr _ _) ih

theorem Clean.mono {a b a' b' : Bool} {p : Prog} (h : Clean a b p) (ha : a = true → a' = true) (hb : b = true → b' = true) :
    Clean a' b' p := by
  induction h generalizing a' b' with
  | skip => exact .skip
  | note => exact .note
  | raise => exact .raise
  | writeFlag n v => rw [ha rfl]; exact .writeFlag n v
  | writeItem n v => rw [hb rfl]; exact .writeItem n v
  | writeAttr n v => rw [hb rfl]; exact .writeAttr n v
  | freezeEnergy f => rw [hb rfl]; exact .freezeEnergy f
  | seq _ _ i1 i2 => exact .seq (i1 ha hb) (i2 ha hb)
  | catching _ _ i1 i2 => exact .catching (i1 ha hb) (i2 ha hb)
  | look _ ih => exact .look (fun s => ih s ha hb)
  | withFlags _ ih => exact .withFlags (ih (fun _ => rfl) hb)
  | withConfig _ ih => exact .withConfig (ih ha (fun _ => rfl))
  | withFreezeLongitudinal _ ih => exact .withFreezeLongitudinal (ih ha (fun _ => rfl))

theorem clean_twiss (a : TwissArgs) (body : Prog) (h : Clean false false body) : Clean false false (twiss a body) := by
  have hb : ∀ x y, Clean x y body := fun x y => h.mono (fun e => absurd e (by simp)) (fun e => absurd e (by simp))
  have h1 : ∀ x y u, Clean x y (applyCfg u body) := by
    intro x y u
    unfold applyCfg
    split
    · exact hb x y
    · exact .withConfig (.seq (clean_writeAttrs u) (hb _ _))
  have h2 : ∀ x y u v, Clean x y (applyFlags u (applyCfg v body)) := by
    intro x y u v
    unfold applyFlags
    split
    · exact h1 x y v
    · exact .withFlags (.seq (clean_writeFlags u) (h1 _ _ v))
  unfold twiss
  refine .look (fun s => ?_)
  unfold applyFreeze
  split
  · exact .withFreezeLongitudinal (h2 _ _ _ _)
  · split
    · refine .look (fun s => ?_)
      split
      · exact h2 _ _ _ _
      · exact .withConfig (.seq (.freezeEnergy true) (h2 _ _ _ _))
    · exact h2 _ _ _ _

/-- **C54, twiss and tracking backwards.**  They leave flags and configuration as they were, also when they raise. -/
theorem C54_twiss_restores (a : TwissArgs) (body : Prog) (h : Clean false false body) (s : St) :
    (exec (twiss a body) s).1.flags = s.flags ∧ visible (exec (twiss a body) s).1.cfg = visible s.cfg :=
  C54_contexts_restore _ (clean_twiss a body h) s

theorem C54_backtrack_restores (p : Prog) (s : St) : (exec (backtrack p) s).1.flags = s.flags := rfl

/-! ### What the body sees -/

theorem setItem_tru (c : Cfg) (k : String) : setItem c k .tru = upd c k .tru := by
  unfold setItem
  rw [if_neg]
  intro h
  exact absurd h.1 (by decide)

theorem freezeVars_get (c : Cfg) (names : List String) (n : String) :
    freezeVars c names n = if n ∈ names.map (fun v => "FREEZE_VAR_" ++ v) then some .tru else c n := by
  unfold freezeVars
  induction names generalizing c with
  | nil => simp
  | cons v names ih =>
    rw [List.foldl_cons, ih, setItem_tru, List.map_cons]
    by_cases h : n ∈ names.map (fun v => "FREEZE_VAR_" ++ v)
    · rw [if_pos h, if_pos (List.mem_cons_of_mem _ h)]
    · rw [if_neg h]
      unfold upd
      by_cases e : n = "FREEZE_VAR_" ++ v
      · rw [if_pos e, if_pos (by rw [e]; exact List.mem_cons_self)]
      · rw [if_neg e, if_neg]
        intro hm
        rcases List.mem_cons.mp hm with hm | hm
        · exact e hm
        · exact h hm

/-- Flags as requested: the ones of the list at the requested value, the others untouched. -/
def withUpdates (f : Flags) (u : List (String × Bool)) : Flags := u.foldl (fun f e => upd f e.1 e.2) f

theorem exec_writeFlags (u : List (String × Bool)) (s : St) (hu : ∀ e ∈ u, (s.flags e.1).isSome) :
    exec (writeFlags u) s = ({ s with flags := withUpdates s.flags u }, false) := by
  induction u generalizing s with
  | nil => rfl
  | cons e u ih =>
    have h1 : exec (.writeFlag e.1 e.2) s = ({ s with flags := upd s.flags e.1 e.2 }, false) := by
      unfold exec setFlag
      rw [if_pos (hu e List.mem_cons_self)]
    rw [writeFlags]
    unfold exec
    rw [h1]
    simp only [Bool.false_eq_true, if_false]
    rw [ih]
    · rfl
    · intro e' he'
      show (upd s.flags e.1 e.2 e'.1).isSome
      unfold upd
      split
      · rfl
      · exact hu e' (List.mem_cons_of_mem _ he')

/-- Tracking backwards happens with the backtracking flag set and the other flags as they were. -/
theorem C54_backtrack_inside (s : St) (h : (s.flags "XS_FLAG_BACKTRACK").isSome) :
    (exec (backtrack .note) s).1.log =
      (fun n => if n = "XS_FLAG_BACKTRACK" then some true else s.flags n, s.cfg) :: s.log := by
  unfold backtrack
  simp only [exec, restoreFlags, setFlag, if_pos h, Bool.false_eq_true, if_false]
  rfl

theorem upd_same {V : Type} (d : String → Option V) (k : String) (v : V) (h : d k = some v) : upd d k v = d := by
  funext n
  unfold upd
  by_cases e : n = k
  · rw [if_pos e, e, h]
  · rw [if_neg e]

theorem withUpdates_get (f : Flags) (u : List (String × Bool)) (hv : ∀ e ∈ u, e.2 = true) (n : String) :
    withUpdates f u n = if n ∈ u.map Prod.fst then some true else f n := by
  unfold withUpdates
  induction u generalizing f with
  | nil => simp
  | cons e u ih =>
    rw [List.foldl_cons, ih _ (fun e he => hv e (List.mem_cons_of_mem _ he)), List.map_cons]
    by_cases h : n ∈ u.map Prod.fst
    · rw [if_pos h, if_pos (List.mem_cons_of_mem _ h)]
    · rw [if_neg h]
      unfold upd
      by_cases h2 : n = e.1
      · rw [if_pos h2, if_pos (by rw [h2]; exact List.mem_cons_self), hv e List.mem_cons_self]
      · rw [if_neg h2, if_neg]
        intro hm
        rcases List.mem_cons.mp hm with hm | hm
        · exact h2 hm
        · exact h hm

theorem withUpdates_filter (f : Flags) (u : List (String × Bool)) (hv : ∀ e ∈ u, e.2 = true) :
    withUpdates f (u.filter (fun e => decide (f e.1 ≠ some e.2))) = withUpdates f u := by
  funext n
  rw [withUpdates_get f u hv, withUpdates_get f _ (fun e he => hv e ((List.mem_filter.mp he).1))]
  by_cases h : n ∈ u.map Prod.fst
  · rw [if_pos h]
    by_cases h2 : n ∈ (u.filter (fun e => decide (f e.1 ≠ some e.2))).map Prod.fst
    · rw [if_pos h2]
    · rw [if_neg h2]
      obtain ⟨e, he, rfl⟩ := List.mem_map.mp h
      rcases Decidable.em (f e.1 = some e.2) with hf | hf
      · rw [hf, hv e he]
      · exact absurd (List.mem_map.mpr ⟨e, List.mem_filter.mpr ⟨he, by simpa using hf⟩, rfl⟩) h2
  · rw [if_neg h, if_neg]
    intro h2
    obtain ⟨e, he, rfl⟩ := List.mem_map.mp h2
    exact h (List.mem_map.mpr ⟨e, (List.mem_filter.mp he).1, rfl⟩)

/-- Flags that the options ask for. -/
def TwissArgs.wants (a : TwissArgs) (n : String) : Prop :=
  (a.disableApertures = true ∧ (n = "XS_FLAG_IGNORE_GLOBAL_APERTURE" ∨ n = "XS_FLAG_IGNORE_LOCAL_APERTURE")) ∨
  (a.method4d = true ∧ n = "XS_FLAG_KILL_CAVITY_KICK") ∨
  (a.kickAsCo = true ∧ n = "XS_FLAG_SR_KICK_SAME_AS_FIRST")

instance (a : TwissArgs) (n : String) : Decidable (a.wants n) := by unfold TwissArgs.wants; infer_instance

/-- Settings that the options ask for. -/
def TwissArgs.wantsCfg (a : TwissArgs) (n : String) : Prop :=
  (a.kickAsCo = false ∧ a.scaleAsCo = true ∧ n = "XTRACK_SYNRAD_SCALE_SAME_AS_FIRST") ∨
  ((a.freezeLongitudinal = true ∨ a.freezeEnergy = true) ∧ n ∈ energyVars.map (fun v => "FREEZE_VAR_" ++ v)) ∨
  (a.freezeLongitudinal = true ∧ n = "FREEZE_VAR_zeta")

theorem flagUpdates_true (a : TwissArgs) : ∀ e ∈ a.flagUpdates, e.2 = true := by
  unfold TwissArgs.flagUpdates
  intro e he
  simp only [List.mem_append] at he
  rcases he with (he | he) | he <;> (split at he <;> simp at he)
  · rcases he with he | he <;> rw [he]
  · rw [he]
  · rw [he]

theorem flagUpdates_mem (a : TwissArgs) (n : String) : n ∈ a.flagUpdates.map Prod.fst ↔ a.wants n := by
  unfold TwissArgs.flagUpdates TwissArgs.wants
  cases a.disableApertures <;> cases a.method4d <;> cases a.kickAsCo <;>
    simp [or_assoc]

theorem flagUpdates_known (a : TwissArgs) : ∀ e ∈ a.flagUpdates, e.1 ∈ flagMapping.map Prod.fst := by
  intro e he
  have := (flagUpdates_mem a e.1).mp (List.mem_map.mpr ⟨e, he, rfl⟩)
  unfold TwissArgs.wants at this
  rcases this with ⟨_, h | h⟩ | ⟨_, h⟩ | ⟨_, h⟩ <;> (rw [h]; decide)

/-- A setting is in force. -/
def On (v : Option Val) : Prop := v ≠ none ∧ v ≠ some .fals ∧ v ≠ some (.other 0)

theorem exec_applyCfg (a : TwissArgs) (c0 : Cfg) (s : St) :
    ∃ c, (exec (applyCfg (a.cfgUpdates.filter (fun e => decide (c0 e.1 ≠ some e.2))) .note) s) =
        ({ (exec (applyCfg (a.cfgUpdates.filter (fun e => decide (c0 e.1 ≠ some e.2))) .note) s).1 with
            log := (s.flags, c) :: s.log }, false) ∧
      (∀ n, n ≠ "XTRACK_SYNRAD_SCALE_SAME_AS_FIRST" → c n = s.cfg n) ∧
      (c "XTRACK_SYNRAD_SCALE_SAME_AS_FIRST" = s.cfg "XTRACK_SYNRAD_SCALE_SAME_AS_FIRST" ∨
        (a.kickAsCo = false ∧ a.scaleAsCo = true) ∧ c "XTRACK_SYNRAD_SCALE_SAME_AS_FIRST" = some .tru) ∧
      ((a.kickAsCo = false ∧ a.scaleAsCo = true) → c0 "XTRACK_SYNRAD_SCALE_SAME_AS_FIRST" = s.cfg "XTRACK_SYNRAD_SCALE_SAME_AS_FIRST" →
        c "XTRACK_SYNRAD_SCALE_SAME_AS_FIRST" = some .tru) := by
  unfold TwissArgs.cfgUpdates
  by_cases h : (!a.kickAsCo && a.scaleAsCo) = true
  · rw [if_pos h]
    have h' : a.kickAsCo = false ∧ a.scaleAsCo = true := by simpa using h
    by_cases hc : c0 "XTRACK_SYNRAD_SCALE_SAME_AS_FIRST" = some .tru
    · have : ([("XTRACK_SYNRAD_SCALE_SAME_AS_FIRST", Val.tru)].filter (fun e => decide (c0 e.1 ≠ some e.2))) = [] := by
        simp [hc]
      rw [this]
      refine ⟨s.cfg, rfl, fun _ _ => rfl, Or.inl rfl, fun _ e => ?_⟩
      rw [← e, hc]
    · have : ([("XTRACK_SYNRAD_SCALE_SAME_AS_FIRST", Val.tru)].filter (fun e => decide (c0 e.1 ≠ some e.2))) =
          [("XTRACK_SYNRAD_SCALE_SAME_AS_FIRST", Val.tru)] := by
        simp [hc]
      rw [this]
      refine ⟨upd s.cfg "XTRACK_SYNRAD_SCALE_SAME_AS_FIRST" .tru, rfl, ?_, Or.inr ⟨h', ?_⟩, fun _ _ => ?_⟩
      · intro n hn
        unfold upd
        rw [if_neg hn]
      · unfold upd; rw [if_pos rfl]
      · unfold upd; rw [if_pos rfl]
  · rw [if_neg h]
    refine ⟨s.cfg, rfl, fun _ _ => rfl, Or.inl rfl, fun h2 => ?_⟩
    exact absurd (by simp [h2.1, h2.2]) h

theorem exec_applyFlags (u : List (String × Bool)) (rest : Prog) (s : St) (hu : ∀ e ∈ u, (s.flags e.1).isSome) :
    (exec (applyFlags u rest) s).1.log = (exec rest { s with flags := withUpdates s.flags u }).1.log ∧
    (exec (applyFlags u rest) s).2 = (exec rest { s with flags := withUpdates s.flags u }).2 := by
  unfold applyFlags
  split
  · rename_i h
    subst h
    exact ⟨rfl, rfl⟩
  · simp only [exec, exec_writeFlags u s hu, restoreFlags, Bool.false_eq_true, if_false, and_self]

/-- **C54, twiss: what the computation sees.**  It runs with exactly the requested flags set in addition to the ones of the
user; requested settings are in force and the others are the ones of the user.  It does not start only if longitudinal
freezing is requested for a collective line. -/
theorem C54_twiss_inside (a : TwissArgs) (s : St) (hk : ∀ n ∈ flagMapping.map Prod.fst, (s.flags n).isSome)
    (hcol : a.freezeLongitudinal = true → s.collective = false) :
    ∃ f c, (exec (twiss a .note) s).1.log = (f, c) :: s.log ∧ (exec (twiss a .note) s).2 = false ∧
      (∀ n, f n = if a.wants n then some true else s.flags n) ∧
      (∀ n, a.wantsCfg n → On (c n)) ∧ (∀ n, ¬ a.wantsCfg n → c n = s.cfg n) := by
  have hu : ∀ e ∈ a.flagUpdates.filter (fun e => decide (s.flags e.1 ≠ some e.2)), (s.flags e.1).isSome :=
    fun e he => hk _ (flagUpdates_known a e ((List.mem_filter.mp he).1))
  -- flags and log for any configuration in which the rest is entered
  have core : ∀ c1 : Cfg,
      c1 "XTRACK_SYNRAD_SCALE_SAME_AS_FIRST" = s.cfg "XTRACK_SYNRAD_SCALE_SAME_AS_FIRST" →
      ∃ c, (exec (applyFlags (a.flagUpdates.filter (fun e => decide (s.flags e.1 ≠ some e.2)))
          (applyCfg (a.cfgUpdates.filter (fun e => decide (s.cfg e.1 ≠ some e.2))) .note)) { s with cfg := c1 }).1.log =
          (fun n => if a.wants n then some true else s.flags n, c) :: s.log ∧
        (exec (applyFlags (a.flagUpdates.filter (fun e => decide (s.flags e.1 ≠ some e.2)))
          (applyCfg (a.cfgUpdates.filter (fun e => decide (s.cfg e.1 ≠ some e.2))) .note)) { s with cfg := c1 }).2 = false ∧
        (∀ n, n ≠ "XTRACK_SYNRAD_SCALE_SAME_AS_FIRST" → c n = c1 n) ∧
        ((a.kickAsCo = false ∧ a.scaleAsCo = true) → c "XTRACK_SYNRAD_SCALE_SAME_AS_FIRST" = some .tru) ∧
        (¬ (a.kickAsCo = false ∧ a.scaleAsCo = true) →
          c "XTRACK_SYNRAD_SCALE_SAME_AS_FIRST" = s.cfg "XTRACK_SYNRAD_SCALE_SAME_AS_FIRST") := by
    intro c1 hc1
    obtain ⟨e1, e2⟩ := exec_applyFlags (a.flagUpdates.filter (fun e => decide (s.flags e.1 ≠ some e.2)))
      (applyCfg (a.cfgUpdates.filter (fun e => decide (s.cfg e.1 ≠ some e.2))) .note) { s with cfg := c1 } hu
    obtain ⟨c, r1, r2, r3, r4⟩ := exec_applyCfg a s.cfg
      { s with cfg := c1, flags := withUpdates s.flags (a.flagUpdates.filter (fun e => decide (s.flags e.1 ≠ some e.2))) }
    refine ⟨c, ?_, ?_, r2, ?_, ?_⟩
    · rw [e1, r1]
      have : withUpdates s.flags (a.flagUpdates.filter (fun e => decide (s.flags e.1 ≠ some e.2))) =
          fun n => if a.wants n then some true else s.flags n := by
        rw [withUpdates_filter _ _ (flagUpdates_true a)]
        funext n
        rw [withUpdates_get _ _ (flagUpdates_true a)]
        simp only [flagUpdates_mem]
      show (withUpdates s.flags (a.flagUpdates.filter (fun e => decide (s.flags e.1 ≠ some e.2))), c) :: s.log = _
      rw [this]
    · rw [e2, r1]
    · intro h; exact r4 h hc1.symm
    · intro h
      rcases r3 with r3 | r3
      · rw [r3]; exact hc1
      · exact absurd r3.1 h
  have scale_ne : "XTRACK_SYNRAD_SCALE_SAME_AS_FIRST" ∉ (energyVars ++ ["zeta"]).map (fun v => "FREEZE_VAR_" ++ v) := by decide +kernel
  have scale_ne' : "XTRACK_SYNRAD_SCALE_SAME_AS_FIRST" ∉ energyVars.map (fun v => "FREEZE_VAR_" ++ v) := by decide +kernel
  have hOn : On (some Val.tru) := ⟨by decide, by decide, by decide⟩
  -- assembling: `c1` is the configuration after freezing
  have fin : ∀ (c1 c : Cfg),
      (∀ n, n ≠ "XTRACK_SYNRAD_SCALE_SAME_AS_FIRST" → c n = c1 n) →
      ((a.kickAsCo = false ∧ a.scaleAsCo = true) → c "XTRACK_SYNRAD_SCALE_SAME_AS_FIRST" = some .tru) →
      (¬ (a.kickAsCo = false ∧ a.scaleAsCo = true) →
          c "XTRACK_SYNRAD_SCALE_SAME_AS_FIRST" = s.cfg "XTRACK_SYNRAD_SCALE_SAME_AS_FIRST") →
      (∀ n, ((a.freezeLongitudinal = true ∨ a.freezeEnergy = true) ∧ n ∈ energyVars.map (fun v => "FREEZE_VAR_" ++ v)) ∨
          (a.freezeLongitudinal = true ∧ n = "FREEZE_VAR_zeta") → On (c1 n)) →
      (∀ n, ¬ (((a.freezeLongitudinal = true ∨ a.freezeEnergy = true) ∧ n ∈ energyVars.map (fun v => "FREEZE_VAR_" ++ v)) ∨
          (a.freezeLongitudinal = true ∧ n = "FREEZE_VAR_zeta")) → c1 n = s.cfg n) →
      (∀ n, a.wantsCfg n → On (c n)) ∧ (∀ n, ¬ a.wantsCfg n → c n = s.cfg n) := by
    intro c1 c h1 h2 h3 h4 h5
    constructor
    · intro n hn
      rcases hn with ⟨k1, k2, k3⟩ | hn
      · rw [k3, h2 ⟨k1, k2⟩]; exact hOn
      · have hne : n ≠ "XTRACK_SYNRAD_SCALE_SAME_AS_FIRST" := by
          rintro rfl
          rcases hn with ⟨_, hn⟩ | ⟨_, hn⟩
          · exact scale_ne' hn
          · exact absurd hn (by decide +kernel)
        rw [h1 n hne]
        exact h4 n hn
    · intro n hn
      by_cases hne : n = "XTRACK_SYNRAD_SCALE_SAME_AS_FIRST"
      · subst hne
        apply h3
        intro hx
        exact hn (Or.inl ⟨hx.1, hx.2, rfl⟩)
      · rw [h1 n hne]
        apply h5
        intro hx
        exact hn (Or.inr hx)
  unfold twiss
  rw [exec]
  unfold applyFreeze
  by_cases hL : a.freezeLongitudinal = true
  · rw [if_pos hL]
    obtain ⟨c, g1, g2, g3, g4, g5⟩ := core (freezeVars s.cfg (energyVars ++ ["zeta"]))
      (by rw [freezeVars_get, if_neg scale_ne])
    refine ⟨_, c, ?_, ?_, fun n => rfl, fin _ c g3 g4 g5 ?_ ?_⟩
    · rw [exec, if_neg (by rw [hcol hL]; decide)]
      exact g1
    · rw [exec, if_neg (by rw [hcol hL]; decide)]
      exact g2
    · intro n hn
      have : n ∈ (energyVars ++ ["zeta"]).map (fun v => "FREEZE_VAR_" ++ v) := by
        rw [List.map_append, List.mem_append]
        rcases hn with ⟨_, hn⟩ | ⟨_, hn⟩
        · exact Or.inl hn
        · exact Or.inr (by rw [hn]; decide +kernel)
      rw [freezeVars_get, if_pos this]
      exact hOn
    · intro n hn
      rw [freezeVars_get, if_neg]
      intro hm
      apply hn
      rw [List.map_append, List.mem_append] at hm
      rcases hm with hm | hm
      · exact Or.inl ⟨Or.inl hL, hm⟩
      · refine Or.inr ⟨hL, ?_⟩
        have : ["zeta"].map (fun v => "FREEZE_VAR_" ++ v) = ["FREEZE_VAR_zeta"] := by decide +kernel
        rw [this] at hm
        exact List.mem_singleton.mp hm
  · rw [if_neg hL]
    by_cases hE : a.freezeEnergy = true
    · rw [if_pos hE, exec]
      by_cases hf : energyIsFrozen s.cfg = true
      · rw [if_pos hf]
        obtain ⟨c, g1, g2, g3, g4, g5⟩ := core s.cfg rfl
        refine ⟨_, c, g1, g2, fun n => rfl, fin _ c g3 g4 g5 ?_ (fun _ _ => rfl)⟩
        intro n hn
        rcases hn with ⟨_, hn⟩ | ⟨hn, _⟩
        · obtain ⟨v, hv, rfl⟩ := List.mem_map.mp hn
          unfold energyIsFrozen at hf
          have := List.all_eq_true.mp hf v hv
          simpa [On] using this
        · exact absurd hn hL
      · rw [if_neg hf]
        obtain ⟨c, g1, g2, g3, g4, g5⟩ := core (freezeVars s.cfg energyVars)
          (by rw [freezeVars_get, if_neg scale_ne'])
        refine ⟨_, c, ?_, ?_, fun n => rfl, fin _ c g3 g4 g5 ?_ ?_⟩
        · simp only [exec, restoreCfg, Bool.not_true, Bool.false_and, Bool.false_eq_true, if_false]
          exact g1
        · simp only [exec, restoreCfg, Bool.not_true, Bool.false_and, Bool.false_eq_true, if_false]
          exact g2
        · intro n hn
          rcases hn with ⟨_, hn⟩ | ⟨hn, _⟩
          · rw [freezeVars_get, if_pos hn]; exact hOn
          · exact absurd hn hL
        · intro n hn
          rw [freezeVars_get, if_neg]
          intro hm
          exact hn (Or.inl ⟨Or.inr hE, hm⟩)
    · rw [if_neg hE]
      obtain ⟨c, g1, g2, g3, g4, g5⟩ := core s.cfg rfl
      refine ⟨_, c, g1, g2, fun n => rfl, fin _ c g3 g4 g5 ?_ (fun _ _ => rfl)⟩
      intro n hn
      rcases hn with ⟨hn | hn, _⟩ | ⟨hn, _⟩
      · exact absurd hn hL
      · exact absurd hn hE
      · exact absurd hn hL

/-- A twiss with flags and settings to change, inside of which a backtracking raises. -/
example : Clean false false (twiss ⟨true, true, false, true, false, true⟩ (backtrack (.seq .note .raise))) := by
  apply clean_twiss
  exact .withFlags (.seq (.writeFlag _ _) (.seq .note .raise))

end Verif.Config
