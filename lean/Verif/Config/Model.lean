/-!
# Track flags, tracker configuration and the contexts that change them temporarily

Sources (in /repo/xtrack): track_flags.py, tracker.py (class `TrackerConfig`, lines 1696-1728; `_hashable_config`, 1535-1537;
`_track_no_collective`, 1219-1235), particles/particles.py (lines 128-130), line.py (`_preserve_config`,
`_preserve_track_flags`, `freeze_longitudinal`, lines 7911-7945; `freeze_energy` ... `unfreeze_vars`, 4415-4507), twiss/twiss.py
(`_apply_twiss_line_context`, 660-680), twiss/twiss_defaults_and_input_preparation.py (`_get_twiss_line_context_updates`, 400-430).

Python dictionaries are modelled by what lookup returns (`String → Option V`); the order of keys is not observable here.
-/

namespace Verif.Config

/-! ## Track flags -/

/-- track_flags.py:5-12, `flag_mapping`. -/
abbrev flagMapping : List (String × Nat) :=
  [("XS_FLAG_BACKTRACK", 0), ("XS_FLAG_KILL_CAVITY_KICK", 2), ("XS_FLAG_IGNORE_GLOBAL_APERTURE", 3),
   ("XS_FLAG_IGNORE_LOCAL_APERTURE", 4), ("XS_FLAG_SR_TAPER", 5), ("XS_FLAG_SR_KICK_SAME_AS_FIRST", 6)]

/-- The dictionary `flags` of a `TrackFlags` object (values are truth values). -/
abbrev Flags := String → Option Bool

/-- track_flags.py:14-21, `flag_defaults` (same keys as `flag_mapping`, all `False`). -/
def flagDefaults : Flags := fun n => if n ∈ flagMapping.map Prod.fst then some false else none

/-- `d[k] = v` on a dictionary. -/
def upd {V : Type} (d : String → Option V) (k : String) (v : V) : String → Option V :=
  fun n => if n = k then some v else d n

/-- track_flags.py:64-71, `__setattr__`: unknown names raise `KeyError` (`none`). -/
def setFlag (f : Flags) (n : String) (v : Bool) : Option Flags :=
  if (f n).isSome then some (upd f n v) else none

/-- track_flags.py:42-48, `get_flags_register` (a Python integer, then `np.uint64`). -/
def registerNat (m : List (String × Nat)) (f : Flags) : Nat :=
  m.foldl (fun reg e => if (f e.1).getD false then reg ||| (1 <<< e.2) else reg) 0

/-- track_flags.py:42-50; the cast to `np.uint64`. -/
def register (f : Flags) : BitVec 64 := BitVec.ofNat 64 (registerNat flagMapping f)

/-- particles.py:128-130, `LocalParticle_check_track_flag`. -/
def checkFlag (reg : BitVec 64) (index : Nat) : BitVec 64 := (reg >>> index) &&& 1

/-- A write by the user; a write that raises leaves the flags as they were. -/
def write (f : Flags) (w : String × Bool) : Flags := (setFlag f w.1 w.2).getD f

/-! ## Tracker configuration -/

/-- Values stored in the configuration. -/
inductive Val where
  | tru
  | fals
  | none
  | other (n : Int)
  deriving DecidableEq

/-- Contents of a `TrackerConfig`. -/
abbrev Cfg := String → Option Val

/-- tracker.py:1698-1702, `__setitem__`. -/
def setItem (c : Cfg) (k : String) (v : Val) : Cfg :=
  if v = .fals ∧ (c k).isSome then fun n => if n = k then Option.none else c n
  else upd c k v

/-- tracker.py:1704-1714, `__setattr__`. -/
def setAttr (c : Cfg) (k : String) (v : Val) : Cfg :=
  if v ≠ .fals ∧ v ≠ .none then upd c k v
  else if (c k).isSome then fun n => if n = k then Option.none else c n
  else c

/-- tracker.py:1724-1728, `update` of an empty configuration (as used by the contexts): all items of the other one, then
the ones that are `False` deleted. -/
def ofItems (c : Cfg) : Cfg := fun n => if c n = some .fals then Option.none else c n

/-- tracker.py:1535-1537, `_hashable_config`: what selects the compiled kernel (items that are not `False`). -/
def visible (c : Cfg) : Cfg := fun n => if c n = some .fals then Option.none else c n

/-- particles.py, `part_energy_varnames()`. -/
abbrev energyVars : List String := ["ptau", "delta", "rpp", "rvv"]

/-- line.py:4485-4486, `freeze_vars`. -/
def freezeVars (c : Cfg) (names : List String) : Cfg :=
  names.foldl (fun c n => setItem c ("FREEZE_VAR_" ++ n) .tru) c

/-- line.py:4438-4443, `_energy_is_frozen` (the comparison with `False` is also true for the number 0). -/
def energyIsFrozen (c : Cfg) : Bool :=
  energyVars.all (fun n => decide (c ("FREEZE_VAR_" ++ n) ≠ Option.none ∧ c ("FREEZE_VAR_" ++ n) ≠ some .fals ∧
    c ("FREEZE_VAR_" ++ n) ≠ some (.other 0)))

/-! ## Programs with contexts -/

/-- State of a line: flags, configuration, whether the line is collective; `log` collects what the body of a context sees
(only for stating properties). -/
structure St where
  flags : Flags
  cfg : Cfg
  collective : Bool
  log : List (Flags × Cfg)

/-- User programs: writes, exceptions, the contexts, and programs that depend on the state. -/
inductive Prog where
  | skip
  | note
  | raise
  | writeFlag (n : String) (v : Bool)
  | writeItem (k : String) (v : Val)
  | writeAttr (k : String) (v : Val)
  | freezeEnergy (force : Bool)
  | seq (p q : Prog)
  | catching (p q : Prog)
  | look (f : St → Prog)
  | withFlags (p : Prog)
  | withConfig (p : Prog)
  | withFreezeLongitudinal (p : Prog)

/-- Exit of `_preserve_track_flags` (line.py:7927-7929): `clear` and `update`. -/
def restoreFlags (old : Flags) (r : St × Bool) : St × Bool := ({ r.1 with flags := old }, r.2)

/-- Exit of `_preserve_config` and `freeze_longitudinal` (line.py:7919-7921, 7942-7944). -/
def restoreCfg (old : Cfg) (r : St × Bool) : St × Bool := ({ r.1 with cfg := ofItems (ofItems old) }, r.2)

/-- Execution; the flag of the result tells that an exception is propagating. -/
def exec : Prog → St → St × Bool
  | .skip, s => (s, false)
  | .note, s => ({ s with log := (s.flags, s.cfg) :: s.log }, false)
  | .raise, s => (s, true)
  | .writeFlag n v, s =>
    match setFlag s.flags n v with
    | some f => ({ s with flags := f }, false)
    | Option.none => (s, true)
  | .writeItem k v, s => ({ s with cfg := setItem s.cfg k v }, false)
  | .writeAttr k v, s => ({ s with cfg := setAttr s.cfg k v }, false)
  -- line.py:4415-4436
  | .freezeEnergy force, s =>
    if !force && s.collective then (s, true) else ({ s with cfg := freezeVars s.cfg energyVars }, false)
  | .seq p q, s => let r := exec p s; if r.2 then r else exec q r.1
  | .catching p q, s => let r := exec p s; if r.2 then exec q r.1 else r
  | .look f, s => exec (f s) s
  -- line.py:7922-7929
  | .withFlags p, s => restoreFlags s.flags (exec p s)
  -- line.py:7911-7920
  | .withConfig p, s => restoreCfg s.cfg (exec p s)
  -- line.py:7932-7944 and 4446-4468: `freeze_longitudinal(True)` is called before the `try`
  | .withFreezeLongitudinal p, s =>
    if s.collective then (s, true)
    else restoreCfg s.cfg (exec p { s with cfg := freezeVars s.cfg (energyVars ++ ["zeta"]) })

/-- `for name, value in updates: setattr(track_flags, name, value)` -/
def writeFlags : List (String × Bool) → Prog
  | [] => .skip
  | e :: l => .seq (.writeFlag e.1 e.2) (writeFlags l)

/-- `for name, value in updates: setattr(config, name, value)` -/
def writeAttrs : List (String × Val) → Prog
  | [] => .skip
  | e :: l => .seq (.writeAttr e.1 e.2) (writeAttrs l)

/-- tracker.py:1219-1235, tracking backwards. -/
def backtrack (p : Prog) : Prog := .withFlags (.seq (.writeFlag "XS_FLAG_BACKTRACK" true) p)

/-- Options of twiss that touch the state of the line. -/
structure TwissArgs where
  disableApertures : Bool
  method4d : Bool
  kickAsCo : Bool
  scaleAsCo : Bool
  freezeLongitudinal : Bool
  freezeEnergy : Bool

/-- twiss_defaults_and_input_preparation.py:406-416, flags requested. -/
def TwissArgs.flagUpdates (a : TwissArgs) : List (String × Bool) :=
  (if a.disableApertures then [("XS_FLAG_IGNORE_GLOBAL_APERTURE", true), ("XS_FLAG_IGNORE_LOCAL_APERTURE", true)] else []) ++
  (if a.method4d then [("XS_FLAG_KILL_CAVITY_KICK", true)] else []) ++
  (if a.kickAsCo then [("XS_FLAG_SR_KICK_SAME_AS_FIRST", true)] else [])

/-- twiss_defaults_and_input_preparation.py:417-418 (`elif`). -/
def TwissArgs.cfgUpdates (a : TwissArgs) : List (String × Val) :=
  if !a.kickAsCo && a.scaleAsCo then [("XTRACK_SYNRAD_SCALE_SAME_AS_FIRST", .tru)] else []

/-- twiss.py:677-680. -/
def applyCfg (u : List (String × Val)) (body : Prog) : Prog :=
  if u = [] then body else .withConfig (.seq (writeAttrs u) body)

/-- twiss.py:672-675. -/
def applyFlags (u : List (String × Bool)) (rest : Prog) : Prog :=
  if u = [] then rest else .withFlags (.seq (writeFlags u) rest)

/-- twiss.py:665-670. -/
def applyFreeze (a : TwissArgs) (rest : Prog) : Prog :=
  if a.freezeLongitudinal then .withFreezeLongitudinal rest
  else if a.freezeEnergy then
    .look (fun s => if energyIsFrozen s.cfg then rest else .withConfig (.seq (.freezeEnergy true) rest))
  else rest

/-- twiss.py:404-419: the updates that differ from the present state are determined first
(twiss_defaults_and_input_preparation.py:422-429), then the contexts are entered one inside the other (`ExitStack`). -/
def twiss (a : TwissArgs) (body : Prog) : Prog :=
  .look (fun s =>
    applyFreeze a
      (applyFlags (a.flagUpdates.filter (fun e => decide (s.flags e.1 ≠ some e.2)))
        (applyCfg (a.cfgUpdates.filter (fun e => decide (s.cfg e.1 ≠ some e.2))) body)))

end Verif.Config
