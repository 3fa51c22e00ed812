import Verif.Slicing.Weights
import Verif.Basic.Names

/-!
# Replicas, lengths and the slicer

Sources: /repo/xtrack/slicing.py 160-473 (`Strategy`, `Slicer`), /repo/xtrack/base_element.py 639-655
(`Replica.resolve`), /repo/xtrack/line.py 7714-7743 (`_length`, `_is_thick`), /repo/xtrack/environment.py
1033-1047 (`_get_a_drift_name`, `_get_drift`).

Simplifications: an element is reduced to what the slicer looks at (class features, length, parent, weight, offset);
a slice finds its parent in the dictionary by `parent_name` (the attribute `_parent` is the same object); names are matched
by an arbitrary predicate (regular expressions are not modelled); apertures associated with an element
(slicing.py:289-320) are not modelled; the progress bar and the `_movable` marks are left out; an exception is `none`.
-/

namespace Verif.Slicing

/-- Features of a class of elements with a length. -/
structure Kind where
  /-- `isinstance(element, xt.Drift)` -/
  isDrift : Bool
  /-- class `DriftExact` -/
  isExactDrift : Bool
  /-- has `_entry_slice_class` and `_exit_slice_class` -/
  hasEdges : Bool
  /-- has `_thin_slice_class` and `_drift_slice_class` (a solenoid has not) -/
  canThin : Bool
  /-- `_thin_slice_class` is not `None` -/
  thinSlices : Bool
  deriving DecidableEq

/-- Class `Drift`; beam_elements/drift.py:66-76. -/
abbrev driftKind : Kind := ⟨true, false, false, true, false⟩

/-- Kinds of slices; `edge` is an entry or exit map. -/
inductive SliceKind where
  | thick
  | drift
  | thin
  | edge
  deriving DecidableEq

/-- Elements of the dictionary. -/
inductive El where
  /-- no length along the line (`isthick` absent or false) -/
  | thin
  /-- element with a length -/
  | body (k : Kind) (len : ℝ)
  /-- slice: kind, parent name, `weight`, `slice_offset` -/
  | slice (k : SliceKind) (parent : String) (weight offset : ℝ)
  | replica (parent : String)

/-- Element dictionary; setting a key puts it in front. -/
abbrev Dict := List (String × El)

/-- `element_dict[name]`; `none`: `KeyError`. -/
def get : Dict → String → Option El
  | [], _ => none
  | (k, e) :: d, n => if k = n then some e else get d n

/-- `element_dict.keys()` (a key that was set twice appears twice). -/
def keys (d : Dict) : List String := d.map Prod.fst

/-- Outcome of `Replica.resolve(..., get_name=True)`. -/
inductive Res where
  | found (name : String)
  | keyError
  | circular
  /-- the loop is still running -/
  | running
  deriving DecidableEq

/-- The loop of `Replica.resolve`; base_element.py:642-653. -/
def resolveLoop (d : Dict) : Nat → List String → String → Res
  | 0, _, _ => .running
  | fuel + 1, visited, t =>
    match get d t with
    | none => .keyError
    | some (.replica p) => if p ∈ visited then .circular else resolveLoop d fuel (p :: visited) p
    | some _ => .found t

/-- `Replica.resolve` of a replica of `p`; base_element.py:639-655.  The fuel is enough, see `resolve_not_running`. -/
def resolve (d : Dict) (p : String) : Res := resolveLoop d (d.length + 1) [p] p

/-- Name of the element behind a name: the name itself if it is not a replica. -/
def baseName (d : Dict) (n : String) : Option String :=
  match get d n with
  | none => none
  | some (.replica p) =>
    match resolve d p with
    | .found t => some t
    | _ => none
  | some _ => some n

/-- Element behind a name. -/
def baseEl (d : Dict) (n : String) : Option El :=
  match baseName d n with
  | none => none
  | some t => get d t

/-- `element_dict[parent_name]` with a length. -/
def bodyOf (d : Dict) (n : String) : Option (Kind × ℝ) :=
  match get d n with
  | some (.body k l) => some (k, l)
  | _ => none

/-- Length an element takes along the line: `_length` if `_is_thick`, else 0; line.py:7714-7720 and 7739-7743. -/
noncomputable def elLen (d : Dict) : El → Option ℝ
  | .thin => some 0
  | .body _ l => some l
  | .slice .thick p w _ => (bodyOf d p).map (fun b => b.2 * w)
  | .slice .drift p w _ => (bodyOf d p).map (fun b => b.2 * w)
  | .slice .thin _ _ _ => some 0
  | .slice .edge _ _ _ => some 0
  | .replica _ => none

/-- Length of the element with name `n` of a line, replicas resolved. -/
noncomputable def rowLen (d : Dict) (n : String) : Option ℝ :=
  match baseEl d n with
  | none => none
  | some e => elLen d e

/-- `_is_thick`; line.py:7739-7743. -/
def isThick (d : Dict) (n : String) : Option Bool :=
  match baseEl d n with
  | none => none
  | some (.body _ _) => some true
  | some (.slice .thick _ _ _) => some true
  | some (.slice .drift _ _ _) => some true
  | some _ => some false

/-- The part of an environment that slicing changes. -/
structure St where
  dict : Dict
  /-- `_drift_cache` -/
  cache : List (ℝ × String)
  /-- `_drift_counter` -/
  counter : Nat

/-- `element_dict[n] = e`. -/
def St.set (st : St) (n : String) (e : El) : St := { st with dict := (n, e) :: st.dict }

open Classical in
/-- `self._drift_cache[length]`. -/
noncomputable def cacheGet : List (ℝ × String) → ℝ → Option String
  | [], _ => none
  | (l, n) :: c, x => if l = x then some n else cacheGet c x

/-- Name of an autogenerated drift. -/
def driftName (i : Nat) : String := "||drift_" ++ i.repr

/-- `_get_drift`; environment.py:1033-1047. -/
noncomputable def getDrift (st : St) (l : ℝ) : St × String :=
  match cacheGet st.cache l with
  | some n => (st, n)
  | none =>
    let i := Names.firstFree driftName (keys st.dict) (st.counter + 1)
    ({ dict := (driftName i, .body driftKind l) :: st.dict, cache := (l, driftName i) :: st.cache, counter := i },
      driftName i)

/-- What `_make_slices` works on; slicing.py:362-390. -/
structure Ctx where
  /-- `name` -/
  name : String
  /-- `slice_parent_name` -/
  parent : String
  /-- class of `slice_parent` -/
  kind : Kind
  /-- `elem_length` -/
  len : ℝ
  /-- `elem_weight` -/
  ew : ℝ
  /-- `isinstance(element, xt.Drift) and name.startswith('||drift_')` -/
  auto : Bool
  /-- `is_drift_slice` -/
  isDriftSlice : Bool

/-- Candidate name of a drift slice; slicing.py:395-402. -/
def Ctx.driftFmt (c : Ctx) (i : Nat) : String := (if c.isDriftSlice then c.name ++ ".." else "drift_" ++ c.name ++ "..") ++ i.repr

/-- Candidate name of an element slice; slicing.py:417, 435. -/
def Ctx.elemFmt (c : Ctx) (i : Nat) : String := c.name ++ ".." ++ i.repr

/-- The loop of the branch `mode == 'thin' or is_drift_slice`; slicing.py:392-429.  `di`, `ei`: `drift_idx`,
`element_idx`; `off`: `slice_offset`. -/
noncomputable def thinLoop (c : Ctx) : List (ℝ × Bool) → St → Nat → Nat → ℝ → St × List String
  | [], st, _, _, _ => (st, [])
  | (w, true) :: r, st, di, ei, off =>
    if c.auto then
      let g := getDrift st (c.len * w * c.ew)
      let t := thinLoop c r g.1 di ei (off + c.len * w * c.ew)
      (t.1, g.2 :: t.2)
    else
      let i := Names.firstFree c.driftFmt (keys st.dict) di
      let t := thinLoop c r (st.set (c.driftFmt i) (.slice .drift c.parent (w * c.ew) off)) i ei (off + c.len * w * c.ew)
      (t.1, c.driftFmt i :: t.2)
  | (w, false) :: r, st, di, ei, off =>
    if c.isDriftSlice then thinLoop c r st di ei off
    else
      let i := Names.firstFree c.elemFmt (keys st.dict) ei
      if c.kind.thinSlices then
        let t := thinLoop c r (st.set (c.elemFmt i) (.slice .thin c.parent (w * c.ew) off)) di i off
        (t.1, c.elemFmt i :: t.2)
      else thinLoop c r st di i off

/-- Kind of a thick slice: for drifts `_thick_slice_class` is a drift slice; beam_elements/drift.py:70-72,
drift_exact.py:43-45. -/
def Ctx.thickKind (c : Ctx) : SliceKind := if c.kind.isDrift || c.kind.isExactDrift then .drift else .thick

/-- The loop of the branch `mode == 'thick'`; slicing.py:430-449. -/
noncomputable def thickLoop (c : Ctx) : List (ℝ × Bool) → St → Nat → ℝ → St × List String
  | [], st, _, _ => (st, [])
  | (w, _) :: r, st, ei, off =>
    if c.auto then
      let g := getDrift st (c.len * w * c.ew)
      let t := thickLoop c r g.1 ei (off + c.len * w * c.ew)
      (t.1, g.2 :: t.2)
    else
      let i := Names.firstFree c.elemFmt (keys st.dict) ei
      let t := thickLoop c r (st.set (c.elemFmt i) (.slice c.thickKind c.parent (w * c.ew) off)) i (off + c.len * w * c.ew)
      (t.1, c.elemFmt i :: t.2)

/-- Name of an entry or exit map (`u` is `entry` or `exit`); slicing.py:367-371, 454-458. -/
def mapName (d : Dict) (name u : String) : String :=
  if name ++ ".." ++ u ++ "_map" ∈ keys d then
    name ++ ".." ++ u ++ "_map_" ++
      (Names.firstFree (fun i => name ++ ".." ++ u ++ "_map_" ++ i.repr) (keys d) 0).repr
  else name ++ ".." ++ u ++ "_map"

/-- slicing.py:362-390: what is sliced.  `none`: no length, or the parent of a slice is missing. -/
def context (d : Dict) (name : String) : Option Ctx :=
  match baseName d name with
  | none => none
  | some p =>
    match get d p with
    | some (.body k l) => some ⟨name, p, k, l, 1, k.isDrift && name.startsWith "||drift_", false⟩
    | some (.slice .thick q w _) => (bodyOf d q).map (fun b => ⟨name, q, b.1, b.2 * w, w, false, false⟩)
    | some (.slice .drift q w _) => (bodyOf d q).map (fun b => ⟨name, q, b.1, b.2 * w, w, false, true⟩)
    | _ => none

/-- The element behind `name` has entry and exit maps (a slice has none). -/
def edgesOf (d : Dict) (name : String) : Bool :=
  match baseEl d name with
  | some (.body k _) => k.hasEdges
  | _ => false

/-- Adds an entry or exit map if there is one; slicing.py:366-378, 453-466. -/
def addMap (has : Bool) (name parent u : String) (off : ℝ) (st : St) : St × List String :=
  if has then (st.set (mapName st.dict name u) (.slice .edge parent 0 off), [mapName st.dict name u]) else (st, [])

/-- `_make_slices`; slicing.py:343-473.  `none`: an exception. -/
noncomputable def makeSlices (sch : Scheme) (st : St) (name : String) : Option (St × List String) :=
  match context st.dict name, baseName st.dict name with
  | some c, some p =>
    match sch.iterWeights c.len with
    | none => none
    | some ws =>
      let a := addMap (edgesOf st.dict name) name p "entry" 0 st
      if sch.mode = .thin ∨ c.isDriftSlice then
        if c.kind.canThin then
          let b := thinLoop c ws a.1 0 0 0
          let z := addMap (edgesOf st.dict name) name p "exit" c.len b.1
          some (z.1, a.2 ++ (b.2 ++ z.2))
        else none
      else
        let b := thickLoop c ws a.1 0 0
        let z := addMap (edgesOf st.dict name) name p "exit" c.len b.1
        some (z.1, a.2 ++ (b.2 ++ z.2))
  | _, _ => none

/-- The element gets markers at its edges; slicing.py:268-269: not for drifts, nor for slices of drifts. -/
def wantsMarkers (d : Dict) (name : String) : Bool :=
  match get d name with
  | some (.body k _) => !k.isDrift
  | some (.slice .drift q _ _) =>
    match bodyOf d q with
    | some b => b.1.isExactDrift
    | none => false
  | _ => true

/-- `_slice_element`; slicing.py:265-323. -/
noncomputable def sliceElement (markers : Bool) (sch : Scheme) (st : St) (name : String) : Option (St × List String) :=
  match makeSlices sch st name with
  | none => none
  | some (st', l) =>
    if markers && wantsMarkers st.dict name then
      some ((st'.set (name ++ "_entry") .thin).set (name ++ "_exit") .thin, (name ++ "_entry") :: (l ++ [name ++ "_exit"]))
    else some (st', l)

/-- `Strategy`: what to do (`None`: leave alone), test on the name, test on the type of the element. -/
structure Strategy where
  slicing : Option Scheme
  nameTest : Option (String → Bool)
  typeTest : Option (El → Bool)

/-- `isinstance(element, xt.Drift)`. -/
def isDriftEl : El → Bool
  | .body k _ => k.isDrift
  | _ => false

/-- `match_element`; slicing.py:186-201.  `el`: the element as found, `base`: the element behind it. -/
def Strategy.matchesEl (s : Strategy) (name : String) (el base : El) : Bool :=
  if isDriftEl el then
    match s.nameTest, s.typeTest with
    | some f, none => f name
    | none, some g => g base
    | some f, some g => f name && g base
    | none, none => false
  else
    (match s.nameTest with | some f => f name | none => true) && (match s.typeTest with | some g => g base | none => true)

/-- The strategy that is always put first: leave drifts alone; slicing.py:229-230. -/
def defaultStrategy : Strategy := ⟨none, none, some isDriftEl⟩

/-- `_scheme_for_element` on `reversed(strategies)`; slicing.py:325-341. -/
def pick (name : String) (el base : El) : List Strategy → Option (Option Scheme)
  | [] => none
  | s :: r => if s.matchesEl name el base then some s.slicing else pick name el base r

/-- `_scheme_for_element`: outer `none`: `ValueError`, inner `none`: leave the element alone. -/
def schemeFor (strategies : List Strategy) (name : String) (el base : El) : Option (Option Scheme) :=
  pick name el base (defaultStrategy :: strategies).reverse

open Classical in
/-- Body of the loop of `slice_in_place` for the row with table name `tname` and element name `name`; slicing.py:247-260. -/
noncomputable def sliceRow (markers : Bool) (strategies : List Strategy) (st : St) (tname name : String) :
    Option (St × List String) :=
  match get st.dict name, baseEl st.dict name, isThick st.dict name with
  | some el, some base, some thick =>
    if thick = false ∨ (∃ k, el = .body k 0) then some (st, [name])
    else
      match schemeFor strategies tname el base with
      | none => none
      | some none => some (st, [name])
      | some (some sch) => sliceElement markers sch st name
  | _, _, _ => none

/-- `slice_in_place`: names of each row after slicing; slicing.py:233-263. -/
noncomputable def sliceLine (markers : Bool) (strategies : List Strategy) :
    St → List (String × String) → Option (St × List (List String))
  | st, [] => some (st, [])
  | st, row :: rows =>
    match sliceRow markers strategies st row.1 row.2 with
    | none => none
    | some (st1, b) =>
      match sliceLine markers strategies st1 rows with
      | none => none
      | some (st2, bs) => some (st2, b :: bs)

end Verif.Slicing
