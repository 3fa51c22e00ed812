import Verif.Magnets.Body

/-!
# Removing and merging elements of a line

Source: /repo/xtrack/line.py 5136-5314 (`remove_markers`, `remove_inactive_multipoles`, `remove_zero_length_drifts`,
`merge_consecutive_drifts`), 5401-5448 (`use_simple_quadrupoles`, `use_simple_bends`), 5612-5688 (`merge_consecutive_multipoles`),
7635-7674 and 7714-7729 (helpers); /repo/xtrack/beam_elements/multipole.py, _common.py 369-403 (`get_total_knl_ksl`),
elements_src/multipole.h, simplethinbend.h, simplethinquadrupole.h; base_element.py 619-655 (`Replica`);
environment.py 2242-2253, 2625-2627 (`_check_name_clashes`), 1041-1047 (`_get_drift`).

Simplifications.
* The element dictionary is a function from names.  Different names are different objects.
* A chain of replicas is followed at most `k` times, for an arbitrary `k` (the code refuses circular chains).
* Elements which are neither markers, drifts nor multipoles have an arbitrary tracking function, which may lose the particle.
* `merge_consecutive_drifts` and `merge_consecutive_multipoles` first call `replace_all_repeated_elements` (C45); the model begins
  after that call.  Radiation is off (`radiation_flag` zero), so that `delta_taper` is not used; deferred expressions are left out.
-/

namespace Verif.Cleanup

open Frames Magnets

noncomputable section

/-- The fields of a `Multipole`; multipole.py:82-98.  `knl` and `ksl` have `order + 1` entries, the relative ones `orderRel + 1`. -/
structure Mult where
  order : ℕ
  knl : ℕ → ℝ
  ksl : ℕ → ℝ
  orderRel : ℕ
  knlRel : ℕ → ℝ
  kslRel : ℕ → ℝ
  mainOrder : ℕ
  mainSkew : Bool
  thick : Bool
  length : ℝ
  hxl : ℝ
  numKicks : ℕ
  model : ℤ
  integrator : ℤ
  mis : Mis

/-- `main_strength`; multipole.py:128-133. -/
def Mult.main (m : Mult) : ℝ := if m.mainSkew then m.ksl m.mainOrder else m.knl m.mainOrder

/-- The number of entries of `get_total_knl_ksl`; _common.py:370-376. -/
def Mult.totalLen (m : Mult) : ℕ := max (max 4 (m.order + 1)) (m.orderRel + 1)

/-- `get_total_knl_ksl`, normal; _common.py:378-387. -/
def Mult.totalN (m : Mult) (n : ℕ) : ℝ :=
  (if n ≤ m.order then m.knl n else 0) + (if n ≤ m.orderRel then m.main * m.knlRel n else 0)

/-- `get_total_knl_ksl`, skew; _common.py:378-387. -/
def Mult.totalS (m : Mult) (n : ℕ) : ℝ :=
  (if n ≤ m.order then m.ksl n else 0) + (if n ≤ m.orderRel then m.main * m.kslRel n else 0)

/-- An edge which is switched off; multipole.h:63-75. -/
def offEdge : Edge := { active := false, model := 0, angle := 0, fdown := 0, fint := 0, hgap := 0 }

/-- The arguments in multipole.h:19-76; the defaults are `MULTIPOLE_DEFAULT_MODEL` and `MULTIPOLE_DEFAULT_INTEGRATOR`. -/
def Mult.magnet (m : Mult) : Magnet :=
  { length := m.length, order := m.order, knl := m.knl, ksl := m.ksl, orderRel := m.orderRel, knlRel := m.knlRel, kslRel := m.kslRel
    relRef := m.main, numKicks := m.numKicks, model := if m.thick then m.model else -1, defaultModel := 6
    integrator := m.integrator, defaultIntegrator := 3, h := 0, hxl := m.hxl, k0 := 0, k1 := 0, k2 := 0, k3 := 0, k0s := 0, k1s := 0
    k2s := 0, k3s := 0, ks := 0, x0 := 0, y0 := 0, rbendModel := -1, compensateSagitta := false, rbendShift := 0, rbendAngleDiff := 0
    lengthStraight := 0, bodyActive := true, entry := offEdge, exit := offEdge }

/-- `Multipole_track_local_particle`; multipole.h:15-78.  (The edges are off, the particle is never lost.) -/
def Mult.body (m : Mult) (back : Bool) (p : Part) : Part :=
  match trackMagnet m.magnet (fun _ q => q) 1 back p with
  | some q => q
  | none => p

/-- The multipole with its misalignment. -/
def Mult.track (m : Mult) (p : Part) : Part := trackPlaced ⟨m.mis, 1, 0, m.thick, none⟩ m.body false p

/-- What the clean-up methods distinguish. -/
inductive El
  | marker
  /-- `Drift`, `DriftExact` -/
  | drift (dm : DriftModel) (l : ℝ)
  /-- a drift slice of the element `parent` -/
  | driftSlice (dm : DriftModel) (parent : String) (w : ℝ)
  | mult (m : Mult)
  | simpleQuad (knl1 : ℝ)
  | simpleBend (knl0 hxl length : ℝ)
  | replica (parent : String)
  /-- anything else, with its length -/
  | other (l : ℝ) (f : Part → Option Part)

abbrev Elements := String → Option El

/-- Changing an entry. -/
def put (d : Elements) (n : String) (e : El) : Elements := fun m => if m = n then some e else d m

/-- `Replica.resolve`, and the element itself if it is no replica; base_element.py:638-655. -/
def find (d : Elements) : ℕ → String → Option El
  | 0, n => match d n with
    | some (.replica _) => none
    | e => e
  | k + 1, n => match d n with
    | some (.replica m) => find d k m
    | e => e

/-- The attribute `length` of an element (`none`: it has none). -/
def El.length : El → Option ℝ
  | .drift _ l => some l
  | .mult m => some m.length
  | .simpleBend _ _ l => some l
  | .other l _ => some l
  | _ => none

/-- `ee.length` for the entry `n`. -/
def ownLen (d : Elements) (n : String) : Option ℝ := (d n).bind El.length

/-- `_length`; line.py:7714-7720. -/
def lenOf (d : Elements) (k : ℕ) (n : String) : Option ℝ :=
  match find d k n with
  | some (.driftSlice _ parent w) => (ownLen d parent).map (· * w)
  | some e => e.length
  | none => none

/-- `_is_drift`; line.py:7722-7729. -/
def isDriftEl (d : Elements) (k : ℕ) (n : String) : Bool :=
  match find d k n with
  | some (.drift _ _) => true
  | some (.driftSlice _ _ _) => true
  | _ => false

/-- `SimpleThinQuadrupole_track_local_particle`; simplethinquadrupole.h:13-34. -/
def simpleQuad (knl1 : ℝ) (p : Part) : Part := { p with px := p.px - p.chi * knl1 * p.x, py := p.py + p.chi * knl1 * p.y }

open Classical in
/-- `SimpleThinBend_track_local_particle`; simplethinbend.h:13-53. -/
def simpleBend (knl0 hxl length : ℝ) (p : Part) : Part :=
  if hxl ≠ 0 then
    { p with
      px := p.px + (-p.chi * knl0 + (hxl + hxl * p.delta) - if length ≠ 0 then p.chi * knl0 * (p.x * hxl) / length else 0)
      zeta := p.zeta + 1 / p.rvv * p.chi * (-(p.x * hxl)) }
  else { p with px := p.px + -p.chi * knl0 }

/-- Tracking one element forward.  `ue`: `XTRACK_USE_EXACT_DRIFTS`.  `none`: lost (or no such element). -/
def trackEl (ue : Bool) (d : Elements) (k : ℕ) (n : String) (p : Part) : Option Part :=
  match find d k n with
  | some .marker => some p
  | some (.drift dm l) => some (driftElement ue dm l false p)
  | some (.driftSlice dm parent w) =>
    match ownLen d parent with
    | some l => some (driftElement ue dm (w * l) false p)
    | none => none
  | some (.mult m) => some (m.track p)
  | some (.simpleQuad q) => some (simpleQuad q p)
  | some (.simpleBend b hxl l) => some (simpleBend b hxl l p)
  | some (.other _ f) => f p
  | some (.replica _) => none
  | none => none

/-- Tracking a line. -/
def trackLine (ue : Bool) (d : Elements) (k : ℕ) : List String → Part → Option Part
  | [], p => some p
  | n :: ns, p => (trackEl ue d k n p).bind (trackLine ue d k ns)

/-! ## Removals -/

/-- `isinstance(ee, Marker)`. -/
def isMarkerEl (d : Elements) (n : String) : Bool :=
  match d n with
  | some .marker => true
  | _ => false

/-- `remove_markers(keep=keep)`; line.py:5136-5164. -/
def removeMarkers (d : Elements) (keep : List String) (names : List String) : List String :=
  names.filter (fun n => !(isMarkerEl d n && decide (n ∉ keep)))

open Classical in
/-- The test of `remove_inactive_multipoles`; line.py:5198-5204. -/
def inactive (d : Elements) (keep : List String) (n : String) : Bool :=
  match d n with
  | some (.mult m) =>
    decide (n ∉ keep ∧ ¬ (m.thick = true ∧ m.length ≠ 0) ∧
      |m.hxl| + |m.mis.phi| + |m.mis.theta| + ∑ i ∈ Finset.range m.totalLen, |m.totalN i| +
        ∑ i ∈ Finset.range m.totalLen, |m.totalS i| = 0)
  | _ => false

/-- `remove_inactive_multipoles(keep=keep)`; line.py:5166-5210. -/
def removeInactive (d : Elements) (keep : List String) (names : List String) : List String :=
  names.filter (fun n => !inactive d keep n)

open Classical in
/-- `remove_zero_length_drifts(keep=keep)`; line.py:5212-5252. -/
def removeZeroDrifts (d : Elements) (k : ℕ) (keep : List String) (names : List String) : List String :=
  names.filter (fun n => !(isDriftEl d k n && decide (n ∉ keep) && decide (lenOf d k n = some 0)))

/-! ## Merging drifts -/

/-- `prev_ee.length = l` -/
def setLen (d : Elements) (n : String) (l : ℝ) : Elements :=
  match d n with
  | some (.drift dm _) => put d n (.drift dm l)
  | _ => d

/-- The loop of `merge_consecutive_drifts` after the first element; line.py:5293-5311.  The names so far are `out ++ [last]`.  The
Boolean: it did not raise.  An element without `length` (slice or replica) makes it raise. -/
def mergeDriftLoop (k : ℕ) (keep : List String) : List String → Elements → List String → String → Elements × List String × Bool
  | [], d, out, last => (d, out ++ [last], true)
  | n :: ns, d, out, last =>
    if isDriftEl d k n && decide (n ∉ keep) then
      if isDriftEl d k last && decide (last ∉ keep) then
        match ownLen d last, ownLen d n with
        | some a, some b => mergeDriftLoop k keep ns (setLen d last (a + b)) out last
        | _, _ => (d, out ++ [last], false)
      else mergeDriftLoop k keep ns d (out ++ [last]) n
    else mergeDriftLoop k keep ns d (out ++ [last]) n

/-- `merge_consecutive_drifts(keep=keep)`: the dictionary and the names of the line afterwards, and whether it did not raise (then the
names are not assigned); line.py:5254-5314. -/
def mergeDrifts (k : ℕ) (keep : List String) (d : Elements) (names : List String) : Elements × List String × Bool :=
  match names with
  | [] => (d, [], true)
  | n :: ns =>
    match mergeDriftLoop k keep ns d [] n with
    | (d', out, true) => (d', out, true)
    | (d', _, false) => (d', names, false)

/-! ## Merging multipoles -/

/-- The last index below `len` with an entry that is not zero; line.py:7667-7673. -/
def lastNonzero (len : ℕ) (f : ℕ → ℝ) (start : ℕ) : ℕ :=
  open Classical in (List.range len).foldl (fun acc i => if f i ≠ 0 then max acc i else acc) start

/-- A shift of zero. -/
def noMis (length : ℝ) : Mis := ⟨0, 0, 0, 0, 0, 0, 0, length, 0⟩

/-- The merged multipole; line.py:5655-5671.  `Multipole(...)` has no relative strengths, is thin and not misaligned. -/
def mergedMult (a b : Mult) : Mult :=
  let len := max a.totalLen b.totalLen
  let n := fun i => a.totalN i + b.totalN i
  let s := fun i => a.totalS i + b.totalS i
  let order := lastNonzero len s (lastNonzero len n 0)
  { order := order, knl := n, ksl := s, orderRel := 0, knlRel := fun _ => 0, kslRel := fun _ => 0, mainOrder := 0, mainSkew := false
    thick := false, length := a.length, hxl := a.hxl, numKicks := 0, model := 0, integrator := 0, mis := noMis a.length }

/-- `_has_transverse_rotation`; line.py:7661-7662. -/
def Mult.rotated (m : Mult) : Prop := m.mis.phi ≠ 0 ∨ m.mis.theta ≠ 0

open Classical in
/-- The condition for two multipoles to be merged; line.py:5644-5653. -/
def mergeable (keep : List String) (last n : String) (a b : Mult) : Bool :=
  decide (n ∉ keep ∧ b.thick = false ∧ a.thick = false ∧ a.hxl = b.hxl ∧ b.hxl = 0 ∧ ¬ b.rotated ∧ ¬ a.rotated ∧ last ∉ keep)

/-- The multipole of a name; `isinstance(ee, Multipole)`. -/
def multAt (d : Elements) (n : String) : Option Mult :=
  match d n with
  | some (.mult m) => some m
  | _ => none

/-- The loop of `merge_consecutive_multipoles`; line.py:5638-5680.  `d0`: the elements when the loop starts.  `reserved`: names of
lines, particles and variables.  `false`: `_check_name_clashes` raises. -/
def mergeMultLoop (reserved : String → Bool) (keep : List String) (d0 : Elements) :
    List String → Elements → List String → String → Elements × List String × Bool
  | [], d, out, last => (d, out ++ [last], true)
  | n :: ns, d, out, last =>
    match multAt d0 n, multAt d last with
    | some b, some a =>
      if mergeable keep last n a b then
        let new := last ++ "_" ++ n
        if (d new).isSome || reserved new then (d, out ++ [last], false)
        else mergeMultLoop reserved keep d0 ns (put d new (.mult (mergedMult a b))) out new
      else mergeMultLoop reserved keep d0 ns d (out ++ [last]) n
    | _, _ => mergeMultLoop reserved keep d0 ns d (out ++ [last]) n

/-- `merge_consecutive_multipoles(keep=keep)`; line.py:5612-5688. -/
def mergeMults (reserved : String → Bool) (keep : List String) (d : Elements) (names : List String) : Elements × List String × Bool :=
  match names with
  | [] => (d, [], true)
  | n :: ns =>
    match mergeMultLoop reserved keep d ns d [] n with
    | (d', out, true) => (d', out, true)
    | (d', _, false) => (d', names, false)

/-! ## Simple elements -/

/-- `_is_simple_quadrupole`; line.py:7640-7651 (`radiation_flag` is zero). -/
def isSimpleQuad (m : Mult) : Prop :=
  m.thick = false ∧ (∀ i, 2 ≤ i → i < m.totalLen → m.totalN i = 0) ∧ m.totalN 0 = 0 ∧ (∀ i < m.totalLen, m.totalS i = 0) ∧ m.hxl = 0 ∧
    ¬ m.rotated ∧ m.mis.dx = 0 ∧ m.mis.dy = 0 ∧ m.mis.ds = 0 ∧ |m.mis.tilt| < 1e-12

/-- `_is_simple_dipole`; line.py:7653-7662. -/
def isSimpleDipole (m : Mult) : Prop :=
  m.thick = false ∧ (∀ i, 1 ≤ i → i < m.totalLen → m.totalN i = 0) ∧ (∀ i < m.totalLen, m.totalS i = 0) ∧
    ¬ m.rotated ∧ m.mis.dx = 0 ∧ m.mis.dy = 0 ∧ m.mis.ds = 0 ∧ |m.mis.tilt| < 1e-12

open Classical in
/-- `use_simple_quadrupoles`: all elements of the dictionary; line.py:5401-5419. -/
def useSimpleQuads (d : Elements) : Elements := fun n =>
  match d n with
  | some (.mult m) => if isSimpleQuad m then some (.simpleQuad (m.totalN 1)) else some (.mult m)
  | e => e

open Classical in
/-- `use_simple_bends`; line.py:5421-5441. -/
def useSimpleBends (d : Elements) : Elements := fun n =>
  match d n with
  | some (.mult m) => if isSimpleDipole m then some (.simpleBend (m.totalN 0) m.hxl m.length) else some (.mult m)
  | e => e

end

end Verif.Cleanup
