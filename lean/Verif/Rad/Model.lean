import Verif.Spin.Model
import Mathlib.Analysis.SpecialFunctions.Log.Basic
import Mathlib.Analysis.SpecialFunctions.Exp

/-!
# Model of synchrotron radiation

Files modelled: `/repo/xtrack/headers/synrad_spectrum.h` (all but the coefficients of `SynRad`), `magnet_radiation`
in `track_magnet_radiation.h`, the order of the steps and particles in `track_magnet.template.h`, and the grids and
getters written by `_generate_synrad_total_energy_tables.py`.  Real numbers are exact.  Random numbers are arbitrary
lists; a result `none` means that the list ended before the code did.
-/

namespace Verif.Rad

noncomputable section

/-- What the radiation changes: relative momentum and (kinetic) transverse momenta. -/
@[ext] structure Mom where
  delta : ℝ
  px : ℝ
  py : ℝ

/-- Reference quantities and constants of nature; `mass0` in eV, `q0` in elementary charges. -/
structure Ref where
  gamma0 : ℝ
  beta0 : ℝ
  mass0 : ℝ
  q0 : ℝ
  /-- `QELEM`, `C_LIGHT`, `EPSILON_0` -/
  qelem : ℝ
  clight : ℝ
  eps0 : ℝ

/-! ## `synrad_average_kick` -/

/-- `Q0_coulomb`, line 29. -/
def coulomb (r : Ref) : ℝ := |r.q0| * r.qelem

/-- `mass0_kg`, line 30. -/
def massKg (r : Ref) : ℝ := r.mass0 / r.clight / r.clight * r.qelem

/-- `r0_m`, line 35. -/
def r0 (r : Ref) : ℝ := coulomb r * coulomb r / (4 * Real.pi * r.eps0 * massKg r * r.clight * r.clight)

/-- `Ps_W`, line 37. -/
def power (r : Ref) (delta B : ℝ) : ℝ :=
  let gamma := r.gamma0 * (1 + delta)
  2 * r0 r * r.clight * coulomb r * coulomb r * gamma * gamma * B * B / (3 * massKg r)

/-- `Delta_E_eV`, line 38. -/
def meanLoss (r : Ref) (delta B lpath : ℝ) : ℝ := power r delta B * lpath / r.clight / r.qelem

/-- `f_t`, line 39. -/
def meanFactor (r : Ref) (delta B lpath : ℝ) : ℝ := 1 - meanLoss r delta B lpath / (r.gamma0 * r.mass0 * (1 + delta))

/-- Scaling of the momentum by `f_t`, lines 61-63. -/
def scale (f : ℝ) (m : Mom) : Mom := ⟨(m.delta + 1) * f - 1, m.px * f, m.py * f⟩

/-- `synrad_average_kick` without flags, lines 21-77. -/
def averageKick (r : Ref) (B lpath : ℝ) (m : Mom) : Mom := scale (meanFactor r m.delta B lpath) m

/-- The three numbers `dp_record`, `dpx_record`, `dpy_record`. -/
abbrev Record := Mom

/-- `synrad_average_kick` with `XS_FLAG_SR_KICK_SAME_AS_FIRST`, lines 50-76; `first` is `ipart == 0`. -/
def sameAsFirst (r : Ref) (B lpath : ℝ) (first : Bool) (rec : Record) (m : Mom) : Mom × Record :=
  if first then
    let m' := averageKick r B lpath m
    (m', ⟨m'.delta - m.delta, m'.px - m.px, m'.py - m.py⟩)
  else
    let m1 := scale 1 m
    (⟨m1.delta + rec.delta, m1.px + rec.px, m1.py + rec.py⟩, rec)

/-! ### The steps of a magnet -/

/-- One use of `WITH_RADIATION` (`track_magnet.template.h:91-180`) in the body of a magnet: motion without radiation,
then field, path length and vector potential at the particle, and the kick. -/
structure RadStep (σ : Type) where
  move : σ → σ
  B : σ → ℝ
  lpath : σ → ℝ
  /-- px and py less the vector potential -/
  mom : σ → Mom
  /-- the particle with new momenta -/
  setMom : σ → Mom → σ

/-- `track_magnet_body_single_particle`: all steps for one particle, with the record shared by all particles. -/
def body {σ : Type} (r : Ref) (first : Bool) : List (RadStep σ) → σ × Record → σ × Record
  | [], s => s
  | st :: rest, (q, rec) =>
    let q1 := st.move q
    let o := sameAsFirst r (st.B q1) (st.lpath q1) first rec (st.mom q1)
    body r first rest (st.setMom q1 o.1, o.2)

/-- The loop over the particles, `track_magnet.template.h:495-515`; the record is not initialised. -/
def allParticles {σ : Type} (r : Ref) (steps : List (RadStep σ)) (rec0 : Record) : List σ → List σ
  | [] => []
  | q :: rest =>
    let o := body r true steps (q, rec0)
    o.1 :: rest.map (fun q' => (body r false steps (q', o.2)).1)

/-- `magnet_radiation`, `track_magnet_radiation.h:232-268`: the change of the kinetic momentum inside a vector potential. -/
def inPotential (ax ay : ℝ) (kick : Mom → Mom) (m : Mom) : Mom :=
  let k := kick ⟨m.delta, m.px - ax, m.py - ay⟩
  ⟨k.delta, k.px + ax, k.py + ay⟩

/-! ## Photons -/

/-- `synrad_average_number_of_photons`, lines 209-219; `5 / (2 sqrt 3) alpha` is `c`. -/
def meanPhotons (r : Ref) (c B lpath : ℝ) : ℝ :=
  let massKg := r.mass0 * r.qelem / r.clight / r.clight
  let P0 := massKg * (r.beta0 * r.gamma0) * r.clight
  let kick := B / P0 * coulomb r * lpath
  c * (r.beta0 * r.gamma0) * |kick|

/-- `energy_critical`, lines 481-488, 495-496 (and 430-442); `c1` is 1.5 hbar c. -/
def critical (r : Ref) (c1 delta B : ℝ) : ℝ :=
  let massKg := r.mass0 * r.qelem / r.clight / r.clight
  let P0 := massKg * r.beta0 * r.gamma0 * r.clight
  let gamma := r.gamma0 * (1 + delta)
  c1 * (gamma * gamma * r.gamma0) * (B / P0 * coulomb r)

/-- What `synrad_emit_photons` leaves: number of photons, their records, and the energy left. -/
structure Emission where
  nphot : ℕ
  recorded : List ℝ
  energy : ℝ

/-- The `while` loop, lines 493-522; each draw is a normalised photon energy and the next exponential number. -/
def emitLoop (avg ec : ℝ) : List (ℝ × ℝ) → ℝ → Emission → Option Emission
  | ds, n, em =>
    if n < avg then
      match ds with
      | [] => none
      | (x, e) :: rest =>
        let loss := x * ec
        if loss ≥ em.energy then some ⟨em.nphot + 1, em.recorded, 0⟩
        else emitLoop avg ec rest (n + e) ⟨em.nphot + 1, em.recorded ++ [loss], em.energy - loss⟩
    else some em

/-- What becomes of the particle: lost with all its energy, or scaled. -/
inductive Fate where
  | lost
  | alive (m : Mom)

/-- Lines 524-532. -/
def fate (initial : ℝ) (m : Mom) (energy : ℝ) : Fate :=
  if energy ≤ 0 then .lost else .alive (scale (energy / initial) m)

/-- `synrad_emit_photons`, lines 462-535: fate, number and records. -/
def emitPhotons (avg ec B initial : ℝ) (n0 : ℝ) (draws : List (ℝ × ℝ)) (m : Mom) : Option (Fate × ℕ × List ℝ) :=
  if |B| < 1 / 10 ^ 4 then some (.alive m, 0, [])
  else (emitLoop avg ec draws n0 ⟨0, [], initial⟩).map fun em => (fate initial m em.energy, em.nphot, em.recorded)

/-! ### Energy of one photon -/

/-- `synrad_gen_photon_energy_normalized`, lines 177-207, with `SynRad` as a function `S`; the numbers of the list are the
uniform numbers in the order of use.  `continue` in a `do … while` goes to the condition. -/
def photonLoop (S : ℝ → ℝ) (a1 a2 ratio : ℝ) : ℕ → List ℝ → ℝ → ℝ → ℝ → Option ℝ
  | 0, _, _, _, _ => none
  | fuel + 1, us, exact, appr, result =>
    let test := fun (us : List ℝ) (exact appr result : ℝ) =>
      match us with
      | [] => none
      | v :: us' => if exact < appr * v then photonLoop S a1 a2 ratio fuel us' exact appr result else some result
    match us with
    | u :: w :: us' =>
      if u < ratio then
        let tmp := w * w
        let res := w * tmp
        test us' (S res) (a1 / tmp) res
      else if w < 1 / 10 ^ 50 then test us' exact appr result
      else
        let res := 1 - Real.log w
        test us' (S res) (a2 * Real.exp (-res)) res
    | _ => none

def genPhoton (S : ℝ → ℝ) (a1 a2 ratio : ℝ) (fuel : ℕ) (us : List ℝ) : Option ℝ :=
  photonLoop S a1 a2 ratio fuel us 1000 0 0

/-! ## Number of photons, and their total energy -/

/-- The `do … while` of `synrad_gen_photon_count`, lines 226-236. -/
def knuth (threshold : ℝ) : List ℝ → ℝ → ℤ → Option ℤ
  | [], _, _ => none
  | u :: us, product, nphot =>
    if threshold < product * u then knuth threshold us (product * u) (nphot + 1) else some (nphot + 1)

/-- The `while` of `synrad_gen_photon_count`, lines 238-244. -/
def arrivals (avg : ℝ) : List ℝ → ℝ → ℤ → Option ℤ
  | es, n, nphot =>
    if n < avg then
      match es with
      | [] => none
      | e :: es' => arrivals avg es' (n + e) (nphot + 1)
    else some nphot

/-- `synrad_gen_photon_count`, lines 221-245; the exponential numbers are `-log` of uniform numbers. -/
def photonCount (avg : ℝ) (us : List ℝ) : Option ℤ :=
  if avg ≤ 0 then some 0
  else if avg < 700 then knuth (Real.exp (-avg)) us 1 (-1)
  else
    match us with
    | [] => none
    | u :: us' => arrivals avg (us'.map fun u => -Real.log u) (-Real.log u) 0

/-- The loop of `synrad_largest_power_of_two_leq`, lines 247-255, before the limit of 256. -/
def doubling (value : ℕ) : ℕ → ℕ → ℕ
  | 0, out => out
  | fuel + 1, out => if out ≤ value / 2 then doubling value fuel (out * 2) else out

/-- `synrad_largest_power_of_two_leq`. -/
def largestPower (value : ℕ) : ℕ :=
  let out := doubling value value 1
  if out > 256 then 256 else out

/-- `synrad_get_total_energy_log_table_power2` has a table for this number
(`_generate_synrad_total_energy_tables.py:50, 942-950`). -/
def hasPower (n : ℕ) : Prop := ∃ k < 9, n = 2 ^ k

/-- `synrad_get_total_energy_log_table_direct32`, lines 951-960 of the generator. -/
def hasDirect (n : ℕ) : Prop := 1 ≤ n ∧ n ≤ 32

/-- Numbers of photons of the table lookups of `synrad_gen_total_energy_normalized_quantum_kick`, lines 382-406:
chunks from the tables of powers, and the rest. -/
def chunks : ℕ → ℕ → List ℕ × ℕ
  | 0, left => ([], left)
  | fuel + 1, left =>
    if left > 32 then
      let c := largestPower left
      let o := chunks fuel (left - c)
      (c :: o.1, o.2)
    else ([], left)

/-- The total energy: one draw for every chunk and one for the rest if there is one. `power n u` and `direct n u` are
the energies from the tables for a uniform number. -/
def totalEnergy (power direct : ℕ → ℝ → ℝ) (nphot : ℕ) (us : List ℝ) : ℝ :=
  let c := chunks nphot nphot
  let t := (List.zipWith power c.1 us).sum
  if c.2 > 0 then t + direct c.2 (us.getD c.1.length 0) else t

/-- `synrad_emit_total_energy_loss`, lines 408-460. -/
def emitTotal (B initial : ℝ) (nphot : ℕ) (total ec : ℝ) (m : Mom) : Fate :=
  if |B| < 1 / 10 ^ 4 then .alive m
  else if nphot = 0 then .alive m
  else
    let loss0 := total * ec
    let loss := if loss0 ≥ initial then initial else loss0
    if loss ≥ initial then .lost else .alive (scale ((initial - loss) / initial) m)

/-! ### Interpolation -/

/-- Limits of `i_low`, lines 275-278 and 284-287. -/
def clampIdx (i : ℤ) (size : ℕ) : ℤ :=
  let i := if i < 0 then 0 else i
  if i > (size : ℤ) - 2 then (size : ℤ) - 2 else i

/-- `synrad_total_energy_find_grid_index_direct_segment`, lines 257-289. -/
def gridIndex (value : ℝ) (grid : ℕ → ℝ) (size : ℕ) (log : Bool) : ℤ :=
  if value ≤ grid 0 then 0
  else if value ≥ grid (size - 1) then (size : ℤ) - 2
  else if log then
    if value < grid 1 then 0
    else clampIdx (1 + ⌊(Real.log value - Real.log (grid 1)) / (Real.log (grid (size - 1)) - Real.log (grid 1))
      * ((size : ℝ) - 2)⌋) size
  else
    let du := (grid (size - 1) - grid 0) / ((size : ℝ) - 1)
    clampIdx ⌊(value - grid 0) / du⌋ size

/-- `synrad_total_energy_interpolate_segment`, lines 291-325; `offset` is part of `table`. -/
def interpolate (value : ℝ) (grid table : ℕ → ℝ) (size : ℕ) (log : Bool) : ℝ :=
  if value ≤ grid 0 then table 0
  else if value ≥ grid (size - 1) then table (size - 1)
  else
    let i := (gridIndex value grid size log).toNat
    let lo := grid i
    let hi := grid (i + 1)
    let w := if log ∧ 0 < lo ∧ 0 < value then (Real.log value - Real.log lo) / (Real.log hi - Real.log lo)
      else (value - lo) / (hi - lo)
    (1 - w) * table i + w * table (i + 1)

end

end Verif.Rad
