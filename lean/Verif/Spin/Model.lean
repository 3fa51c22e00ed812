import Verif.Frames.Model

/-!
# Model of the motion of the spin in magnets

Files modelled: `/repo/xtrack/beam_elements/elements_src/track_magnet_radiation.h` (`direction_of_motion`,
`separate_par_perp_components`, `compute_b_perp_mod`, `magnet_spin`), the spin in
`track_legacy_solenoid_radiation.h`, and the spin in `Wedge_single_particle` (`track_wedge.h`).  The rotations of the
frame with their spin are in `Verif.Frames.Model`.  Real numbers are exact.
-/

namespace Verif.Spin

open Verif.Frames

noncomputable section

/-- Three components of a vector: x, y, and along the motion of the reference. -/
@[ext] structure V3 where
  x : ℝ
  y : ℝ
  z : ℝ

/-- `direction_of_motion`, `track_magnet_radiation.h:11-27`, as it is written. -/
def direction (px py delta : ℝ) : V3 :=
  let ix := px / (1 + delta)
  let iy := py / (1 + delta)
  ⟨ix, iy, Real.sqrt (1 - ix * ix + iy * iy)⟩

/-- `B_par_x`, … in `separate_par_perp_components`, lines 29-61. -/
def par (B i : V3) : V3 :=
  let b := B.x * i.x + B.y * i.y + B.z * i.z
  ⟨b * i.x, b * i.y, b * i.z⟩

/-- `B_perp_x`, …, lines 29-61. -/
def perp (B i : V3) : V3 := ⟨B.x - (par B i).x, B.y - (par B i).y, B.z - (par B i).z⟩

/-- `compute_b_perp_mod`, lines 63-94. -/
def bPerpMod (kinPx kinPy delta : ℝ) (B : V3) : ℝ :=
  let b := perp B (direction kinPx kinPy delta)
  Real.sqrt (b.x * b.x + b.y * b.y + b.z * b.z)

/-- What `magnet_spin` reads from the particle besides the coordinates of `Part`; `q0` in elementary charges,
`mass0` in eV. -/
structure Extra where
  ax : ℝ
  ay : ℝ
  gamma0 : ℝ
  mass0 : ℝ
  q0 : ℝ
  /-- `anomalous_magnetic_moment` -/
  G : ℝ
  /-- `QELEM` and `C_LIGHT` -/
  qelem : ℝ
  clight : ℝ

/-- `gamma`, line 135. -/
def gamma (p : Part) (e : Extra) : ℝ := e.gamma0 * (1 + p.beta0 * p.ptau)

/-- `brho_part`, lines 136-139. -/
def brho (p : Part) (e : Extra) : ℝ :=
  let beta := p.beta0 * p.rvv
  let mass0kg := e.mass0 * e.qelem / e.clight / e.clight
  let PJ := mass0kg * beta * gamma p e * e.clight
  PJ / (e.q0 * e.qelem)

/-- `Omega_BMT_x`, …, lines 171-176. -/
def omegaFrom (G gamma brho : ℝ) (B i : V3) : V3 :=
  let c := -1 / brho
  ⟨c * ((1 + G * gamma) * (perp B i).x + (1 + G) * (par B i).x),
   c * ((1 + G * gamma) * (perp B i).y + (1 + G) * (par B i).y),
   c * ((1 + G * gamma) * (perp B i).z + (1 + G) * (par B i).z)⟩

/-- The direction used by `magnet_spin`, lines 141-149: `kin_px_mean` is px **plus** ax. -/
def spinDirection (p : Part) (e : Extra) : V3 := direction (p.px + e.ax) (p.py + e.ay) p.delta

/-- `Omega_BMT`. -/
def omega (p : Part) (e : Extra) (B : V3) : V3 :=
  omegaFrom e.G (gamma p e) (brho p e) B (spinDirection p e)

/-- `Omega_BMT_mod`, lines 178-179. -/
def mod (w : V3) : ℝ := Real.sqrt (w.x * w.x + w.y * w.y + w.z * w.z)

/-- The rotation matrix of lines 203-211 applied to a spin, lines 214-216. -/
def quat (t0 tx ty tz : ℝ) (s : V3) : V3 :=
  ⟨(t0 * t0 + tx * tx - ty * ty - tz * tz) * s.x + (2 * (tx * ty - t0 * tz)) * s.y + (2 * (tx * tz + t0 * ty)) * s.z,
   (2 * (tx * ty + t0 * tz)) * s.x + (t0 * t0 - tx * tx + ty * ty - tz * tz) * s.y + (2 * (ty * tz - t0 * tx)) * s.z,
   (2 * (tx * tz - t0 * ty)) * s.x + (2 * (ty * tz + t0 * tx)) * s.y + (t0 * t0 - tx * tx - ty * ty + tz * tz) * s.z⟩

/-- Lines 181-218: the precession, left out below `1e-10`. -/
def precess (w : V3) (lpath : ℝ) (s : V3) : V3 :=
  if 1 / 10 ^ 10 < mod w then
    let phi := mod w * lpath
    let sn := Real.sin (phi / 2)
    quat (Real.cos (phi / 2)) (w.x / mod w * sn) (w.y / mod w * sn) (w.z / mod w * sn) s
  else s

/-- The entry and exit rotations of the frame of a bend, lines 117-126 and 221-223. -/
def bendFrame (hx length : ℝ) (s : V3) : V3 :=
  let sn := if hx ≠ 0 then Real.sin (hx * length / 2) else 0
  let cs := if hx ≠ 0 then Real.cos (hx * length / 2) else 1
  ⟨s.x * cs + s.z * sn, s.y, -s.x * sn + s.z * cs⟩

/-- The spin of a particle. -/
def spinOf (p : Part) : V3 := ⟨p.spinX, p.spinY, p.spinZ⟩

/-- Setting the spin. -/
def setSpin (p : Part) (s : V3) : Part := { p with spinX := s.x, spinY := s.y, spinZ := s.z }

/-- `magnet_spin`, lines 96-230; `none`: the state is set to -33. -/
def magnetSpin (p : Part) (e : Extra) (B : V3) (hx length lpath : ℝ) (backtrack : Bool) : Option Part :=
  if p.spinX ≠ 0 ∨ p.spinY ≠ 0 ∨ p.spinZ ≠ 0 then
    if backtrack then none
    else some (setSpin p (bendFrame hx length (precess (omega p e B) lpath (bendFrame hx length (spinOf p)))))
  else some p

/-! ## The legacy solenoid -/

/-- The direction used in `legacy_solenoid_apply_radiation_single_particle`,
`track_legacy_solenoid_radiation.h:122-133` (`beta` cancels). -/
def legacyDirection (oldPx oldPy ax ay delta : ℝ) : V3 :=
  let px := oldPx + ax
  let py := oldPy + ay
  let pz := Real.sqrt ((1 + delta) * (1 + delta) - px * px - py * py)
  ⟨px / pz, py / pz, Real.sqrt (1 - px / pz * (px / pz) - py / pz * (py / pz))⟩

/-- The spin there, lines 112-213: without precession the frame is not turned either. -/
def legacySpin (p : Part) (e : Extra) (oldPx oldPy hx length lpath : ℝ) (B : V3) (backtrack : Bool) : Option Part :=
  if p.spinX ≠ 0 ∨ p.spinY ≠ 0 ∨ p.spinZ ≠ 0 then
    if backtrack then none
    else
      let w := omegaFrom e.G (gamma p e) (brho p e) B (legacyDirection oldPx oldPy e.ax e.ay p.delta)
      if 1 / 10 ^ 10 < mod w then
        some (setSpin p (bendFrame hx length (precess w lpath (bendFrame hx length (spinOf p)))))
      else some p
  else some p

/-! ## The wedge -/

/-- The spin in `Wedge_single_particle`, `track_wedge.h:59-74`. -/
def wedgeSpin (theta : ℝ) (p : Part) : Part :=
  let sn := -Real.sin theta
  let cs := Real.cos theta
  if p.spinX ≠ 0 ∨ p.spinZ ≠ 0 then
    { p with spinX := cs * p.spinX - sn * p.spinZ, spinZ := sn * p.spinX + cs * p.spinZ }
  else p

end

end Verif.Spin
