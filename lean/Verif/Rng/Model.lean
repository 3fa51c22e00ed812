/-!
# Random number generator

Source: `/repo/xtrack/particles/rng_src/base_rng.h`, `/repo/xtrack/random/random_src/uniform.h`,
`exponential.h`, `normal.h`, `/repo/xtrack/random/random_generators.py`.

`uint32_t` is `BitVec 32`.  The constants with suffix `UL` make some intermediate results
64 bit wide, but each of them is reduced with `& MASK` or shifted right before it is stored in
a `uint32_t`, so all operations are the 32-bit ones.
-/

namespace Verif.Rng

abbrev U32 := BitVec 32

/-- `_rng_s1 .. _rng_s4` of one particle. -/
structure Rng where
  s1 : U32
  s2 : U32
  s3 : U32
  s4 : U32
  deriving DecidableEq, Repr

/-- `TAUSWORTHE(s,a,b,c,d)`; base_rng.h:19. -/
def tausworthe (s : U32) (a b : Nat) (c : U32) (d : Nat) : U32 :=
  ((s &&& c) <<< d) ^^^ (((s <<< a) ^^^ s) >>> b)

/-- `LCG(s,A,C)`; base_rng.h:20. -/
def lcg (s A C : U32) : U32 := A * s + C

/-- The first three statements of `rng_get_int32`; base_rng.h:24-26. -/
def t1 (s : U32) : U32 := tausworthe s 13 19 4294967294#32 12
/-- base_rng.h:25. -/
def t2 (s : U32) : U32 := tausworthe s 2 25 4294967288#32 4
/-- base_rng.h:26. -/
def t3 (s : U32) : U32 := tausworthe s 3 11 4294967280#32 17
/-- base_rng.h:27. -/
def t4 (s : U32) : U32 := lcg s 1664525#32 1013904223#32

/-- State after `rng_get_int32`; base_rng.h:22-31. -/
def next (r : Rng) : Rng := ⟨t1 r.s1, t2 r.s2, t3 r.s3, t4 r.s4⟩

/-- The value computed from the (new) state; base_rng.h:30. -/
def value (r : Rng) : U32 := r.s1 ^^^ r.s2 ^^^ r.s3 ^^^ r.s4

/-- `rng_get_int32`: returned value and new state; base_rng.h:22-31. -/
def getInt32 (r : Rng) : U32 × Rng := (value (next r), next r)

/-- `rng_set`; base_rng.h:44-62. -/
def rngSet (s : U32) : Rng :=
  let s1 := lcg s 69069#32 0#32
  let s1 := if s1 < 2#32 then s1 + 2#32 else s1
  let s2 := lcg s1 69069#32 0#32
  let s2 := if s2 < 8#32 then s2 + 8#32 else s2
  let s3 := lcg s2 69069#32 0#32
  let s3 := if s3 < 16#32 then s3 + 16#32 else s3
  let s4 := lcg s3 69069#32 0#32
  next (next (next (next (next (next ⟨s1, s2, s3, s4⟩)))))

/-- The test used everywhere to find out whether a particle has been seeded; uniform.h:25,40,62 and
particles.py:1387-1393. -/
def isUnset (r : Rng) : Bool := r.s1 == 0#32 && r.s2 == 0#32 && r.s3 == 0#32 && r.s4 == 0#32

/-- The part of a particle the generators use; `killed` is the state set by
`LocalParticle_kill_particle` (local_particle_custom_api.h:248-256). -/
structure Part where
  rng : Rng
  state : Int
  deriving DecidableEq, Repr

/-- `RNG_ERR_SEEDS_NOT_SET`; xtrack/headers/particle_states.h:12. -/
def rngErrSeedsNotSet : Int := -20

/-- `RandomUniformUInt32_generate`; uniform.h:55-75. -/
def generateUInt32 (p : Part) : U32 × Part :=
  if isUnset p.rng then (0#32, { p with state := rngErrSeedsNotSet })
  else ((getInt32 p.rng).1, { p with rng := (getInt32 p.rng).2 })

/-- `RandomUniform_generate`; uniform.h:33-53.  The double returned is the integer of
`generateUInt32` divided by 2^32 (exact); the numerator is kept. -/
def generateUniform (p : Part) : U32 × Part := generateUInt32 p

/-- The `while (x1 == 0.0)` loop at the beginning of `RandomExponential_generate` and
`RandomNormal_generate`; exponential.h:20-23, normal.h:20-23.  The first argument bounds the number
of draws; `none` means that it was not enough. -/
def drawNonzero : Nat → Part → Option (U32 × Part)
  | 0, _ => none
  | n + 1, p =>
    let r := generateUniform p
    if r.1 = 0#32 then drawNonzero n r.2 else some r

/-! ## Sampling kernels -/

/-- The inner loop of `RandomUniform_sample` for one particle: `n` samples are written at
`n * particle_id + i`; uniform.h:86-89.  Returns the positions written, in order, with the numerators
of the samples, and the particle. -/
def sampleLoop (n : Nat) (id : Int) : Nat → Nat → Part → List (Int × U32) × Part
  | 0, _, p => ([], p)
  | k + 1, i, p =>
    let r := generateUniform p
    let rest := sampleLoop n id k (i + 1) r.2
    ((n * id + i, r.1) :: rest.1, rest.2)

/-- `RandomUniform_sample`; uniform.h:78-91: all the writes of the kernel, in order.  `parts` are the
active particles (id, generator state). -/
def sampleKernel (n : Nat) (parts : List (Int × Part)) : List (Int × U32) :=
  parts.flatMap fun p => (sampleLoop n p.1 n 0 p.2).1

/-- `n_samples_per_seed` in `RandomUniform.generate`; random_generators.py:55-57 (`none`: the
`ValueError`). -/
def samplesPerSeed (nSamples nSeeds : Nat) : Option Nat :=
  if nSamples / nSeeds < 1 then none else some (nSamples / nSeeds)

/-- Size of the output buffer; random_generators.py:59. -/
def bufferSize (nSeeds n : Nat) : Nat := nSeeds * n

end Verif.Rng
