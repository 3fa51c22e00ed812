# Formal model of xtrack: design

## Goal and method

The source in /repo (xsuite/xtrack, pinned commit) is read as text and modelled
function by function in Lean 4. Each property of `properties.jsonl` is stated
against a small specification that does not use the helpers of the model and is
proved for all inputs, states, histories or schedules.

Layout of `/verif/lean/Verif`: one directory per area; `Model.lean` holds the
functions transcribed from the code (each with a comment citing file and lines),
`Lemmas.lean` holds auxiliary facts, `Props.lean` holds specifications, property theorems and, beside
each of them, `example`s that show that the hypotheses can be met by a non-trivial case.

Where the code violates a property, the negation is proved with a concrete
witness (`..._violated`) and the strongest true weakening is proved
with the suffix `_partial`.

## Trusted base

* Lean 4.33.0 kernel and the Mathlib library (imported module by module).
* Axioms: only `propext`, `Classical.choice`, `Quot.sound` (checked with `#print axioms`).
* The faithfulness of the transcription from C/Python to Lean (by reading; cited lines).
* Floating-point numbers are modelled as exact reals (or rationals/integers); rounding, overflow, NaN
  and infinities are not modelled. 64-bit integer overflow is not modelled except for the random number
  generator, where the arithmetic is done on 32-bit words.
* Not modelled: xobjects buffers and memory management, compilation of kernels, GPU contexts,
  xdeps deferred expressions, numpy broadcasting, file formats unless stated.

## Plan per property

Status: `proved`, `partial` (the theorem names ending in `_partial` say what is missing, witnesses
end in `_violated` or similar), `planned` (not done yet).

| id | property | status | model and proof |
|----|----------|--------|-----------------|
| C01 | Losing particles never loses or corrupts particle records (serial CPU) | proved | Slots = `List Particle` (id, coordinates opaque, state). `checkActive` mirrors the serial `while`/swap loop; property by induction: `List.Perm`, prefix alive, counters. History theorem: induction over a list of arbitrary per-element state updates. |
| C02 | OpenMP reorganisation is a correct partition of each chunk | proved | OpenMP two-pointer loop over `(list, left, right)` with a termination measure; partition + perm + frame outside chunk; count loop. |
| C03 | Particles.reorganize restores the slot layout without changing particles | partial | `reorganize` on list of slots with state; shortcut condition modelled exactly. Negation witness for the shortcut; `_partial` for layouts in which the shortcut is harmless. |
| C04 | add_particles never overwrites an existing particle | partial | `addParticles` modelled on top of reorganize; invariant over op lists. |
| C05 | merge and filter conserve particles | proved | `merge` with id shifting, `filter` as list filter. |
| C06 | Sorting keeps alive particles tracked | partial | `sort` with integer keys; negation witness; `_partial` for by=particle_id. |
| C07 | Hiding and unhiding lost particles is lossless | proved | state machine with capacity/counters. |
| C08 | Energy variables always describe one and the same particle momentum | partial | energy record over the reals, one function per C function; invariant by induction on op list. |
| C09 | delta and ptau conversions are inverse to each other | proved | real algebra (sqrt). |
| C10 | add_to_energy adds exactly the requested energy and keeps the direction | proved | real algebra. |
| C11 | Changing the reference momentum does not change the physical particle | proved | real algebra. |
| C12 | Python and C energy updates agree | partial | both formula sets defined, equality proved. |
| C13 | Magnetic rigidity can be set and read back | partial | real algebra + negation witness for negative charge. |
| C14 | Exact angles can be set and read back | proved | real algebra. |
| C15 | A seeded random stream never degenerates | proved | `BitVec 32` model, bit-level lemmas, induction on number of draws. |
| C16 | Random sampling kernels write every requested sample exactly once and inside the buffer | partial | write-address model; negation witness for ids out of range; `_partial` for ids that are a permutation of 0..n-1. |
| C17 | Internal-record slots are exclusive under any thread interleaving | proved | interleaving semantics: one atomic step per memory access, any schedule; inductive invariant. |
| C18 | Turn splitting tracks exactly the requested elements | partial | arithmetic model of the case analysis, kernel as nested loop emitting an event trace; refinement to `List.range`-like specification. |
| C19 | Backtracking visits the same elements in reverse and undoes the turn counters | partial | kernel trace with backtrack. |
| C20 | Progress display does not change the tracking result | partial | batch loop over the turn-splitting model; trace equality. |
| C21 | Collective splitting does not change the order of elements | partial | split function + collective loop; trace equality. |
| C22 | Holding and resuming equals uninterrupted tracking | partial | collective loop as a resumable state machine; trace equality by induction. |
| C23 | Pipeline messages are delivered in order and never mixed up | partial | mixed-radix injectivity + FIFO queue model. |
| C24 | ParticlesMonitor stores each particle-turn in its own cell | partial | slot function; injectivity, bounds, refinement of memory to a function of (rep,turn,id). |
| C25 | LastTurnsMonitor holds exactly the last n turns | partial | rolling buffer, invariant over histories. |
| C26 | Multi-element monitor cells are distinct and readable by turn, particle and element | proved | slot function as C24. |
| C27 | Beam position and size monitors account for every particle exactly once | partial | Sampling slot characterised by an interval of the arrival time; induction over passages gives counts and sums, algebra gives means and variances. |
| C28 | MultiSetter writes and reads exactly the selected fields | proved | memory = function Nat → value, offsets. |
| C29 | Track flags are independent | proved | register as a natural number / bit list, fold over writes. |
| C30 | Slice weights conserve the element | partial | Closed forms over the reals for all orders; the interleaving of drift and element weights by induction. |
| C31 | Slicing a line conserves length and every element's s position | partial | The slicer threads the dictionary; every step only adds free names (searches proved to end on a free name), so lengths and positions are read in the final dictionary; the block of an element is characterised as a list of slices whose lengths add up. |
| C32 | Cutting at given positions creates boundaries exactly there | partial | Induction over the two-iterator scan shows that every position is close to an edge or becomes a cut; the custom scheme puts boundaries at the cuts; the rest is C31. |
| C33 | Position resolution honours every placement | partial | Invariant over the passes of the resolution: resolved components meet their demands; a stuck pass means that an unresolved component has no grounded chain of references. |
| C34 | Composed lines place components where requested, separated by drifts | proved | Induction over the rows with the position reached so far; the error grows by at most one tolerance per component; composition with C33 and C35. |
| C35 | Ordering at equal s respects the before/after constraints | partial | The sort is any stable sort; groups are maximal runs; insertion adds pending elements next to their targets; an error gives a closed set of constraints, which resolved placements never have. |
| C36 | Nested lines are flattened without losing components | proved | Structural induction over the tree of components; a placed line is its first element with a shifted position followed by the others. |
| C37 | Line algebra laws | partial | Heap model with the invariant that no two lines share a list, kept by every operation; sums through C36. |
| C38 | Cycling a line is a rotation | proved | Slices as drop and take, compared with List.rotate. |
| C39 | Removing or replacing elements keeps all other elements in place | partial | Position by position description of the result; sums of lengths by induction. |
| C40 | Inserting elements conserves the line length | partial | After the cuts every end of an insertion is within the tolerance of a boundary; then the four comparisons are equivalent to overlap. The rest follows from the theorems on resolution, ordering and filling. |
| C41 | Clean-up operations do not change the tracked physics | partial | Removed elements are shown to be the identity (also inside misalignments); merging by induction over the loop with the invariant that the line built so far followed by the rest tracks as the original line. |
| C42 | Editing one line does not change another line of the same environment | partial | Merging changes only lengths of drifts of the line; invariant of the cache over all histories; witnesses for shared drifts. |
| C43 | Removing redundant apertures never changes which particles survive | partial | Invariant of the scan: the registers are the last apertures and everything between them is passive; a straight path through a convex set stays inside between two points in it. |
| C44 | filter_elements keeps the line length | partial | Every name keeps its length, through chains of replicas and slices, by induction over the chain. |
| C45 | Unique names after replacing repeated elements | proved | Invariant over the replaced positions: fresh names, pairwise distinct, standing for copies. |
| C46 | Apertures kill exactly the particles outside their shape | partial | Equivalence of the tests of the code with the shapes; the cached squares are an invariant over all histories of setters. |
| C47 | Polygon aperture equals point-in-polygon on every context | partial | The even-odd sum changes, near a point, only by vertices at its height, which cancel around the polygon; hence it is locally constant off the boundary, constant on connected sets. The disc of the shortcut does not touch the boundary. |
| C48 | Frame rotations and shifts are exactly undone | proved | Each primitive is shown to describe the same free particle in the turned frame; such a description is unique, hence opposite frames cancel. |
| C49 | Misalignment entry and exit cancel | proved | Entry and exit are chains of primitives; the matrices of the code are the geometric frames, the angles read off with atan2 give them back (Euler); frame algebra. |
| C50 | Drift composition | proved | Algebra for both models; polar drifts through the geometric meaning and uniqueness. |
| C51 | Where and when a particle is lost, independently of the others | proved | Corollaries of the refinement proved for C01 and C02. |
| C52 | Drawing exponential and normal samples always terminates | partial | fuelled rejection loop; termination by a linear-recurrence argument on bit 0 of the outputs; divergence for unseeded particles by induction on the fuel. |
| C53 | The multi-tracker completes every branch | partial | Branches are the sessions of the tracker model with arbitrary finite lists of answers; induction over the passes of the multi-tracker, each of which uses the hold/resume lemma of C22. |
| C54 | Temporary settings are temporary | proved | Programs with contexts and exceptions as an inductive type with a big-step semantics; structural induction shows that programs writing only inside contexts restore the state; twiss is such a program. |
| C55 | Resolving a replica always ends with the right element or an error | proved | Resolution as a fuelled loop with the visited set; a pigeonhole argument shows the fuel suffices; results characterised by the transitive closure of the replica relation. |
| C56 | Slicing does not change what a misalignment does | proved | Frame algebra at the joints and induction over the list of slices; thin slices through the transparency of misaligned drifts. |
| C57 | Impact points on polygons exist, lie on the first wall crossed, and carry its normal | partial | The two parameters solve the linear system of the crossing; existence through C47 on a path shifted sideways; invariant of the loop for the first crossing. |
| C58 | The kick of a magnet is the field of its multipoles | proved | Invariant of the Horner loop with the running inverse factorial, over complex numbers. |
| C59 | Inside a magnet the particle follows the equations of motion | partial | Each formula is rewritten in terms of an addition law (angles, hyperbolic angles, rotation of the kinetic momentum); derivatives are computed with Mathlib; composition follows from the addition laws. |
| C60 | Backtracking a magnet undoes tracking it | partial | The integrators are palindromes; each step is undone by the step with the opposite arguments; the entry is the inverse of the exit. Particles that are turned around are excluded by conditions along the trajectory, which are discharged for straight magnets and quadrupoles. |
| C61 | All models of a magnet integrate the same field, whatever the slicing | partial | Sum of the weights by induction on the number of kicks; the rate of the drift part (C59) plus the kick per length (C58) is compared with Hamilton's equations for each branch of the configuration. |
| C62 | The reference particle follows the reference trajectory through bends | partial | The reference particle is a fixed point of every part up to s; for rectangular bends the positions inside are written as points of the arc and carried through the steps. |
| C63 | Angle, length, curvature and k0 of bends agree after any history of assignments | partial | Simulation between the element and a specification which keeps the last assignments; round trips follow because the state is a function of that. |
| C64 | Replacing multipoles by simple bends and quadrupoles keeps the physics | partial | The thin multipole is reduced to the kick of its total field (C58) and compared with the simple elements. |
| C65 | The survey follows the reference path | partial | Every call of advance_element is a composition of frames; a path satisfying the differential equations of the arc is exhibited and is unique; rows by induction over the line in both directions. |
| C66 | Survey and tracking agree | proved | Each element moves the particle as its frame says (theorems of Frames); compose along the line. |
| C67 | The choice of the starting point does not matter | proved | All rows are the first row followed by the same product of frames. |
| C68 | Slicing does not move the machine in the survey | partial | The product of the frames of the slices is the frame of the element: arcs with proportional lengths compose, the edges of a straight body cancel the chord. |
| C69 | The reversed survey is the survey of the reversed line | proved | Conjugation with half a turn around the vertical axis turns the inverse of each frame into the frame of the reversed element. |
| C70 | The angles in the survey describe the orientation | partial | cos and sin of the three arctangents in terms of the matrix; unwrapping changes by multiples of 2 pi (induction over the list). |
| C71 | A wedge is exact motion in a uniform field | proved | The orbit of the Lorentz equation is written down, with its derivatives; the formula of the code is shown to be its intersection with the turned plane. (px, pz - b x) rotates, hence composition and inverse. |
| C72 | Linear and full dipole edges describe the same face | partial | Direct calculation on the model of the edges; witnesses at 45 degrees for the two cases in which the claim is false. |
| C73 | DipoleEdge elements are the edges of a magnet | proved | Each edge of the magnet is unfolded to the element; histories by induction over the assignments. |
| C74 | The body of every magnet is symplectic | partial | Drift parts are flows of Hamiltonians (C59): the Jacobian is preserved along the flow; the nested integrators and bodies are compositions; kicks derive from a potential. The failing case by explicit derivatives. |
| C75 | Edges and whole magnets are symplectic | partial | Fringes have a generating function of mixed variables, which is exhibited; wedges are flows up to a change of frame; compose. |
| C76 | Misalignments and changes of the frame are symplectic | proved | Rotations of the frame: flow of the free motion composed with a rotation, by direct differentiation; misalignments are lists of such steps. |
| C77 | RF elements give the right energy, are symplectic and can be backtracked | partial | The kick derives from a potential of x, y and zeta iff the mixed derivatives agree; energy and inverse by direct calculation, induction over the steps of the body. |
| C78 | Tracking for any number of turns is symplectic and conserves phase space volume | partial | Elements of C74-C77 and C82. Composition of maps which keep the kinematic relations; induction over the list of elements and the number of turns; determinant from M^T J M = J. |
| C79 | A ring of LineSegmentMaps has the tunes, chromaticities and optics it was made with | partial | The plane map is conjugate to a rotation by the normalisation; rotations add up; induction over segments and turns. |
| C80 | Synchrotron motion of a LineSegmentMap | partial | The circle on which the particle turns lies within the bucket, so the nearest bucket does not change; induction. The tune of fixed RF from the derivative of the kick. |
| C81 | LineSegmentMaps are symplectic | partial | Normalisation, rotation by an angle depending on the actions, inverse normalisation are canonical by direct differentiation; slippage and RF kick derive from Hamiltonians; composition; witnesses by explicit derivatives. |
| C82 | Thin elements are symplectic | partial | Each kick has a symmetric gradient (wire: radial; exciter: holomorphic; nonlinear lens: potential, twice differentiable). Witnesses by explicit derivatives. |
| C83 | An AC dipole drives with the given waveform and twiss mode gives the driven tune | partial | Case analysis against the trapezoid; the trace of the one-turn matrix with the thin lens; invariant over the assignments. |
| C84 | An exciter plays its samples at the right times | partial | Floor and truncation; the loop over orders equals the complex multipole sum by induction. |
| C85 | A wire gives the kick of the Biot-Savart field | partial | Both integrals in closed form by the fundamental theorem of calculus. |
| C86 | Backtracking undoes thin elements | partial | Direct calculation. |
| C87 | A nonlinear lens has the elliptic potential with the documented quadrupole term | proved | Derivatives of the potential in elliptic coordinates and the chain rule; the quadrupole term from closed forms on the axes (arcsin and arsinh). |
| C88 | An electron lens applies the Lorentz force of the enclosed current | partial | The integral of the density in closed form; direct calculation. |
| C89 | R matrices of a twiss table are those of the line | proved | W matrices of two rows are transported columns up to a phase per mode, which the R matrix undoes; the symplectic form gives the normalisation. |
| C90 | Periodic optics and restarting from a row | proved | Equivalence of W matrices up to a phase per mode; the normalised representative is unique. |
| C91 | Beta and alpha functions follow the textbook transport | proved | beta and alpha as quadratic forms of the columns; transport and the symplectic conditions. |
| C92 | Dispersion is the derivative of the orbit with respect to momentum | partial | Dispersion as the element of the longitudinal plane with zeta = 0, pzeta = 1; linear algebra. |
| C93 | Phase advance is continuous | proved | Induction over the list with the invariant that the correction is a whole number of turns. |
| C94 | Linear normal form of a stable machine | partial | Eigenvectors of different eigenvalues are orthogonal with respect to S; sorting selects one of each pair; normalisation; the exceptional cases by witnesses. |
| C95 | Reversed twiss is the twiss of the reversed motion | partial | Reversal is conjugation by a diagonal matrix; witnesses for the columns which are wrong. |
| C96 | Normalized coordinates and matched beam | proved | Consequences of C89. |
| C97 | R and T matrices by finite differences | partial | Direct calculation; derivative for the limit. |
| C98 | Slip factor of both methods | proved | Linear systems; the cavity acts as a kick of pzeta, which is absorbed in the solution. |
| C99 | A second order map reproduces the part of the line it was made from | partial | Expansion around the orbit rewritten around the origin; sums over the three indices; with the finite differences of C97. |
| C100 | First and second order maps agree | proved | Direct calculation; conjugation by a diagonal symplectic matrix. |
| C101 | Scaled coordinates of a second order map | partial | Direct calculation; witness: the identity. |
| C102 | Replacing parts of a line by maps keeps the line | partial | Induction over the cuts with the invariant that the elements before the current cut are covered; different names make the dictionary lossless; witness for equal names. |
| C103 | Twiss over a range shows the given optics at the given place | partial | Tables are walks along the line; putting together two walks which meet is a walk; case distinction over all branches; witnesses on a line of four thick elements. |
| C104 | Twiss over one turn from any start | partial | The full table is a walk of a whole turn; cutting and joining gives the walk from the start; general statements of the failures. |
| C105 | Coasting beams: the collective elements see the free motion of every particle, each passage once and in its time window | partial | Specification: times of free motion and windows in time of an observer with speed beta1. Invariant over places and frames for each particle (alive, stopped at a place, parked, lost); induction over turns. Witness for a particle two frames late. |
| C106 | Feed-down gives the field seen around the orbit | proved | The field of a magnet as a polynomial in x + iy; binomial theorem; rolled frame by complex rotation; tied to the tracking of a placed element. |
| C107 | Driving terms describe the perturbed motion to first order | partial | Binomial expansion of the kick over all keys; recursion of the driving terms from row to row and over the turn; terms with p = q, r = t have a real factor; uniqueness of the closed solution; witness for the roll without frame. |
| C108 | Spin moves by a rotation | proved | Each effect is a rotation for given orbit (the quaternion matrix is orthogonal with determinant one); composition by induction over the line. |
| C109 | Spin precession follows the Thomas-BMT equation | partial | Specification: Thomas-BMT vector and Rodrigues rotation; the quaternion matrix is the Rodrigues rotation; induction over the bends for the design orbit; witnesses for vertical slopes and vector potentials. |
| C110 | Mean radiation takes the classical energy and keeps the direction | partial | Algebra from the coded constants to the textbook formula; scaling keeps ratios; explicit square of the perpendicular field. |
| C111 | Photons account for the energy lost | partial | Induction over the draws with the sums of energies and arrival distances; witnesses for the unrecorded photon and the `continue` in the do-while loop. |
| C112 | Total radiated energy by tables counts every photon once | proved | Product of uniforms against sum of exponentials by induction; powers of two and fuel by induction; floor arithmetic for the grids. |
| C113 | Radiation kicks of the closed orbit for all particles | partial | One step by calculation for any step; two equal particles and two steps as witness. |
| C114 | Saving a table writes exactly the selected columns and attributes | partial | Membership in the saved lists by cases over the three options; witnesses for the empty selection and the metadata option. |
| C115 | A table survives being written as CSV and read again | partial | Automaton of the CSV reader against the writer by induction over characters, cells and rows; witnesses. |
| C116 | A table and any data survive being written as JSON and read again | partial | Mutual induction over data trees for the encoder and the object hook; heap model of the dictionary which is changed in place. |
| C117 | Attributes of a table survive the header of a TFS file | partial | Words and padding of one line, then by cases over the type of the value; witnesses, with rounding to 16 digits on natural numbers. |
| C118 | Energy loss compensation leaves the cavities as they were but for a phase which gives back the loss | partial | Invariant of the iteration: all settings but the voltages are kept and the voltages stay in proportion; trigonometry for the final phase and its derivative; exceptions as outcomes with the line they leave. |
| C119 | Names of particles and PDG numbers translate into each other | partial | The search for an element in a name with digits is reduced to its letters by induction over the text; the tables are checked in full; witnesses. |
| C120 | The reported Edwards-Teng matrix decouples the turn | partial | Block equations of symplectic matrices; the Riccati equation of the decoupling from the commutator of C + adj B; the radicand from the traces of the turn and of its square; witness with a roll by 45 degrees. |
| C121 | Chromatic functions are momentum derivatives | partial | Exact algebra at the start of a range; elsewhere the mean value theorem, and Rolle's theorem twice for second differences with unequal steps; the mean momentum by induction over the rows; witnesses. |
| C122 | Modal optics and driving terms of the linear coupling | partial | Block algebra of symplectic 4x4 matrices; the driving terms are the components of the normalized coupling matrix in the eigenbasis of rotations, hence the propagation; witness for strong coupling. |
| C123 | Reported strengths are those used in tracking | partial | Case analysis over classes and slices; sums over slices by induction with the weights of C31; witnesses for replicas of slices and for high orders. |
| C124 | Refined loss locations | partial | Induction over the positions (equal steps of at most ds) with the flow property; induction over the apertures; two witnesses in a conical pipe. |
| C125 | Matched knobs | partial | Invariant of all histories (auxiliary terms exist and occur once); explicit values of all variables after each function; witnesses. |
| C126 | Inequality targets | partial | Derivatives of the pieces and at the two junctions (root of a cubic), monotonicity from the sign of the derivative; algebra of logarithms. |
| C127 | Luminosity is the overlap of the bunches | partial | Gaussian integrals by completing the square in x, y and time; positivity and continuity of the integrand for the witness. |
| C128 | Trajectory correction respects the corrector limits and ends | partial | Invariant over iterations (limits left = limits minus kicks); geometric decrease of the standard deviation for the end; concrete machines for the violations. |
| C129 | Response matrices of the trajectory correction are the response of the line | proved | Normalized coordinates at the monitor, linear system with the half angle. |
| C130 | Trajectory correction is the best one | partial | Normal equations from the orthonormal factors; rank of the zero column for the violation, rank of independent columns for the choice. |
| C131 | Reported radiative polarization | partial | Sign of the rigidity in every row; Gram determinants and completing squares for the bound in each row; concrete row for the violation. |
| C132 | Energy loss and damping with radiation | partial | Sums over rows; determinant as product of the roots of the characteristic polynomial; algebra of the constants. |
| C133 | Equilibrium beam with radiation | partial | Normalized coordinates diagonalize the turn, so each element of the covariance matrix has its own equation; uniqueness gives reality; geometric convergence; concrete rotation with damping for the violations. |
| C134 | A footprint reports the tune of every particle of its grid | partial | Orthogonality of the roots of unity for the single line; invariant of the loop over chunks; arithmetic of rows and columns. The fold at one half is proved for every motion with a single line above it. |
| C135 | The stability diagram is one over the dispersion integral | partial | Double sum over cells against nested one-dimensional rules; equal steps make the exchange of axes harmless; sign of the imaginary part of every cell; induction over the rounds. |
| C136 | A footprint rescaled on a knob is the footprint at the value of the knob | proved | Algebra, and the triangle inequality. |
| C137 | Elements survive being written to a dictionary and read back | partial | Lookup in filtered dictionaries; padding with zeros is invisible beyond the end; case distinction over stored arrays; violations for all elements of the kind. |
| C138 | Lines and environments survive being written and read, and being copied | partial | Induction over components; case distinction over modes; invariant of the loop over lines against the fixed point equations of what lines stand for. |
| C139 | A copy of a line is independent of the line | partial | Heap with separation of the elements of both lines, invariant over all programs of assignments; direct computation for the violations. |
| C140 | Particles follow the energy program | partial | Sums of mean velocities, strict monotonicity, interpolation at the points and on a straight line; induction over turns. |
| C141 | An element made from another one is what was given for it | partial | Invariant by induction over calls between the state (values and registered expressions) and the last definitions; the two cases in which it fails as concrete histories. |
| C142 | Expressions written to MAD-X are read back with the same value | partial | The printed form is fully parenthesised: the parser inverts the printer by induction over expressions; stripping of the ends by case distinction over the outermost operation. |
| C143 | Lines of MAD-X files have their elements in the order of MAD-X | partial | Induction over nested line definitions and over the file against the expansion of MAD-X; apertures by induction with a predicate on the pieces. |
| C144 | The algebra of lines | partial | Flattening of nested components, reversal and repetition as identities of lists, induction over components. |
| C145 | Elements of MAD-X files have the parameters given last | partial | Induction over the chain from the end; the table of meanings is written separately from the conversion; concrete chains for the failures. |
| C146 | A line written as a MAD-X sequence comes back the same | partial | Composition of writer and reader computed for every record; sums over slices; induction over the line with the dictionary of places split at the present element. |
| C147 | Apertures of elements of MAD-X files | partial | Induction over the chain from the end with an invariant on the cached type. |
| C148 | Statements of MAD-X files act in their order | partial | Induction over the file from the end: dictionaries with different keys, assignments after definitions commute with the order of the file when it is orderly. |
| C149 | The aperture computed at a position does not depend on the other positions asked for | partial | Invariant of the lower index over the positions in order; concrete witnesses for positions out of order. |
| C150 | An aperture profile is found wherever it sits along the survey | partial | Closed form of the offsets after k calls, on rings and on lines; case analysis by linear arithmetic. |
| C151 | Cuts requested with a resolution are at most the resolution apart | partial | Computation of the first and last point; concrete witnesses. |
| C152 | Intervals of positions on a ring cover what they should | partial | The reduced points in order; the arc is the complement of the widest gap; an arc which covers all points leaves out a gap between neighbours. Cases of the reduced ends for the cut. |
| C153 | Optics for aperture computations come from the nearest row | proved | The counts of rows before and up to the position bracket it in an ordered table. |
| C154 | A point is inside the aperture cross-section exactly when it is reported so | proved | Four corners cannot alternate above and below a height (an identity between signed areas), so one side goes up and one goes down through the height of the point; the parity is read off from them. Cone at the highest and lowest corner for existence. |
| C155 | The beam envelope has the shape asked for by the halo parameters | partial | Algebra with square roots; racetracks as sums of a rectangle and an ellipse; rational witness for the sum. |
| C156 | The extent of the beam in a direction is exact | partial | Cases of the direction; the quadratic is negative where the ray enters the corner, so its larger zero is the boundary. |
| C157 | The bisection returns the largest beam which fits | proved | Induction over the turns of the loop. |
| C158 | Distances to the aperture along rays are those of the wall | partial | Uniqueness of the parameters of the intersection; invariant of the best distance; in convex polygons two distances would put a boundary point in the interior. Concrete polygons for the failures. |
| C159 | The extents of the aperture on the axes are those of its outline | proved | Soundness and completeness of the points looked at on an edge; folds of minimum and maximum. |
| C160 | Poses of profiles and pipes are rigid motions and can be read back | partial | Trigonometric identities; the angles are those of points of circles (`Complex.arg`), and a rotation is its own matrix of cofactors. Integer matrix for the singular case. |
| C161 | Poses within bent elements lie on the reference curve | partial | Addition theorems; products of matrices entry by entry. |
| C162 | Profiles are installed where their plane meets the reference curve | proved | Solutions of cos x = cos y; for each family and each solution one of the candidates is not farther, by the rounding to the nearest integer; invariant of the loop which keeps the best. |
| C163 | The closest point of the reference curve is the closest | partial | Quadratic minimum; distances are kept by the pose, and the distance on a circle is a cosine of the difference of angles. |
| C164 | Coordinates along a bent pipe are inverse to each other, and walls are cut where they meet the plane | partial | Polar coordinates with the sign of the curvature; the height over a plane across the axis is a sine of the difference of positions. |
| C165 | Tolerances of the aperture are interpolated between the profiles | proved | Remainders are unique up to turns; convex combination. |
| C166 | The order of the profiles follows their positions up to the tolerance | proved | Invariant of each move: the order up to the tolerance; the number of bounds left for the passes over two mixed pipes. |
| C167 | Overlapping pipes are reported exactly if there are any | proved | The sweep accepts exactly if each piece starts after all earlier ends; symmetric relation, so the order of the list does not matter. |
| C168 | The outline of a profile is the boundary of its shape | partial | Every piece has a linear function which takes its largest value on the region there; invariant of the loop over pieces and points. |
| C169 | Aperture models made from limit elements agree with tracking | partial | Both regions are the shape moved by a rotation and a shift; concrete witnesses where the rotations differ. |
| C170 | The pipe of an associated aperture belongs to the element | partial | Invariant of the loop: the table has the pipe of the first element with each name. |
| C171 | Apertures of MAD-X are the same in the aperture model and in the line | partial | The regions are compared through the conditions of the track functions; corners of octagons by algebra. |
| C172 | The beam statistics monitor counts each particle in its slice, bunch and turn | partial | The kernel adds at an index which determines turn, slot and slice (injective); induction over the passages. |
| C173 | Particles of a coasting beam are counted in the turn in which they really pass | proved | The effective turn and slice are floor and remainder of one number. |
| C174 | Sums at the level of bunches and of the beam are the sums over their particles | partial | Sums over disjoint conditions; the slices fill the range. |
| C175 | The reported positions of slices are the centres of the slices | proved | Inequalities from floor. |
| C176 | Statistics obtained from the stored sums are those of the particles | proved | Algebra of weighted sums, Cauchy-Schwarz through the discriminant. |
| C177 | Whatever statistic is asked for, the sums it needs are stored | proved | Induction over the list of statistics, cases on names. |
| C178 | Profiles count each particle in the bin of its coordinate | proved | As C172 with the bin as another index. |
| C179 | The output file of the beam statistics monitor is a record of the turns | partial | Invariant over all histories of recording, frames and saves; concrete histories for the violations. |
| C180 | The closed orbit which is found is closed | partial | Every way out of the two attempts gives a point with small errors; the errors are differences after a turn. |
| C181 | A closed orbit searched elsewhere is the closed orbit at the start | partial | Turns from two places are conjugate; a concrete line with two rotations of the spin for the violation. |
| C182 | Backtracking through a SplineBoris element undoes tracking | proved | One step is undone by the step with opposite sign, because the rotation keeps the transverse momentum; induction over the steps. |
| C183 | Splines take the given values | proved | Composition of polynomials computed; derivative and integral of polynomials. |
| C184 | A SplineBoris element agrees with motion known exactly | partial | Induction over the steps for a field which is zero or uniform; concrete particles and fields for the violations. |
| C185 | The field of a SplineBoris element is one which can exist | proved | The field of order n is that of order n - 1 and the terms of one more coefficient, which satisfy the equations on their own. |
| C186 | An electron cooler cools | partial | The three components have a common negative factor, whose sign follows from that of the Coulomb logarithm; polar coordinates undone; speed increases with momentum. |
| C187 | Tracking with collective elements leaves the particles as found | partial | Induction over parts and turns: hiding is undone after each part which is not left out, moving at the next part or at the end of the turn. |
| C188 | A dictionary can be read again | partial | Readers as functions to result and remaining dictionary; first reading inverse to writing by induction; the second reading computed from what the first one left. |
| C189 | A table survives being written to an HDF5 file and read again | partial | Round trip of columns, attributes and tables by induction; groups as an association list. |
| C190 | A file called by an environment works on this environment | partial | Induction over files; the environment is passed as long as no inner call has ended. |
| C191 | xt.load reads what it is given | partial | Suffixes of names with any stem compared with all endings; the branches of load one by one; lists by induction. |
| C192 | Renaming a variable changes nothing but its name | partial | The renamed environment is the first one under a renaming of names; kept by assignments (induction over their list), values by induction over the depth of expressions. |
| C193 | Lines from sequences have their elements at the given positions | partial | Invariants of the loop over places (sum of lengths is the end of the last element; places shown at their positions); pigeonhole for the search of names; sorting by insertion; witnesses evaluated. |
| C194 | Relative multipolar errors follow the strength of the magnet | partial | Induction over the lists of errors and components; the second call computed for all values. |
| C195 | Loading variables gives those of the file in any order and leaves the settings | partial | Result of loading computed in closed form by induction over entries; permutations of entries with different names; states returned with errors. |
| C196 | A reversed line of a MAD-X file is the same machine seen the other way | partial | Fields as complex polynomials; conjugation and reflection of each power; induction over the names with the parity of the number of occurrences. |
| C197 | Optimising a line for tracking does not change what it does | partial | Each step keeps the conditions which the next one needs (new multipoles are thin and aligned, names stay distinct), and the theorems of C41 and C64 are composed. |
| C198 | Extending the order of the strengths changes no strength | partial | Strengths as lists filled up with zeros; one element by cases of the dictionary, lists of names by induction. |

## What is modelled, area by area


### Loss (C01, C02, C51)
Modelled: serial and OpenMP `check_is_active`, `increment_at_element`, `increment_at_turn`, the per-element and per-turn
loops of `track_line`, chunk bounds of the OpenMP kernel. Simplified: an element is an arbitrary function on the record of
one particle which may set its state to a value <= 0; coordinates are opaque. Not modelled: GPU kernels.

### Particles (C03-C07)
Modelled: `reorganize`, `add_particles`, `merge`, `filter`, `sort`, `hide_lost_particles`, `unhide_lost_particles`.
Simplified: the arrays of all per-particle variables are one list of records; `_lim_arrays_name` of xobjects (which shortens
what the getters return) is modelled as taking a prefix of the list. Not modelled: contexts, copies between devices.

### Energy (C08-C14)
Modelled: the `update_*`, `add_to_*`, `set_*` functions of local_particle_custom_api.h and their Python counterparts in particles.py,
constructor branches for energy variables, `rigidity0`, exact slopes. Simplified: real arithmetic; square roots and divisions
outside their domain are `none`. Not modelled: rounding.

### Rng (C15, C16, C52)
Modelled: base_rng.h (32-bit words), uniform.h, the rejection loops of exponential.h and normal.h, the sampling kernel, sizes in
random_generators.py. Not modelled: the logarithm/Box-Muller transformations, the Rutherford generator, `uniform_accurate.h`.

### Record (C17)
Modelled: `RecordIndex_get_slot` with one step per access to the shared counter, 32-bit wrap-around. Assumed: `atomicAdd` is atomic, memory is
sequentially consistent. Not modelled: lookup of the record (buffer id check), the writes of the record fields (they go to the slot returned).

### Tracker (C18-C22)
Modelled: the case analysis of `_track_no_collective` on start/stop/number of turns/number of elements, the loop of `track_line` (turns, elements, monitor
call, end-turn actions, backtracking), batches of `with_progress`, `_split_parts_for_collective_mode`, `_prepare_collective_track_session`, `_track_part`,
`_track_with_collective` with hold and resume, `TrackerPartNonCollective.track`. A run is the list of actions (element i, end of turn, record, element on hold).
Simplified: element names already resolved to indices; non-negative arguments; monitors in turn-by-turn mode only. Not modelled: element-by-element and
multi-element monitors, log, freeze_longitudinal, moving particles between contexts.

### Pipeline (C23, C53)
Modelled: `PipelineManager` (registration, tags, keys, send, receive, readiness), `PipelineCommunicator` (the local one), `PipelineMultiTracker.track`. Buffers
are addresses in a heap, a message is the address of the buffer (as in the code, which stores the reference). Not modelled: MPI communicators, the debug log.

### Monitors (C24-C27)
Modelled: `ParticlesMonitor_track_local_particle` and the constructor, `LastTurnsMonitor` (rolling buffer and getter), `MultiElementMonitor` (index table,
flattened index, `get`), the three sampling monitors (id selection, sampling slot with C `round`, accumulation, means, variances, profile bins).
Simplified: a record is opaque (all coordinates at once); real arithmetic for arrival times and sums; serial loop over particles (the code uses atomic adds);
memory is a function of the index, so a write outside the buffer would be visible. Not modelled: 32-bit storage of the last-turns monitor, `BeamStatsMonitor`.

### MultiSetter (C28)
Modelled: `_extract_offset`, construction, the get and set kernels on a byte-addressed buffer, threads in any order. Assumed: addresses and types of
fields as given by xobjects; array of values as long as the selection (the code does not check it).

### Config (C29, C54)
Modelled: `TrackFlags`, register and its test in C, `TrackerConfig` (item and attribute writes, `update`), the contexts `_preserve_config`,
`_preserve_track_flags`, `freeze_longitudinal`, their use by backtracking and twiss. Programs are trees of writes, exceptions, contexts and state-dependent
choices. Not modelled: rebuilding of the tracker inside a context, `_temp_knobs`.

### Slicing (C30-C32, C55)
Modelled: the three schemes and `iter_weights`, `Strategy.match_element`, `Slicer.slice_in_place`, `_scheme_for_element`, `_slice_element`, `_make_slices` with
the searches for free names, `Environment._get_drift` with its cache and counter, `Replica.resolve`, `_length`, `_is_thick`, `_elements_intersecting_s`, `cut_at_s`.
Simplified: elements reduced to class features, length, parent, weight and offset; real arithmetic; a slice finds its parent through the dictionary. Not
modelled: apertures associated with an element, regular expressions (the name test is arbitrary), progress bar.

### Composer (C33-C36)
Modelled: `_resolve_s_positions` (all passes, last resolved reference wins, error cases), `_sort_places` with grouping, classification and insertion,
`_generate_element_names_with_drifts`, `_validate_placement_geometry`, `_flatten_components`, `_all_places`, `_resolve_lines_in_components`, `Composer.build`.
Simplified: lengths and positions are real numbers, not expressions; rows identified by index; Python's `sorted` is any function with the properties of
`PySort` (which insertion sort has). Not modelled: lines in compose mode found by name, deferred expressions, `to_dict`.

### Lines (C37-C39, C44, C45)
Modelled: `Line.mirror`, `__neg__`, `__rmul__`, `__add__`, `__sub__`, shallow copies, `cycle`, `env.place`, `env.lines`, with the lists of names as objects on a
heap; `remove`, `replace`, `_name_match`, `filter_elements`, `replace_all_repeated_elements`. Simplified: table lookups are arbitrary lists of rows; the order
of a Python set is arbitrary; elements as in Slicing. Not modelled: lines in compose mode, trackers, particle_ref.

### Frames (C48-C50, C56)
Modelled: `track_drift.h`, `track_xyshift.h`, `track_{x,y,s}rotation.h`, `track_misalignments.h` (straight and curved, with the 4x4 matrices and `atan2`), the polar drift of
`track_magnet_drift.h`, the elements Drift, Translation, ZetaShift, X/Y/SRotation, Rotation, and the template `track_local_particle_with_transformations.h`. The specification
is geometric: frames in space, and "the same free particle seen from two frames" (`Moves`). Simplified: real numbers; one particle; NaN is excluded by the conditions that
the particle crosses the planes forward. Not modelled: refusal of rotations for thin slices of bends, the Misalignment element.

### Apertures (C46, C47, C57)
Modelled: `limitrect.h`, `limitellipse.h`, `limitrectellipse.h`, `limitracetrack.h`, `longitudinallimitrect.h`, `limitpolygon.h` (both kernels, on CPU and GPU), the
constructors and half-axis setters of the Python classes, `get_area`, `centroid`, the normals. Specification: plane shapes; for polygons the three properties which
make a set of points the interior of a closed polygon. Simplified: real numbers, one particle. Not modelled: svg paths, dictionaries, `a_b_squ` given to the constructor.

### Cleanup (C41-C43)
Modelled: `Line.remove_redundant_apertures` with `_is_aperture`, `_is_drift`, `_is_marker` and the three registers of the scan; elements as apertures (any set of points), markers,
drifts with the maps of Frames, and active elements with any map. Simplified: names of kept elements are a set, the particle is that of Frames.

### Magnets (C58-)
Modelled: `track_magnet_kick.h` (multipole loop, main components, curvature terms). Specification: the complex polynomial of the field. Simplified: real numbers.

Drift parts (C59). Modelled: all of `track_magnet_drift.h` except the vector potential written by the solenoid, which only radiation and spin read. Specification: Hamilton's equations
of the bend, the combined-function magnet to second order, and the solenoid, written as rates of change; a map is right if its derivative along the length is the rate at the place it
has reached.

Whole magnets (C60-C62). Modelled: `track_magnet_particles` (track_magnet.template.h) with the integrators of `_include_integrator.py`, `track_magnet_configure.h`, linear dipole edges
and the switch of edge models, the tilts of rectangular bends with straight body, slices through the weight. Full fringe fields are an arbitrary map, tracked forward only. Not modelled:
radiation, spin, and the vector potential in solenoids.

Fields of bends (C63). Modelled: the setters of `_BendCommon`, `Bend` and `RBend`, their constructors and dictionaries as histories of assignments. Simplified: the dictionary is the
record of the fields concerned.

Removing and merging (C41, C42, C64). Modelled: `remove_markers`, `remove_inactive_multipoles`, `remove_zero_length_drifts`, `merge_consecutive_drifts`, `merge_consecutive_multipoles`,
`use_simple_quadrupoles`, `use_simple_bends`, `_get_drift` with its cache; the elements track with the models of Frames and Magnets; the dictionary of elements is shared by all lines.
Simplified: radiation off, no deferred expressions, the model of merging starts after `replace_all_repeated_elements` (C45).

Insertion (C40). Modelled: `Line.insert` after the arguments have been turned into places: resolution and ordering together with the line (C33, C35), `cut_at_s` (C32), the tolerance tests that
decide what is removed, the second ordering and the filling with drifts (C34). `get_index_unique` (xdeps) is any function that returns different names.

Survey (C65-C70). Modelled: `survey.py` from the start angles to the table (`advance_element` with its assertions as failures, both directions, `SurveyTable.reverse`, `np.unwrap`), `_propagate_survey` of
rotations, translations and slices, and the columns length, angle and tilt of the line table for own elements, slices and replicas. Not modelled: negative indices for `element0`, cycling by name, plots.

Edges (C71-C73). Modelled: `Wedge_single_particle`, `Quad_wedge_single_particle`, `DipoleFringe_single_particle`, `MultFringe_track_single_particle`, the full edge of a magnet, `DipoleEdge` (assignments and
tracking). Not modelled: the PTC variant of the fringe (not compiled by default), tapering, the vector potential.

Symplecticity (C74-C78). The maps are those of the models Frames, Magnets, Edges and Rf; `SymplecticAt F p` says that the map of (x, px, y, py, zeta, pzeta) which F induces around p has a Frechet derivative
which preserves the symplectic form. Rf models `track_rf_kick_single_particle`, `track_rf_body_single_particle`, `track_rf_particles` and the three elements that call it. Not modelled: radiation, spin,
`XTRACK_CAVITY_PRESERVE_ANGLE`, tapering, apertures (which do not change coordinates), floating point.

Segments of a ring (C79-C81). Modelled: the constructor arguments for tunes and chromaticities of `LineSegmentMap`, and all of `linesegmentmap.h`: orbit, dispersion, chromatic and amplitude detuning, the three
longitudinal modes, energy increments, damping and noise (the latter as given numbers). Not modelled: the interpolation in the remaining constructor checks, and the random generator.

Thin elements (C82-C88). Modelled: the track functions of the thin bend, thin quadrupole, time delay, wire, AC dipole, exciter, nonlinear lens, electron lens and multipole edge, and the assignments of `ACDipole`
which set the gradient of twiss mode. Not modelled: the conversion of constructor arguments of the other elements; the radial profiles of an electron lens given by coefficients are modelled but C88 is about uniform
density only.

Optics (C89-C98). Modelled: `linear_normal_form.py`, the extraction of lattice functions from W, the propagation of the eigenvectors by tracking along the line, finite-difference matrices, the periodic
dispersion, `TwissInit` (conversion of given functions into W, reversal), and of `TwissTable` the R matrices, normalized coordinates, covariance and reversal; slip factor. Elements are given maps of phase
space (affine where the statement says so); the eigenvalue solver is an input constrained by what eigenvectors are. Not modelled: closed orbit search, radiation and spin, chromatic functions other than
dzeta, dmux, dmuy, the coupling calculations. (Ranges which wrap around the end of the line are in C103.)

Taylor maps (C99-C102). Modelled: both track functions, `from_line`, `scale_coordinates`, `get_line_with_second_order_maps` and the dictionary through which a line is made from lists. The matrices of the line are
those of the area Optics.

Twiss over ranges (C103, C104). Modelled: the choice of the direction and of the starting point of the propagation, the table over a range, `TwissTable.concatenate` of two tables, `zero_at`, `get_twiss_init`, all branches
of `_compute_twiss_handling_init_inside_range_and_line_wrap` and the routes with a `start` and no `end`. The optics at a place is an element of any set on which the elements act by bijections; phase advances are
functions of it. Names in slices of table rows are inclusive (behaviour of the table class of xdeps, which is not in the repository). Not modelled: `reverse=True`, several turns, chromatic columns.

Coasting beams (C105). Modelled: all of `synctime.py`, with `particles.reorganize` and the increments of `at_turn` and `s` by the tracker. Motion between the places is an arbitrary change of zeta or a loss. Added
to the model and not in the code: the list of passages each particle had. Not modelled: floating point, the OpenCL context (an exception), how `line.insert` puts the elements into the line.

Resonance driving terms (C106, C107). Modelled: all of `feed_down.py` but the checks of shapes, and of `rdt.py` the strengths with feed-down, the driving terms along the line, the frequencies of the metadata and
`tracking_from_rdt`. Sums over a finite set of keys. Tied to the thin kick of the area Magnets and the misalignments of the area Frames. Not modelled: the text of the expressions in the metadata, broadcasting.

Spin (C108, C109). Modelled: `direction_of_motion`, the split of the field, `magnet_spin` with its threshold and its refusal of backtracking, the spin in wedges and rotations, the older spin kick of the thin elements. Field, path
length and vector potential are functions of the orbit. Not modelled: spin in the exciter, floating point.

Radiation (C110-C113). Modelled: all of `synrad_spectrum.h` but the coefficients of the spectrum function and the contents of the tables; `magnet_radiation`; the order of steps and particles in the magnet tracking with the shared record.
Random numbers are arbitrary lists of real numbers. Not modelled: probability distributions as measures, floating point, the Box-Muller and rejection constants, beamstrahlung and the internal record buffer (area Record).

Tables in files (C114-C117). Modelled: the selection of names in `to_dict` and `to_csv`, the CSV writer and reader with the casts of the columns, `xt.json.dump`/`load` and the tables in JSON, the header lines of TFS files. Texts are lists of
characters, files are lists of lines. Parameters with laws (shown satisfiable): the text of a number and its reading, JSON text and its parser, compression. Not modelled: HDF5, the columns of TFS files (another package), the selection of
rows (class of another package).

Tapering (C118). Modelled: all of `tapering.py` after the checks at its entry, with tracking and closed orbit search as arbitrary functions of the settings. The energy which a cavity gives is tied to the tracking of the area Rf. Not modelled:
thick cavities (the phase is computed for the entry), absolute time on turns after the first.

Names of particles (C119). Modelled: the tables and the functions of `particles/pdg.py` between names, numbers and properties. Not modelled: masses, arrays. The two tables of elements and the table of particles are finite data of the code and are
checked in full by the kernel (`decide +kernel`); the number of nucleons and the spelling are treated in general.

Coupling matrix (C120). Modelled: all of `twiss/coupling_edw_teng.py` on the transverse block, in real numbers; division by zero is a value. Not modelled: the longitudinal rows and columns of the normal form.

Chromatic functions (C121). Modelled: columns and scalars of `twiss/chromatic_functions.py` as functions of the three tables, and the initial conditions beside the central momentum for open ranges, on the W matrices of the area Twiss. Not modelled: the closed orbit search for periodic rings, and the propagation, which enters as a smooth function of the momentum.

Modal functions (C122, area EdwTeng). Modelled: rotation of the eigenvectors and the modal functions and driving terms of `twiss/lattice_functions_from_W.py` on the transverse block of W. Specification: the decomposition of Edwards and Teng of the area EdwTeng.

Reported strengths (C123, area Attr). Modelled: the arrays and derived fields of `LineAttr` for one element (own, parent, weight, inheritance), the main strength, resolution of replicas, and the arguments with which the headers of the elements call the kick. Simplified: real numbers, no tapering.

Refinement of losses (C124, area LossRef). Modelled: the loop over apertures with its four exits, the positions of the interpolated apertures, tracking back and forward with the first aperture which the particle does not pass. Parameters: the motion between the apertures (any flow) and the interpolated aperture (any predicate). Not modelled: construction of polygons, replicate mode, thin elements beside the apertures.

Matching (C125, C126, area Match). Modelled: the auxiliary variables and expressions which `KnobOptimizer` makes, on environments whose variables are an expression of the user plus auxiliary terms; inequality targets with the polynomial transition; the logarithmic luminosity target. Parameters: the solver (any solution) and the expressions of the user (any function). Not modelled: the solver and cost function, which are in the package xdeps.

Luminosity (C127, area Lumi). Modelled: `luminosity` of lumi.py without crab crossing, with the quadrature as an integral. Specification: overlap integral of two moving Gaussian densities over space and time.

Trajectory correction (C128-C130, area Steer). Modelled: response matrix, solution with singular values, choice of correctors, and the loop of `TrajectoryCorrection.correct`. The bounded solver of scipy is any function respecting its limits, the machine any function from kicks to orbits; `lstsq` is represented by the documented condition under which it returns a residual.

Polarization (C131, area Polar). Modelled: the sums and quotients of `_add_spin_polarization` over the columns of the twiss table. Specification: formula of Derbenev and Kondratenko in terms of the motion alone. Not modelled: the eigenvectors of the motion with spin.

Damping and equilibrium (C132, C133, area Equil). Modelled: energy loss, damping constants, radiation integrals, photon statistics, emittances, and the covariance matrix of the full method in twiss/radiation.py. Eigenvectors and columns of the twiss table are given.

Footprints (C134 to C136, area Footprint). Modelled: the grids, the removal of the closed orbit, the Fourier transform and the strongest line, the loop over chunks, flattening and reshaping, the linear rescaling, the dispersion integral with broadcasting in the trapezoidal rule, the adaptive epsilon. The motion is a parameter. Not modelled: tracking, interpolation of the tunes (any table), plots.

Saving, loading and copying (C137 to C139, area Saved). Modelled: `to_dict` and constructors of generic elements, elements with multipolar arrays, dipole and magnet edges, exciters, AC dipoles, segment maps (tunes) and rotations; composers, lines and the order of reading lines in an environment; copies of lines on a heap with shared containers. Taken for granted about xobjects (not in the repository): every field which differs from its default is stored, and the constructor is called with the stored entries. Not modelled: JSON encoding, variables and expressions, contexts and buffers, the other classes.

Energy programs (C140, area EProg). Modelled: turn numbers and times of `EnergyProgram`, the update of the reference at the start of a turn, the owner of the program under copies and reloading. Taken for granted about xdeps: linear interpolation between points.

- **Proto** (`Verif/Proto`): `Environment.new` from a class or another element, `Environment.set`, `_set_kwargs`, `_copy_element_from`, `elements.remove` as operations on values and registered expressions. The dependency manager of xdeps is modelled, not verified; attributes are scalars and variables hold numbers.

- **Mad** (`Verif/Mad`): expressions written to and read from MAD-X (`Expr`: printing with full parentheses, stripping of characters, grammar of `madx.lark` as a parser on tokens), lines of MAD-X files (`Lines`), element parameters through chains of classes and assignments (`Elements`). The lexer, the lark library and the printing of numbers are not modelled.
- **LineAlg** (`Verif/LineAlg`): `Line.__neg__`, `__add__`, `__sub__`, `__rmul__`, `mirror` for lines and composers, and `Composer.build`, on nested components.

- **Mad.Round** (`Verif/Mad/Round.lean`): the converters of `mad_writer.py` followed by those of the loader, on records of attributes; positions of elements in the written sequence.

- **Mad.Order** (`Verif/Mad/Order.lean`): the dictionaries filled by the parser and their use by the loader kind by kind, against statements done one after the other; beams; apertures through chains of statements.

- **AperModel.Search** (`Verif/AperModel/Search.lean`): the zigzag search along the survey, the search for the bound in force, resampling of the survey, cuts of an element.
- **AperModel.Intervals** (`Verif/AperModel/Intervals.lean`): intervals of positions on a ring, positions around transitions, the row of the optics table.

- **AperModel.Polygon** (`Verif/AperModel/Polygon.lean`): the ray test for points in polygons.
- **AperModel.Beam** (`Verif/AperModel/Beam.lean`): racetracks of beam and halo, radius at an angle, secant and bisection searches, over the reals.
- **AperModel.Rays** (`Verif/AperModel/Rays.lean`): distances along rays, the test for convexity, extents on the axes.

- **AperModel.Poses** (`Verif/AperModel/Poses.lean`): matrices of rotations and shifts, their inverse and angles, arcs of the survey, over the reals.
- **AperModel.Segments** (`Verif/AperModel/Segments.lean`): intersections of lines and arcs with planes, closest points.
- **AperModel.Curvilinear** (`Verif/AperModel/Curvilinear.lean`): coordinates along a bent pipe, cuts of the wall between two profiles.

- **AperModel.Bounds** (`Verif/AperModel/Bounds.lean`): positions near a profile, interpolated tolerances, order of the profiles, check for overlapping pipes.

- **AperModel.Shapes** (`Verif/AperModel/Shapes.lean`): outlines of the shapes and points at equal distances on them. **AperModel.Limits** (`Verif/AperModel/Limits.lean`): profiles from limit elements, pipes from associated apertures, apertures of MAD-X.

- **BeamStats** (`Verif/BeamStats/`): the beam statistics monitor: configuration, cells, sums, levels, statistics, profiles and the output file.

- **ClosedOrbit** (`Verif/ClosedOrbit/`): the search for the closed orbit: errors, attempts, shifts, searches elsewhere, spin, and the search for the revolution time. Tracking is a parameter; the optimizer is a parameter with a contract.

- **Boris** (`Verif/Boris/`): the `SplineBoris` element: the generated expressions of the field for the orders one to seven (`Field.lean`, translated term by term by a script), polynomials of splines, and the loop of Boris steps. Not modelled: radiation, spin, rounding, the field of the additional multipoles (a parameter).

- **Cooler** (`Verif/Cooler/`): the kick of the electron cooler with all branches; results which are not numbers are `none`. Not modelled: rounding, the index of the record.

- **Session** (`Verif/Session/`): what collective tracking does to the particles object and its monitors from part to part, with holds. A resumed session is modelled as a second attempt at the same part (C22).

- **Reread** (`Verif/Reread/`): readers which give what they leave of the dictionary of the caller besides their result. The data of functions, particles and elements is any type. Not modelled: the beam-beam configuration.

- **Hdf** (`Verif/Hdf/`): tables in HDF5 files, at the root or in groups. Behaviour of h5py and numpy is taken as stated in the file; JSON within the file comes back as it is (C116). Not modelled: nested groups, class and version, what is incomplete after an error.

- **Calls** (`Verif/Calls/`): files called by environments, as sequences of asking for the environment, defining, calling and failing; the global variable is part of the state.

- **Load** (`Verif/Load/`): which reader gets which data with which options in `xt.load`; the readers themselves are opaque.

- **Rename** (`Verif/Rename/`): `env.vars.rename` on names with numbers or expressions; the replacement in the text of expressions is a substitution in trees, the updating of values by xdeps is the evaluation of expressions when a value is asked for.

- **FromSeq** (`Verif/FromSeq/`): `Line.from_sequence` with `flatten_sequence` and `_next_name`; rational positions, sequences within others given by their flat lists, names looked up before; objects shared between drifts not modelled.

- **RelErr** (`Verif/RelErr/`): `env.set_multipolar_errors`; components are numbers, expressions made by the function, or other expressions; one error variable for each component.

- **VarLoad** (`Verif/VarLoad/`): `env.vars.update`, `load` (JSON), `load_json` and `_load_madx` with the setting for missing variables; expressions are texts with the names they use, the parsers are opaque.

- **RevElem** (`Verif/RevElem/`): `_reverse_element` and the loop over lines of `load_madx_lattice(reverse_lines=...)`; magnets with all multipoles, edges, solenoids and apertures; RF elements, rotations and expressions not modelled.

- **Cleanup/Optimize** (`Verif/Cleanup/Optimize.lean`): `optimize_for_tracking` as the composition of the steps of Cleanup; the replacement of slices, the apertures and the compilation not modelled.

- **Extend** (`Verif/Extend/`): `extend_knl_ksl` of environments and lines, with the dictionary of the element and its constructor; relative strengths and RF phases not modelled.


## Axioms of the theorems listed in MANIFEST.json

* no axioms: `Tracker.C18_stop_at_end_violated`, `Tracker.C19_wrap_violated`, `Tracker.C20_stop_zero_violated`, `Tracker.C20_stop_at_end_violated`, `Tracker.C20_start_at_element_violated`, `Pipeline.C23_registered_twice_violated`, `Monitors.C25_gap_violated`, `Pdg.C119_is_ion_violated`, `Saved.C138_copy_violated`, `Saved.C138_slicing_violated`, `BeamStats.C179_update_violated`, `Session.C187_context_violated`, `Session.C187_records_violated`, `Reread.C188_elements`, `VarLoad.C195_setting`, `VarLoad.C195_json_violated`, `VarLoad.C195_madx_violated`
* propext: `Particles.C04_add_violated_gap`, `Particles.C04_add_violated_hidden`, `Record.C17_counter_wraps`, `Tracker.C21_zero_elements_violated`, `Tracker.C21_monitor_violated`, `Tracker.C22_time_dependent_violated`, `Pipeline.C23_buffer_reused_violated`, `Pipeline.C23_two_ranks_violated`, `Monitors.C24_overlap_violated`, `Monitors.C24_mixed_turns_violated`, `Config.C54_backtrack_restores`, `Config.C54_backtrack_inside`, `Taylor.C102_names_violated`, `Tables.C114_meta_violated`, `Pdg.C119_table`, `Saved.C137_rotation`, `Saved.C137_sequences`, `Saved.C138_copy_partial`, `Saved.C138_shallow`, `Saved.C138_nested_violated`, `Mad.C142_precedence`, `Mad.Lines.C143_apertures_partial`, `Mad.Lines.C143_reflection_violated`, `Mad.Lines.C143_apertures_violated`, `LineAlg.C144_mul_zero`, `AperModel.Search.C150_line_violated`, `Session.C187_hidden_partial`, `Session.C187_hidden_violated`, `Session.C187_cpu`, `Reread.C188_functions_first`, `Reread.C188_functions_violated`, `Reread.C188_elements_read`, `Reread.C188_ancient`, `Hdf.C189_handle_violated`, `Calls.C190_definitions_violated`, `Calls.C190_afterwards_partial`, `Calls.C190_afterwards_violated`, `Rename.C192_taken_violated`, `Rename.C192_itself_violated`, `VarLoad.C195_setting_partial`
* propext, Classical.choice, Quot.sound: `Loss.C01_serial_tracking_refines_single_particle`, `Loss.C02_openmp_any_schedule_refines_single_particle`, `Loss.C02_openmp_agrees_with_serial`, `Loss.C02_count_violated_without_prefix`, `Loss.C51_lost_location`, `Loss.C51_independent_of_other_particles`, `Particles.C03_reorganize_partial`, `Particles.C03_reorganize_when_needed_partial`, `Particles.C04_add_particles_partial`, `Particles.C04_add_raises_iff`, `Particles.C04_history_partial`, `Particles.C05_merge`, `Particles.C05_filter`, `Particles.C05_filter_raises_iff`, `Particles.C06_sort_partial`, `Particles.C06_sort_by_id`, `Particles.C06_sort_violated`, `Particles.C07_visible_when_hidden`, `Particles.C07_hide_unhide_lossless`, `Energy.C08_operation_keeps_consistency`, `Energy.C08_sequences_partial`, `Energy.C08_relations`, `Energy.C08_reference`, `Energy.C08_constructor`, `Energy.C08_violated_by_p0c_assignment`, `Energy.C09_delta_ptau_inverse`, `Energy.C10_add_to_energy`, `Energy.C10_add_to_energy_additive`, `Energy.C11_reference_change`, `Energy.C11_reference_change_sequences`, `Energy.C11_round_trip`, `Energy.C12_python_agrees_with_c_partial`, `Energy.C12_p0c_violated`, `Energy.C13_rigidity_setter`, `Energy.C13_rigidity_constructor_partial`, `Energy.C13_rigidity_violated`, `Energy.C13_setter_negative_momentum`, `Energy.C14_exact_slopes`, `Energy.C14_exact_slopes_add_scale`, `Energy.C14_single_slope_violated`, `Rng.C15_seeded_stream`, `Rng.C15_streams_never_merge`, `Rng.C16_sampling_writes_partial`, `Rng.C52_sampling_terminates_partial`, `Record.C17_slots_exclusive`, `Record.C17_calls_return`, `Tracker.C18_elements_tracked_partial`, `Tracker.C19_reverse_order_partial`, `Tracker.C19_round_trip_partial`, `Tracker.C20_progress_general_partial`, `Tracker.C20_progress_partial`, `Tracker.C20_progress_collective_partial`, `Tracker.C21_parts`, `Tracker.C21_collective_tracking_partial`, `Tracker.C21_same_as_non_collective_partial`, `Tracker.C22_hold_resume_partial`, `Pipeline.C23_tags_distinct_partial`, `Pipeline.C23_delivery_partial`, `Pipeline.C53_multitracker_partial`, `Monitors.C24_cells_partial`, `Monitors.C24_in_bounds`, `Monitors.C25_last_turns_partial`, `Monitors.C26_multi_element`, `Monitors.C26_in_bounds`, `Monitors.Bpm.C27_position_size_partial`, `Monitors.Bpm.C27_exactly_once`, `Monitors.Bpm.C27_in_bounds`, `Monitors.Bpm.C27_profile`, `Monitors.Bpm.C27_profile_edges`, `Monitors.Bpm.C27_all_particles_violated`, `MultiSetter.C28_set_get`, `MultiSetter.C28_repeated_last_wins`, `Slicing.C30_thin`, `Slicing.C30_thick_partial`, `Slicing.C30_nonneg`, `Slicing.C30_custom_positions`, `Slicing.C30_custom_without_cuts_violated`, `Slicing.C31_lengths_partial`, `Slicing.C31_thin_weights`, `Slicing.C31_thick_weights`, `Slicing.C31_offsets_partial`, `Slicing.C31_last_matching`, `Slicing.C31_drifts_by_default`, `Slicing.C31_untouched`, `Slicing.C31_marker_overwrites_violated`, `Slicing.C31_marker_overwrites_happens`, `Slicing.C31_reslice_offset_violated`, `Slicing.C31_reslice_happens`, `Slicing.C32_cut_partial`, `Slicing.C32_cuts_inside`, `Slicing.C32_search_succeeds`, `Slicing.C32_beyond_end_violated`, `Slicing.C55_found`, `Slicing.C55_keyError`, `Slicing.C55_circular`, `Slicing.resolve_not_running`, `Composer.C33_positions`, `Composer.C33_resolves_iff`, `Composer.C33_unique`, `Composer.C33_order_success`, `Composer.C33_order_partial`, `Composer.C33_repeated_reference_violated`, `Composer.C34_line`, `Composer.C34_no_overlap`, `Composer.C34_validate`, `Composer.C34_raises_only`, `Composer.C34_names_with_length`, `Composer.C35_permutation`, `Composer.C35_sorted_partial`, `Composer.C35_before_after`, `Composer.C35_input_order`, `Composer.C35_upstream_downstream`, `Composer.C35_raises_only`, `Composer.C35_cycle_raises`, `Composer.C35_resolved_never_raises`, `Composer.C35_sorted_violated`, `Composer.C36_concatenation`, `Composer.C36_mirror`, `Composer.C36_nested`, `Composer.C36_by_name`, `Composer.C36_environment_kept`, `Composer.C36_placed_line`, `Lines.C37_neg`, `Lines.C37_mirror_twice`, `Lines.C37_mul`, `Lines.C37_add_partial`, `Lines.C37_sub_partial`, `Lines.C37_mirror_of_sum_partial`, `Lines.C37_independent`, `Lines.C37_wf`, `Lines.C37_stale_name_violated`, `Lines.C38_rotation`, `Lines.C38_start`, `Lines.C38_undo`, `Lines.C39_remove`, `Lines.C39_remove_shift_partial`, `Lines.C39_replace_partial`, `Lines.C39_negative_length_violated`, `Lines.C39_end_point_violated`, `Lines.C44_filter_partial`, `Lines.C44_drift_violated`, `Lines.C44_repeated_violated`, `Lines.C45_unique_names`, `Frames.C48_yrotation`, `Frames.C48_xrotation`, `Frames.C48_srotation`, `Frames.C48_rotation`, `Frames.C48_shifts`, `Frames.C48_conserved`, `Frames.C50_element`, `Frames.kin_of_consistent`, `Frames.C49_entry`, `Frames.C49_exit`, `Frames.C49_backtrack`, `Frames.C49_frames`, `Frames.C49_transparent`, `Frames.C49_drift`, `Frames.C49_none`, `Frames.C49_always`, `Frames.C49_thin_slice`, `Frames.C50_compose`, `Frames.C50_exact_flight`, `Frames.C50_slopes`, `Frames.C50_expanded_error`, `Frames.C50_polar_flight`, `Frames.C50_polar`, `Frames.C56_joint`, `Frames.C56_between`, `Frames.C56_slices`, `Frames.C56_thin`, `Apertures.C46_rect`, `Apertures.C46_longitudinal`, `Apertures.C46_ellipse`, `Apertures.C46_ellipse_new`, `Apertures.C46_rectellipse`, `Apertures.C46_racetrack`, `Apertures.C46_racetrack_square`, `Apertures.C46_field_violated`, `Apertures.C46_degenerate_violated`, `Apertures.C47_loop`, `Apertures.C47_polygon_partial`, `Apertures.C47_outside_disc`, `Apertures.C47_disc_kept`, `Apertures.C47_area`, `Apertures.C47_shortcut_violated`, `Apertures.C47_centroid_violated`, `Apertures.C57_found`, `Apertures.C57_point`, `Apertures.C57_first`, `Apertures.C57_z_violated`, `Cleanup.C43_survive_partial`, `Cleanup.C43_between_partial`, `Cleanup.C43_adjacent_partial`, `Cleanup.C43_complete_partial`, `Cleanup.C43_repeated_violated`, `Cleanup.C43_concave_violated`, `Cleanup.C43_negative_violated`, `Magnets.C58_kick`, `Magnets.C58_add`, `Magnets.C58_undo`, `Magnets.C58_superpose`, `Magnets.C58_low_orders`, `Magnets.C58_terms`, `Magnets.kickCoords_field`, `Magnets.C59_motion`, `Magnets.C59_compose`, `Magnets.C59_inverse`, `Magnets.C59_nested_inverse`, `Magnets.C59_nested_path`, `Magnets.C59_touched`, `Magnets.C59_expanded_violated`, `Magnets.C60_backtrack`, `Magnets.C60_forward`, `Magnets.C60_full_edge`, `Magnets.C60_straight`, `Magnets.C60_quadrupole`, `Magnets.steps_reverse`, `Magnets.drift_undo`, `Magnets.body_undo`, `Magnets.C61_weights`, `Magnets.C61_no_kicks`, `Magnets.C61_path`, `Magnets.C61_same_field`, `Magnets.C61_nested_kick`, `Magnets.C61_slices`, `Magnets.C61_hxl_slices_violated`, `Magnets.C61_hxl_auto_violated`, `Magnets.C62_bend`, `Magnets.C62_multipole`, `Magnets.C62_rbend`, `Magnets.C62_rbend_centred`, `Magnets.C63_bend`, `Magnets.C63_bend_order`, `Magnets.C63_bend_dict`, `Magnets.C63_bend_old`, `Magnets.C63_rbend`, `Magnets.C63_rbend_order`, `Magnets.C63_rbend_dict`, `Magnets.C63_rbend_reference`, `Magnets.C63_rbend_offsets`, `Magnets.C63_thin_rbend_violated`, `Cleanup.C41_markers`, `Cleanup.C41_zero_drifts`, `Cleanup.C41_inactive`, `Cleanup.C41_merge_drifts_partial`, `Cleanup.C41_merge_drifts_names`, `Cleanup.C41_merge_drifts_succeeds`, `Cleanup.C41_merge_multipoles_partial`, `Cleanup.C41_mixed_models_violated`, `Cleanup.C41_replica_violated`, `Cleanup.C41_half_merged_violated`, `Cleanup.C41_shifted_multipoles_violated`, `Cleanup.C41_second_line_violated`, `Cleanup.C42_other_partial`, `Cleanup.C42_history_partial`, `Cleanup.C42_other_violated`, `Cleanup.C42_cache_violated`, `Cleanup.C64_quadrupoles_partial`, `Cleanup.C64_bends_partial`, `Cleanup.C64_no_frame_violated`, `Cleanup.C64_chi_violated`, `Composer.C40_insert_partial`, `Composer.C40_raises_only`, `Composer.C40_tie_violated`, `Survey.C65_rows_partial`, `Survey.C65_unique`, `Survey.C65_replica_violated`, `Survey.C66_tracking`, `Survey.C67_rigid`, `Survey.C67_restart`, `Survey.C67_relative`, `Survey.C68_slices_partial`, `Survey.C68_angle_diff_violated`, `Survey.C69_reversed_line`, `Survey.C69_follows`, `Survey.C69_involution`, `Survey.C69_columns`, `Survey.C70_angles_partial`, `Survey.C70_start`, `Survey.C70_continuous`, `Edges.C71_motion`, `Edges.C71_compose`, `Edges.C71_inverse`, `Edges.C72_linear`, `Edges.C72_rbend`, `Edges.C72_full_horizontal`, `Edges.C72_full_vertical_partial`, `Edges.C72_gap_violated`, `Edges.C72_knl_violated`, `Edges.C73_history`, `Edges.C73_magnet`, `Symplectic.C74_drift_partial`, `Symplectic.C74_kick`, `Symplectic.C74_body_partial`, `Symplectic.C74_combined_violated`, `Symplectic.C75_edge`, `Symplectic.C75_magnet_partial`, `Symplectic.C75_elements`, `Symplectic.C76_placed`, `Symplectic.C76_elements`, `Rf.C77_gain`, `Rf.C77_backtrack`, `Rf.C77_symplectic_partial`, `Rf.C77_ok`, `Rf.C77_quadrupole_violated`, `Rf.C77_crab_violated`, `Symplectic.C78_line_partial`, `Symplectic.C78_turns_partial`, `Symplectic.C78_volume`, `SegMap.C79_segment_partial`, `SegMap.C79_line_partial`, `SegMap.C79_emittance_partial`, `SegMap.C79_orbit_partial`, `SegMap.C79_turns_partial`, `SegMap.C79_chroma_violated`, `SegMap.C79_set_tune_violated`, `SegMap.C79_second_order_violated`, `SegMap.C80_segment`, `SegMap.C80_line`, `SegMap.C80_turns`, `SegMap.C80_fixed_rf_partial`, `SegMap.C80_nonlinear`, `SegMap.C80_negative_charge_violated`, `SegMap.C81_segment_partial`, `SegMap.C81_line_partial`, `SegMap.C81_turns_partial`, `SegMap.C81_dispersion_violated`, `SegMap.C81_chroma_violated`, `SegMap.C81_detuning_violated`, `Thin.C82_thin_partial`, `Thin.C82_bend_violated`, `Thin.C82_elens_violated`, `Thin.C83_kick_partial`, `Thin.C83_twiss_partial`, `Thin.C83_ramp_violated`, `Thin.C83_lag_violated`, `Thin.C83_natural_violated`, `Thin.C84_exciter_partial`, `Thin.C84_early_violated`, `Thin.C85_wire_partial`, `Thin.C85_chi_violated`, `Thin.C86_backtrack_partial`, `Thin.C86_residual_violated`, `Thin.C87_potential`, `Thin.C87_quadrupole`, `Thin.C88_elens_partial`, `Thin.C88_charge_violated`, `Twiss.C89_R_matrix`, `Twiss.C89_compose`, `Twiss.C89_independent`, `Twiss.C90_restart`, `Twiss.C90_restart_phase`, `Twiss.C90_periodic`, `Twiss.C90_tune`, `Twiss.C91_transport_x`, `Twiss.C91_transport_y`, `Twiss.C91_initial`, `Twiss.C91_courant_snyder`, `Twiss.C91_gamma`, `Twiss.C91_full_inverse`, `Twiss.C92_dispersion`, `Twiss.C92_dispersion_init`, `Twiss.C92_mode`, `Twiss.C92_mode_zeta`, `Twiss.C92_periodic`, `Twiss.C92_ring`, `Twiss.C92_bets_violated`, `Twiss.C93_continuous`, `Twiss.C93_mod`, `Twiss.C94_normal_form`, `Twiss.C94_normal_form_4d`, `Twiss.C94_tunes`, `Twiss.C94_healy_symplectic`, `Twiss.C94_healy_id`, `Twiss.C94_half_integer_violated`, `Twiss.C94_healy_violated`, `Twiss.C95_init`, `Twiss.C95_init_reverse`, `Twiss.C95_functions`, `Twiss.C95_involution`, `Twiss.C95_phase`, `Twiss.C95_motion`, `Twiss.C95_R_matrix_partial`, `Twiss.C95_R_matrix_violated`, `Twiss.C95_chromatic_violated`, `Twiss.C96_inverse`, `Twiss.C96_rotation`, `Twiss.C96_action`, `Twiss.C96_covariance`, `Twiss.C97_affine`, `Twiss.C97_second_order`, `Twiss.C97_T_matrix_partial`, `Twiss.C97_limit`, `Twiss.C97_pzeta_violated`, `Twiss.C98_slip_6d`, `Twiss.C98_slip_4d`, `Twiss.C98_methods`, `Taylor.C99_orbit`, `Taylor.C99_exact`, `Taylor.C99_from_line_partial`, `Taylor.C99_track`, `Taylor.C99_wrap_violated`, `Taylor.C100_first_second`, `Taylor.C100_symplectic`, `Taylor.C101_reflect_partial`, `Taylor.C101_twice`, `Taylor.C101_scale_violated`, `Taylor.C102_cover`, `Taylor.C102_kept`, `Taylor.C102_length`, `Taylor.C102_track_partial`, `Ranges.C103_range_partial`, `Ranges.C103_full_periodic`, `Ranges.C103_error`, `Ranges.C103_end`, `Ranges.C103_end_violated`, `Ranges.C103_wrap_violated`, `Ranges.C103_last_violated`, `Ranges.C104_start_partial`, `Ranges.C104_open_partial`, `Ranges.C104_first_violated`, `Ranges.C104_muzeta_violated`, `Ranges.C104_phase_violated`, `Sync.C105_passages_partial`, `Sync.C105_windows`, `Sync.C105_particles`, `Sync.C105_prepare`, `Sync.C105_late_violated`, `Rdt.C106_field`, `Rdt.C106_truncate`, `Rdt.C106_neutral`, `Rdt.C106_track`, `Rdt.C107_kick`, `Rdt.C107_next`, `Rdt.C107_close`, `Rdt.C107_unique`, `Rdt.C107_motion`, `Rdt.C107_misaligned`, `Rdt.C107_roll_violated`, `Rdt.C107_freq`, `Spin.C108_rotation`, `Spin.C108_length`, `Spin.C109_precession_partial`, `Spin.C109_axis`, `Spin.C109_spin_tune`, `Spin.C109_unit_violated`, `Spin.C109_parallel_violated`, `Spin.C109_canonical_violated`, `Rad.C110_power`, `Rad.C110_loss`, `Rad.C110_kinetic`, `Rad.C110_field_partial`, `Rad.C110_field_violated`, `Rad.C110_all_energy_violated`, `Rad.C111_photons`, `Rad.C111_lost`, `Rad.C111_energy_partial`, `Rad.C111_last_photon_violated`, `Rad.C111_retry_violated`, `Rad.C112_count`, `Rad.C112_count_zero`, `Rad.C112_groups`, `Rad.C112_total`, `Rad.C112_emit`, `Rad.C112_index_log`, `Rad.C112_index_lin`, `Rad.C112_interpolate`, `Rad.C113_same_partial`, `Rad.C113_steps_violated`, `Tables.C114_csv`, `Tables.C114_dict_partial`, `Tables.C114_empty_violated`, `Tables.C115_csv_partial`, `Tables.C115_comment_violated`, `Tables.C115_blank_violated`, `Tables.C115_object_violated`, `Tables.C115_integer_violated`, `Tables.C116_json`, `Tables.C116_columns_partial`, `Tables.C116_complex_violated`, `Tables.C116_gz_violated`, `Tables.C117_header_partial`, `Tables.C117_complex_violated`, `Tables.C117_text_violated`, `Tables.C117_float_violated`, `Taper.C118_given`, `Taper.C118_compensate`, `Taper.C118_slope_partial`, `Taper.C118_below_transition_violated`, `Taper.C118_exception_violated`, `Taper.C118_no_loss_violated`, `Pdg.C119_names`, `Pdg.C119_ions`, `Pdg.C119_is_ion_partial`, `Pdg.C119_overflow_violated`, `EdwTeng.C120_turn`, `EdwTeng.C120_partial`, `EdwTeng.C120_tunes`, `EdwTeng.C120_equal_traces_violated`, `Chrom.C121_start`, `Chrom.C121_rows`, `Chrom.C121_chroma_partial`, `Chrom.C121_ddq_violated`, `Chrom.C121_reverse_violated`, `EdwTeng.C122_functions`, `EdwTeng.C122_same_partial`, `EdwTeng.C122_same_violated`, `EdwTeng.C122_rdt`, `EdwTeng.C122_propagate`, `EdwTeng.C122_moduli`, `Attr.C123_strengths`, `Attr.C123_totals`, `Attr.C123_replica`, `Attr.C123_slices`, `Attr.C123_sliced_thin`, `Attr.C123_length`, `Attr.C123_angle`, `Attr.C123_replica_violated`, `Attr.C123_order_violated`, `LossRef.C124_location`, `LossRef.C124_all_partial`, `LossRef.C124_others`, `LossRef.C124_skip_violated`, `LossRef.C124_twice_violated`, `Match.C125_values`, `Match.C125_left`, `Match.C125_matched_partial`, `Match.C125_new`, `Match.C125_again`, `Match.C125_superpose`, `Match.C125_fewer_violated`, `Match.C125_limits_violated`, `Match.C126_step`, `Match.C126_smooth_partial`, `Match.C126_derivative`, `Match.C126_zero_violated`, `Match.C126_luminosity`, `Lumi.C127_factor`, `Lumi.C127_partial`, `Lumi.C127_slow`, `Lumi.C127_slow_violated`, `Steer.C128_limits_partial`, `Steer.C128_quiet_violated`, `Steer.C128_again_violated`, `Steer.C128_ends_partial`, `Steer.C128_ends_violated`, `Steer.C128_rms_violated`, `Steer.C129_open`, `Steer.C129_closed`, `Steer.C130_best`, `Steer.C130_smallest`, `Steer.C130_exact`, `Steer.C130_all`, `Steer.C130_truncated`, `Steer.C130_largest`, `Steer.C130_micado_partial`, `Steer.C130_micado_violated`, `Polar.C131_positive_partial`, `Polar.C131_bound`, `Polar.C131_bound_reported`, `Polar.C131_rates`, `Polar.C131_charge_violated`, `Polar.C131_above_violated`, `Equil.C132_partition`, `Equil.C132_rates`, `Equil.C132_determinant`, `Equil.C132_curly`, `Equil.C132_power`, `Equil.C132_emittance`, `Equil.C132_loss_partial`, `Equil.C132_loss_violated`, `Equil.C133_covariance_partial`, `Equil.C133_emittance`, `Equil.C133_order_violated`, `Equil.C133_period_violated`, `Equil.C133_real_violated`, `Equil.C133_slopes_violated`, `Footprint.C134_every`, `Footprint.C134_polar`, `Footprint.C134_actions`, `Footprint.C134_strongest`, `Footprint.C134_orbit`, `Footprint.C134_exact_partial`, `Footprint.C134_half_violated`, `Footprint.C134_chunk_violated`, `Footprint.C135_horizontal`, `Footprint.C135_vertical_partial`, `Footprint.C135_vertical_violated`, `Footprint.C135_sign`, `Footprint.C135_adaptive`, `Footprint.C135_above`, `Footprint.C136_linear`, `Footprint.C136_error`, `Saved.C137_strengths`, `Saved.C137_strengths_exact`, `Saved.C137_slots`, `Saved.C137_slots_partial`, `Saved.C137_edge_partial`, `Saved.C137_magnet_edge_partial`, `Saved.C137_exciter_partial`, `Saved.C137_segment_partial`, `Saved.C137_slots_violated`, `Saved.C137_edge_violated`, `Saved.C137_magnet_edge_violated`, `Saved.C137_exciter_violated`, `Saved.C137_segment_violated`, `Saved.C138_composer_partial`, `Saved.C138_reload_partial`, `Saved.C138_order_violated`, `Saved.C139_same`, `Saved.C139_assign_partial`, `Saved.C139_twiss_default_violated`, `Saved.C139_metadata_violated`, `EProg.C140_turns`, `EProg.C140_samples`, `EProg.C140_constant`, `EProg.C140_follows_partial`, `EProg.C140_integer_violated`, `EProg.C140_copy_violated`, `EProg.C140_reload_violated`, `Mad.C142_partial`, `Mad.C142_case_violated`, `Mad.C142_sign_violated`, `LineAlg.C144_neg`, `LineAlg.C144_neg_neg`, `LineAlg.C144_add`, `LineAlg.C144_sub`, `LineAlg.C144_mul_partial`, `LineAlg.C144_mirror_violated`, `LineAlg.C144_length_violated`, `Mad.C145_partial`, `Mad.C145_renamed`, `Mad.C145_k0`, `Mad.C145_fint_partial`, `Mad.C145_zero_violated`, `Mad.C145_fint_violated`, `Mad.Round.C146_straight_partial`, `Mad.Round.C146_bend_partial`, `Mad.Round.C146_cavity`, `Mad.Round.C146_crab_partial`, `Mad.Round.C146_multipole_partial`, `Mad.Round.C146_slices_partial`, `Mad.Round.C146_places_partial`, `Mad.Round.C146_slices_violated`, `Mad.Round.C146_shift_violated`, `Mad.Round.C146_k0_violated`, `Mad.Round.C146_hgap_violated`, `Mad.Round.C146_crab_violated`, `Mad.Round.C146_hxl_violated`, `Mad.Round.C146_repeated_violated`, `Mad.Order.C148_partial`, `Mad.Order.C148_arrow_violated`, `AperModel.Search.C149_bounds_partial`, `AperModel.Search.C149_poses_partial`, `AperModel.Search.C149_violated`, `AperModel.Search.C149_poses_violated`, `AperModel.Search.C150_ring`, `AperModel.Search.C150_line_partial`, `AperModel.Search.C150_found`, `AperModel.Search.C151_ends_partial`, `AperModel.Search.C151_violated`, `AperModel.Intervals.C152_shortest`, `AperModel.Intervals.C152_split_partial`, `AperModel.Intervals.C152_line`, `AperModel.Intervals.C152_around`, `AperModel.Intervals.C152_both_sides`, `AperModel.Intervals.C152_whole_violated`, `AperModel.Intervals.C153_nearest`, `AperModel.Polygon.C154_interior`, `AperModel.Polygon.C154_exterior`, `AperModel.Polygon.C154_beam`, `AperModel.Polygon.C154_box`, `AperModel.Polygon.C154_shift`, `AperModel.Polygon.C154_subdivide`, `AperModel.Polygon.C154_boundary`, `AperModel.Beam.C155_shape`, `AperModel.Beam.C155_scale`, `AperModel.Beam.C155_sum_partial`, `AperModel.Beam.C155_shape_violated`, `AperModel.Beam.C155_sum_violated`, `AperModel.Beam.C156_radius`, `AperModel.Beam.C156_symmetric`, `AperModel.Beam.C156_symmetric'`, `AperModel.Beam.C156_secant_partial`, `AperModel.Beam.C157_bisect`, `AperModel.Beam.C157_ends`, `AperModel.Beam.C157_nothing`, `AperModel.Rays.C158_distance_partial`, `AperModel.Rays.C158_convex`, `AperModel.Rays.C158_recognised_partial`, `AperModel.Rays.C158_behind_violated`, `AperModel.Rays.C158_outside_violated`, `AperModel.Rays.C158_star_violated`, `AperModel.Rays.C159_extents`, `AperModel.Poses.C160_rigid`, `AperModel.Poses.C160_inverse`, `AperModel.Poses.C160_distance`, `AperModel.Poses.C160_read`, `AperModel.Poses.C160_write`, `AperModel.Poses.C160_flat_violated`, `AperModel.Poses.C161_rigid`, `AperModel.Poses.C161_together`, `AperModel.Poses.C161_pipe`, `AperModel.Poses.C161_interpolate`, `AperModel.Poses.C161_on_curve`, `AperModel.Poses.C161_weak_violated`, `AperModel.Segments.C162_line_on_plane`, `AperModel.Segments.C162_line_exact`, `AperModel.Segments.C162_line_crossing`, `AperModel.Segments.C162_arc`, `AperModel.Segments.C162_straight`, `AperModel.Segments.C163_line`, `AperModel.Segments.C163_arc`, `AperModel.Segments.C163_short_violated`, `AperModel.Curvilinear.C164_back`, `AperModel.Curvilinear.C164_forth`, `AperModel.Curvilinear.C164_across`, `AperModel.Curvilinear.C164_oblique_violated`, `AperModel.Bounds.C165_near`, `AperModel.Bounds.C165_between`, `AperModel.Bounds.C165_linear`, `AperModel.Bounds.C166_sort`, `AperModel.Bounds.C166_reorder`, `AperModel.Bounds.C166_together`, `AperModel.Bounds.C167_valid`, `AperModel.Shapes.C168_uniform`, `AperModel.Shapes.C168_boundary`, `AperModel.Shapes.C168_closed`, `AperModel.Shapes.C168_written`, `AperModel.Shapes.C168_length`, `AperModel.Shapes.C168_angle`, `AperModel.Shapes.C168_octagon_violated`, `AperModel.Limits.C169_limits_partial`, `AperModel.Limits.C169_tilt_violated`, `AperModel.Limits.C169_centre_violated`, `AperModel.Limits.C170_first`, `AperModel.Limits.C170_same_partial`, `AperModel.Limits.C170_shared_violated`, `AperModel.Limits.C171_madx_partial`, `AperModel.Limits.C171_octagon`, `AperModel.Limits.C171_octagon_violated`, `AperModel.Limits.C171_extra_violated`, `AperModel.Limits.C171_zero_violated`, `BeamStats.C172_slice`, `BeamStats.C172_slice_partial`, `BeamStats.C172_wide_violated`, `BeamStats.C172_bunch`, `BeamStats.C172_beam`, `BeamStats.C172_slots`, `BeamStats.C172_order`, `BeamStats.C172_inside`, `BeamStats.C173_coasting`, `BeamStats.C173_complete`, `BeamStats.C174_bunch_partial`, `BeamStats.C174_beam_partial`, `BeamStats.C174_bunches`, `BeamStats.C174_coasting`, `BeamStats.C175_coasting`, `BeamStats.C175_coasting_centre`, `BeamStats.C175_slice`, `BeamStats.C175_centre`, `BeamStats.C175_record`, `BeamStats.C176_mean`, `BeamStats.C176_cov`, `BeamStats.C176_sigma`, `BeamStats.C176_emittance`, `BeamStats.C176_empty`, `BeamStats.C176_invariant`, `BeamStats.C176_entry`, `BeamStats.C177_accepted`, `BeamStats.C178_bins`, `BeamStats.C178_edges`, `BeamStats.C178_sum`, `BeamStats.C179_increasing`, `BeamStats.C179_again`, `BeamStats.C179_appends`, `BeamStats.C179_complete_partial`, `BeamStats.C179_slices_violated`, `BeamStats.C179_torn_violated`, `ClosedOrbit.C180_closed_6d`, `ClosedOrbit.C180_closed_4d`, `ClosedOrbit.C180_zeta0_partial`, `ClosedOrbit.C180_zeta0_violated`, `ClosedOrbit.C180_guess`, `ClosedOrbit.C180_error`, `ClosedOrbit.C180_t_rev`, `ClosedOrbit.C180_t_rev_violated`, `ClosedOrbit.C181_elsewhere`, `ClosedOrbit.C181_exact`, `ClosedOrbit.C181_spin_partial`, `ClosedOrbit.C181_spin_violated`, `Boris.C182_backtrack`, `Boris.C183_ends`, `Boris.C183_mean`, `Boris.C184_drift_partial`, `Boris.C184_drift_violated`, `Boris.C184_bend_partial`, `Boris.C184_bend_violated`, `Boris.C184_stopped_violated`, `Boris.C185_maxwell`, `Boris.C185_element`, `Boris.C185_midplane`, `Boris.C185_ends`, `Cooler.C186_friction_partial`, `Cooler.C186_outside`, `Cooler.C186_equilibrium_partial`, `Cooler.C186_momentum_partial`, `Cooler.C186_record`, `Cooler.C186_species_violated`, `Cooler.C186_cold_violated`, `Cooler.C186_negative_violated`, `Session.C187_records_partial`, `Reread.C188_metadata_partial`, `Reread.C188_metadata_violated`, `Hdf.C189_group_partial`, `Hdf.C189_single_partial`, `Hdf.C189_others`, `Hdf.C189_path_replaces`, `Hdf.C189_default_violated`, `Hdf.C189_none_violated`, `Hdf.C189_attribute_violated`, `Load.C191_guess`, `Load.C191_sources_partial`, `Load.C191_compressed_partial`, `Load.C191_list`, `Load.C191_mixed`, `Load.C191_python_violated`, `Load.C191_capitals_violated`, `Load.C191_urls_violated`, `Load.C191_options_violated`, `FromSeq.C193_positions_partial`, `FromSeq.C193_each_partial`, `FromSeq.C193_accepts`, `FromSeq.C193_nodes`, `FromSeq.C193_names_partial`, `FromSeq.C193_reorder_partial`, `FromSeq.C193_drift_violated`, `FromSeq.C193_nested_violated`, `FromSeq.C193_reorder_violated`, `RelErr.C194_once_partial`, `RelErr.C194_accepts`, `RelErr.C194_others`, `RelErr.C194_again_violated`, `RelErr.C194_expression_violated`, `RevElem.C196_field`, `RevElem.C196_twice`, `RevElem.C196_line_partial`, `RevElem.C196_others`, `RevElem.C196_repeated_violated`, `RevElem.C196_aperture_partial`, `RevElem.C196_offset_violated`, `Cleanup.C197_tracking_partial`, `Cleanup.C197_ions_violated`, `Cleanup.C197_multipoles_violated`, `Extend.C198_order`, `Extend.C198_strengths_partial`, `Extend.C198_list_partial`, `Extend.C198_line_partial`, `Extend.C198_all_violated`, `Extend.C198_tiny_violated`
* propext, Quot.sound: `Loss.C02_schedules_exist`, `Loss.C51_survivor_location`, `Particles.C03_reorganize_violated`, `Particles.exists_argsort`, `Rng.C15_seed_collision`, `Rng.C16_samples_per_seed`, `Rng.C16_violated_out_of_bounds`, `Rng.C52_unseeded_hangs`, `Record.C17_final_count`, `Tracker.C18_skip_end_turn_actions`, `Tracker.C18_counters`, `Tracker.C18_at_element_during_tracking`, `Tracker.C18_monitor_size`, `Tracker.C20_monitor_size_partial`, `MultiSetter.C28_new_raises_iff`, `Config.C29_flags`, `Config.C29_independent`, `Config.C54_contexts_restore`, `Config.C54_twiss_restores`, `Config.C54_twiss_inside`, `Lines.C38_raises_iff`, `Tables.C116_twice_violated`, `Pdg.C119_anti_ion_violated`, `Saved.C137_plain`, `Saved.C137_twice_violated`, `Saved.C137_acdipole_violated`, `Saved.C138_env_partial`, `Saved.C138_version_violated`, `Proto.C141_partial`, `Proto.C141_refused`, `Proto.C141_override_violated`, `Proto.C141_force_violated`, `Mad.C142_names`, `Mad.C142_exp_violated`, `Mad.C142_round_violated`, `Mad.Lines.C143_partial`, `Mad.Lines.C143_bare`, `Mad.C145_multipole_partial`, `Mad.C145_multipole_violated`, `Mad.Order.C147_partial`, `Mad.Order.C147_type_violated`, `Mad.Order.C147_assign_violated`, `Mad.Order.C147_exception_violated`, `Mad.Order.C148_vars_partial`, `Mad.Order.C148_beam_partial`, `Mad.Order.C148_assign_violated`, `Mad.Order.C148_again_violated`, `Mad.Order.C148_beam_violated`, `AperModel.Search.C150_end_violated`, `BeamStats.C172_later`, `BeamStats.C177_stored`, `BeamStats.C179_consistent`, `Session.C187_context_partial`, `Reread.C188_table_first`, `Reread.C188_table_partial`, `Reread.C188_table_violated`, `Reread.C188_ancient_read`, `Calls.C190_definitions_partial`, `Rename.C192_values_partial`, `Rename.C192_later_partial`, `VarLoad.C195_loaded_partial`, `VarLoad.C195_order_partial`
