{"id": "C01", "title": "Losing particles never loses or corrupts particle records (serial CPU)", "statement": "While a line is tracked on the serial CPU context, whatever subset of particles is marked as lost at each element, the Particles object always holds exactly the same particle records it started with (only their slots are permuted); after each check the alive particles occupy the first slots, every slot after them up to the old active count is lost, the number of active and lost particles reported equals the true counts, and no lost particle is ever tracked again.", "quantifier": "all particle arrays, all numbers of active particles, all (possibly adaptive) sequences of per-element loss decisions of any length", "why_tests_cant": "A loss pattern is an arbitrary subset at every element; the swap-with-last loop has to be right for each of the 2^n patterns and for every history of patterns, tests only sample a few.", "anchors": ["xtrack/particles/local_particle_custom_api.h:check_is_active", "xtrack/particles/local_particle_custom_api.h:LocalParticle_exchange", "xtrack/headers/track.h:START_PER_PARTICLE_BLOCK"]}
{"id": "C02", "title": "OpenMP reorganisation is a correct partition of each chunk", "statement": "In multi-threaded tracking each thread's chunk of particles is reordered so that all alive particles come first and all others last, no record is lost or duplicated, slots outside the chunk are not touched, and the alive/lost counts written at the end are the true counts.", "quantifier": "all chunk boundaries, all chunk contents, all numbers of threads", "why_tests_cant": "The two-pointer loop has many boundary cases (empty chunk, all alive, all lost, meeting pointers) combined with every chunk size; data-dependent, not enumerable.", "anchors": ["xtrack/particles/local_particle_custom_api.h:check_is_active (OpenMP branch)", "xtrack/particles/local_particle_custom_api.h:count_reorganized_particles"]}
{"id": "C03", "title": "Particles.reorganize restores the slot layout without changing particles", "statement": "After Particles.reorganize() the slots are ordered alive, then lost, then unallocated, the reported numbers of active and lost particles are the true counts, and the particle records are a permutation of the previous ones keeping relative order inside each group.", "quantifier": "all state arrays (any mixture of alive, lost and unallocated slots)", "why_tests_cant": "Correctness depends on the whole state array; the shortcut test that skips the reorganisation is only wrong for particular layouts that a test author has to think of.", "anchors": ["xtrack/particles/particles.py:Particles.reorganize"]}
{"id": "C04", "title": "add_particles never overwrites an existing particle", "statement": "Adding particles to a Particles object keeps every particle already present (alive or lost) with its coordinates and id, adds each new particle exactly once as alive, gives each of them an id distinct from all others, or raises when there is not enough free space.", "quantifier": "all target layouts reachable through the API, all added sets, all capacities, all histories of additions and losses", "why_tests_cant": "Needs the layout invariant after an arbitrary history of merge, loss, filter and add operations.", "anchors": ["xtrack/particles/particles.py:Particles.add_particles", "xtrack/particles/particles.py:Particles.merge"]}
{"id": "C05", "title": "merge and filter conserve particles", "statement": "Particles.merge(list) contains exactly the particles of all the inputs, in order, and the ids in the result are unique within each input's shift so that no two particles of the result share an id when each input has unique ids; Particles.filter(mask) contains exactly the selected particles in order.", "quantifier": "all lists of Particles objects (any sizes, any layouts), all masks", "why_tests_cant": "Id-shifting must avoid collision for any number of inputs with arbitrary ids.", "anchors": ["xtrack/particles/particles.py:Particles.merge", "xtrack/particles/particles.py:Particles.filter"]}
{"id": "C06", "title": "Sorting keeps alive particles tracked", "statement": "Particles.sort(by=...) is a permutation of the particles in which, when lost particles are not interleaved, all alive particles come first in ascending order of the key and the counters remain valid, so that no alive particle is skipped and no lost one is tracked afterwards.", "quantifier": "all particle arrays and all sort keys", "why_tests_cant": "The key-shift trick used for lost particles is only wrong for particular key ranges.", "anchors": ["xtrack/particles/particles.py:Particles.sort"]}
{"id": "C07", "title": "Hiding and unhiding lost particles is lossless", "statement": "hide_lost_particles followed by unhide_lost_particles gives back the original object; while hidden, exactly the alive particles are visible.", "quantifier": "all reorganized particle arrays, all interleavings of repeated hide/unhide", "why_tests_cant": "State machine over capacities and counters for any sequence of calls.", "anchors": ["xtrack/particles/particles.py:Particles.hide_lost_particles", "xtrack/particles/particles.py:Particles.unhide_lost_particles"]}
{"id": "C08", "title": "Energy variables always describe one and the same particle momentum", "statement": "After any sequence of set-delta, set-ptau, set-pzeta, add-to-energy and reference-momentum updates, delta, ptau, pzeta, rpp and rvv of a particle are mutually consistent: rpp = 1/(1+delta), pzeta = ptau/beta0, (1+delta)^2 = ptau^2 + 2 ptau/beta0 + 1, and rvv is the velocity ratio of the particle with energy E0 + ptau p0c and momentum p0c (1+delta).", "quantifier": "all physical initial values and all finite sequences of energy operations", "why_tests_cant": "Continuous inputs and unbounded sequences of updates; a wrong dependent variable stays hidden until an element uses it.", "anchors": ["xtrack/particles/local_particle_custom_api.h:LocalParticle_update_ptau", "xtrack/particles/local_particle_custom_api.h:LocalParticle_update_delta", "xtrack/particles/local_particle_custom_api.h:LocalParticle_update_pzeta"]}
{"id": "C09", "title": "delta and ptau conversions are inverse to each other", "statement": "Setting delta and reading ptau, then setting that ptau, gives back the same delta, and vice versa, for every particle with positive total momentum.", "quantifier": "all beta0 in (0,1), all delta > -1, all ptau in the physical range", "why_tests_cant": "Real-valued identity over a continuum including the branch choice of the square roots.", "anchors": ["xtrack/particles/local_particle_custom_api.h:LocalParticle_update_ptau", "xtrack/particles/local_particle_custom_api.h:LocalParticle_update_delta", "xtrack/particles/particles.py:ptau2delta"]}
{"id": "C10", "title": "add_to_energy adds exactly the requested energy and keeps the direction", "statement": "Adding dE to a particle increases its total energy by exactly dE and, unless only the longitudinal momentum is to be changed, leaves its direction of flight (px/(1+delta), py/(1+delta)) unchanged; with the longitudinal-only option px and py are unchanged. Adding dE1 then dE2 equals adding dE1+dE2.", "quantifier": "all particles (any mass ratio, reference momentum), all real dE leaving the particle physical", "why_tests_cant": "Continuum of values and composition law.", "anchors": ["xtrack/particles/local_particle_custom_api.h:LocalParticle_add_to_energy"]}
{"id": "C11", "title": "Changing the reference momentum does not change the physical particle", "statement": "Updating p0c changes only the description: the physical momentum vector (p0c times px, py, 1+delta) and the arrival time zeta/beta0 of the particle are the same before and after; updating back restores all coordinates.", "quantifier": "all particles, all positive new reference momenta, all sequences of reference changes", "why_tests_cant": "Continuum and arbitrary sequences of ramps.", "anchors": ["xtrack/particles/local_particle_custom_api.h:LocalParticle_update_p0c", "xtrack/beam_elements/elements_src/referenceenergychange.h", "xtrack/beam_elements/elements_src/referenceenergyincrease.h"]}
{"id": "C12", "title": "Python and C energy updates agree", "statement": "Setting particles.delta, particles.ptau or p0c from Python gives the same dependent variables as the C functions used during tracking.", "quantifier": "all physical values", "why_tests_cant": "Two independent formula sets over a continuum.", "anchors": ["xtrack/particles/particles.py:Particles.update_delta", "xtrack/particles/particles.py:Particles.update_ptau", "xtrack/particles/particles.py:Particles.update_p0c_and_energy_deviations", "xtrack/particles/local_particle_custom_api.h"]}
{"id": "C13", "title": "Magnetic rigidity can be set and read back", "statement": "A rigidity given to the constructor or assigned to particles.rigidity0 is the rigidity read back, whatever the sign of the reference charge.", "quantifier": "all rigidities > 0 and all non-zero charges", "why_tests_cant": "Sign convention over all charges; usual tests use protons only.", "anchors": ["xtrack/particles/particles.py:Particles.rigidity0", "xtrack/particles/particles.py:Particles.__init__"]}
{"id": "C14", "title": "Exact angles can be set and read back", "statement": "Setting both exact slopes xp and yp of a particle and reading them gives the same values; the momenta obtained are physical (px^2+py^2 < (1+delta)^2).", "quantifier": "all real slopes and all delta > -1", "why_tests_cant": "Continuum; includes the inverse square-root relation between slopes and momenta.", "anchors": ["xtrack/particles/particles.py:gen_local_particle_api (exact_xp, exact_yp)"]}
{"id": "C15", "title": "A seeded random stream never degenerates", "statement": "For every 32-bit seed, the generator state after seeding and after any number of draws is never the forbidden all-zero state, each Tausworthe component stays in its valid range, the state keeps being recognised as valid, and every uniform sample lies in [0,1).", "quantifier": "all 2^32 seeds, all numbers of draws", "why_tests_cant": "State space of 2^128 and unbounded number of draws.", "anchors": ["xtrack/particles/rng_src/base_rng.h:rng_set", "xtrack/particles/rng_src/base_rng.h:rng_get_int32", "xtrack/random/random_src/uniform.h:RandomUniform_generate"]}
{"id": "C16", "title": "Random sampling kernels write every requested sample exactly once and inside the buffer", "statement": "generate(n_samples, particles) fills each particle's row with exactly n_samples_per_seed samples; all writes of all particles are to distinct positions inside the output buffer.", "quantifier": "all numbers of particles, all id assignments, all sample counts", "why_tests_cant": "Index arithmetic with the particle id; only wrong for unusual id sets.", "anchors": ["xtrack/random/random_src/uniform.h:RandomUniform_sample", "xtrack/random/random_generators.py:RandomUniform.generate"]}
{"id": "C17", "title": "Internal-record slots are exclusive under any thread interleaving", "statement": "When particles tracked in parallel record events in a shared record, no two events are ever given the same slot, every slot handed out lies inside the table, no event is dropped while a free slot remains, and after tracking the number of records equals min(number of events, capacity).", "quantifier": "all capacities representable in the 32-bit counter (capacity + threads < 2^32), all numbers of threads and events, all interleavings of the individual memory operations", "why_tests_cant": "Schedules cannot be enumerated by tests; overflow races occur only in particular interleavings.", "anchors": ["xtrack/internal_record.py:RecordIndex_get_slot"]}
{"id": "C18", "title": "Turn splitting tracks exactly the requested elements", "statement": "For any combination of ele_start, ele_stop, num_turns and num_elements accepted by line.track, the elements traversed are exactly the consecutive elements (cyclically) from the start to the stop point, at_turn is incremented once for each time the end of the line is crossed and at_element ends on the stop element.", "quantifier": "all line lengths, all start/stop elements, all turn and element counts", "why_tests_cant": "Combination of three segment lengths with boundary cases (start=stop, stop at end of line, zero turns).", "anchors": ["xtrack/tracker.py:Tracker._track_no_collective", "xtrack/tracker.py:track_line kernel"]}
{"id": "C19", "title": "Backtracking visits the same elements in reverse and undoes the turn counters", "statement": "Backtracking over a range of elements applies the elements in exactly the reverse order and restores at_turn, at_element and the path length to their values before forward tracking.", "quantifier": "all line lengths, ranges and turn counts", "why_tests_cant": "Counters cross the start of the line in combination with any range.", "anchors": ["xtrack/tracker.py:track_line kernel", "xtrack/particles/local_particle_custom_api.h:increment_at_turn_backtrack"]}
{"id": "C20", "title": "Progress display does not change the tracking result", "statement": "line.track(..., with_progress=b) gives the same result as without progress for every batch size b, including the final stop element and the turn-by-turn record.", "quantifier": "all numbers of turns, start/stop elements and batch sizes", "why_tests_cant": "Batch arithmetic with remainders and first/last batch special cases.", "anchors": ["xtrack/tracker.py:Tracker._track", "xtrack/progress_indicator.py"]}
{"id": "C21", "title": "Collective splitting does not change the order of elements", "statement": "A line with collective elements is split in parts whose concatenation is the original sequence: each collective element is alone, no non-collective part is empty, and tracking the parts one after the other visits the same elements, the same number of turns, and the same counters as tracking an equivalent non-collective line.", "quantifier": "all arrangements of collective elements, start/stop elements and turn counts", "why_tests_cant": "Arbitrary interleavings of collective and non-collective elements with partial turns.", "anchors": ["xtrack/tracker.py:Tracker._split_parts_for_collective_mode", "xtrack/tracker.py:Tracker._track_with_collective"]}
{"id": "C22", "title": "Holding and resuming equals uninterrupted tracking", "statement": "If collective elements put the tracking on hold any number of times and the session is resumed each time, every element is finally applied the same number of times and in the same order as in uninterrupted tracking.", "quantifier": "all hold patterns (which element, how often) and all turn counts", "why_tests_cant": "History-dependent; any number of holds at any element.", "anchors": ["xtrack/tracker.py:Tracker._track_with_collective", "xtrack/tracker.py:Tracker.resume", "xtrack/pipeline/multitracker.py"]}
{"id": "C23", "title": "Pipeline messages are delivered in order and never mixed up", "statement": "Messages sent from one particle object to another for a given element arrive in the order sent and are never taken by another (element, sender, receiver) pair: tags are distinct for distinct triples.", "quantifier": "all numbers of elements and particles registered, all interleavings of sends and receives", "why_tests_cant": "Tag arithmetic must be injective for every registration count; queue behaviour for every schedule.", "anchors": ["xtrack/pipeline/manager.py", "xtrack/pipeline/core.py"]}
{"id": "C24", "title": "ParticlesMonitor stores each particle-turn in its own cell", "statement": "For every particle id in the monitored range and every turn in the monitored window, the monitor stores the particle's coordinates in a cell that belongs only to that (repetition, turn, particle); nothing is written outside the buffer and cells of other turns or particles are not modified.", "quantifier": "all monitor windows, repetition settings, particle sets and histories of turns", "why_tests_cant": "Flattened index arithmetic with repetition period; collisions only appear for particular parameters.", "anchors": ["xtrack/monitors/particles_monitor.h", "xtrack/monitors/particles_monitor.py"]}
{"id": "C25", "title": "LastTurnsMonitor holds exactly the last n turns", "statement": "After any history of turns, the monitor's row for a particle contains the last n_last_turns recorded turns of that particle in chronological order (zero padded if fewer).", "quantifier": "all numbers of turns recorded (any wrap-arounds), all window lengths, all loss times", "why_tests_cant": "Rolling buffer with per-particle wrap-around over unbounded histories.", "anchors": ["xtrack/monitors/last_turns_monitor.h", "xtrack/monitors/last_turns_monitor.py"]}
{"id": "C26", "title": "Multi-element monitor cells are distinct and readable by turn, particle and element", "statement": "Each (turn, particle, observed element) inside the window is stored in its own cell and read back by the same indices; all other records are untouched.", "quantifier": "all window, particle and element counts, all recording orders", "why_tests_cant": "Three-dimensional flattened index arithmetic.", "anchors": ["xtrack/monitors/multi_element_monitor.h", "xtrack/monitors/multi_element_monitor.py"]}
{"id": "C27", "title": "Beam position and size monitors account for every particle exactly once", "statement": "Each alive particle inside the acquisition window contributes exactly once to the count and sums of the time slot that its arrival time falls in; the reported mean is the mean of these particles and no slot outside the buffer is touched.", "quantifier": "all particle sets, sampling frequencies, windows and turn numbers", "why_tests_cant": "Rounded slot index over a continuum of arrival times.", "anchors": ["xtrack/monitors/beam_position_monitor.h", "xtrack/monitors/beam_size_monitor.h", "xtrack/monitors/beam_profile_monitor.h"]}
{"id": "C28", "title": "MultiSetter writes and reads exactly the selected fields", "statement": "set_values writes each value to exactly the addressed field of its element and nothing else, in whatever order the threads run; get_values after set_values returns the written values; elements whose field has another type are skipped when that was asked for, and construction raises otherwise.", "quantifier": "all sets of distinct elements and all values", "why_tests_cant": "Aliasing of offsets over arbitrary selections.", "anchors": ["xtrack/multisetter/multisetter.py", "xtrack/multisetter/multisetter.h"]}
{"id": "C29", "title": "Track flags are independent", "statement": "Setting or clearing one track flag changes that flag only and a flag read back is the value last written, for every sequence of writes; the register seen by the C code has the same bits.", "quantifier": "all sequences of flag writes", "why_tests_cant": "Every combination and order of flags.", "anchors": ["xtrack/track_flags.py", "xtrack/tracker.py:track_line"]}
{"id": "C30", "title": "Slice weights conserve the element", "statement": "For every slicing scheme and order, the weights of the element slices sum to one, the weights of the drift slices sum to one and no drift weight is negative, so total length and integrated strength are conserved; entry/drift/element parts alternate properly.", "quantifier": "all schemes, all slicing orders, all custom cut positions", "why_tests_cant": "All orders n; custom positions are arbitrary.", "anchors": ["xtrack/slicing.py:Uniform", "xtrack/slicing.py:Teapot", "xtrack/slicing.py:Custom", "xtrack/slicing.py:ElementSlicingScheme"]}
{"id": "C31", "title": "Slicing a line conserves length and every element's s position", "statement": "Slicing in place keeps the total length and leaves every element that is not sliced at the same s; slices of an element cover exactly its interval in order; the last matching strategy decides.", "quantifier": "all lines, all strategies, all schemes", "why_tests_cant": "Arbitrary lines and overlapping strategies.", "anchors": ["xtrack/slicing.py:Slicer.slice_in_place", "xtrack/slicing.py:Slicer._scheme_for_element", "xtrack/slicing.py:Slicer._make_slices"]}
{"id": "C32", "title": "Cutting at given positions creates boundaries exactly there", "statement": "After cut_at_s every requested position strictly inside the line is within tolerance of an element boundary, the total length and all previously existing boundaries are preserved.", "quantifier": "all lines, all finite sets of cut positions (unsorted, repeated, out of range)", "why_tests_cant": "Two-iterator merge scan over arbitrary positions.", "anchors": ["xtrack/line.py:Line._elements_intersecting_s", "xtrack/line.py:Line.cut_at_s"]}
{"id": "C33", "title": "Position resolution honours every placement", "statement": "When a line is built from placements, each component ends up at the position its placement demands: absolute positions, positions relative to an anchor of another component, or directly after the previous component; resolution does not depend on the order in which components are defined relative to each other and either resolves everything or reports an error.", "quantifier": "all lists of placements with any dependency graph", "why_tests_cant": "Arbitrary dependency graphs including forward references and cycles.", "anchors": ["xtrack/composer/resolve_positions.py:_resolve_s_positions"]}
{"id": "C34", "title": "Composed lines place components where requested, separated by drifts", "statement": "The line built from resolved components contains every component exactly once in s order, gaps are filled with drifts of the gap length, overlaps beyond tolerance raise, and the s position of each component in the line is the requested one within tolerance times the number of components; a requested total length is respected.", "quantifier": "all component tables, tolerances, lengths", "why_tests_cant": "Gap filling with tolerance accumulates over arbitrary sequences.", "anchors": ["xtrack/composer/composer.py:_generate_element_names_with_drifts", "xtrack/composer/composer.py:Composer.build", "xtrack/environment.py:Environment._get_drift"]}
{"id": "C35", "title": "Ordering at equal s respects the before/after constraints", "statement": "Sorting places never drops or duplicates a component; components are ordered by s; inside a group at the same s, a component placed relative to the start of another precedes it, one placed relative to its end follows it, and unconstrained components keep their input order; a contradictory set raises instead of looping.", "quantifier": "all groups and all constraint sets", "why_tests_cant": "Arbitrary constraint graphs.", "anchors": ["xtrack/composer/ordering.py:_sort_places", "xtrack/composer/ordering.py:_order_elements_at_same_s"]}
{"id": "C36", "title": "Nested lines are flattened without losing components", "statement": "Building a line from nested lists, lines and composers gives the concatenation of their element names in order, with mirrored sub-lines reversed and the whole block shifted when a sub-line is placed at a position.", "quantifier": "all nesting depths and shapes", "why_tests_cant": "Recursive structure of unbounded depth.", "anchors": ["xtrack/composer/composer.py:_flatten_components", "xtrack/composer/composer.py:_all_places", "xtrack/line.py:Line.__add__", "xtrack/line.py:Line.__rmul__", "xtrack/line.py:Line.__neg__"]}
{"id": "C37", "title": "Line algebra laws", "statement": "Mirroring twice gives the original line, the mirror of a sum is the sum of the mirrors in opposite order, n times a line has n times its length and elements, subtraction is addition of the mirror, and none of these operations modifies its operands.", "quantifier": "all lines and multiplicities", "why_tests_cant": "Algebraic laws over all lines and nested expressions.", "anchors": ["xtrack/line.py:Line.mirror", "xtrack/line.py:Line.__neg__", "xtrack/line.py:Line.__add__", "xtrack/line.py:Line.__sub__", "xtrack/line.py:Line.__rmul__"]}
{"id": "C38", "title": "Cycling a line is a rotation", "statement": "line.cycle keeps all elements in the same cyclic order and the same total length, starts at the requested element, cycling by every index can be undone by another cycle, and a missing or repeated name raises without changing the line.", "quantifier": "all lines, all indices (including negative and out of range) and names", "why_tests_cant": "Slice arithmetic for all indices.", "anchors": ["xtrack/line.py:Line.cycle"]}
{"id": "C39", "title": "Removing or replacing elements keeps all other elements in place", "statement": "line.remove replaces thick occurrences by drifts of the same length and drops thin ones, line.replace refuses a length mismatch before changing anything: in both cases every other element keeps its s position and order.", "quantifier": "all lines, all names (including repeated elements)", "why_tests_cant": "Index bookkeeping with repeated names and mixed thin/thick matches.", "anchors": ["xtrack/line.py:Line.remove", "xtrack/line.py:Line.replace", "xtrack/line.py:Line._name_match"]}
{"id": "C40", "title": "Inserting elements conserves the line length", "statement": "line.insert puts each inserted element at the requested s, removes exactly the material that the inserted elements cover, keeps all other elements at their s position, and conserves the total length when the insertion lies within the line.", "quantifier": "all lines, all sets of non-overlapping insertions", "why_tests_cant": "Tolerance comparisons against arbitrary boundaries.", "anchors": ["xtrack/line.py:Line.insert"]}
{"id": "C41", "title": "Clean-up operations do not change the tracked physics", "statement": "remove_markers, remove_inactive_multipoles, remove_zero_length_drifts, merge_consecutive_drifts and merge_consecutive_multipoles keep the composed map of the line: markers and zero elements act as identity, merged drifts and thin multipoles add up; kept elements are never removed.", "quantifier": "all lines and keep lists", "why_tests_cant": "Arbitrary element sequences; merging folds over unbounded runs.", "anchors": ["xtrack/line.py:Line.remove_markers", "xtrack/line.py:Line.remove_inactive_multipoles", "xtrack/line.py:Line.remove_zero_length_drifts", "xtrack/line.py:Line.merge_consecutive_drifts", "xtrack/line.py:Line.merge_consecutive_multipoles"]}
{"id": "C42", "title": "Editing one line does not change another line of the same environment", "statement": "merge_consecutive_drifts on a line leaves the length and elements of all other lines in the environment unchanged, and drifts created later for gaps have the requested length.", "quantifier": "all environments with several lines sharing elements and all histories of line creations and clean-ups", "why_tests_cant": "Aliasing through the shared element dictionary and the drift cache depends on history.", "anchors": ["xtrack/line.py:Line.merge_consecutive_drifts", "xtrack/environment.py:Environment._get_drift"]}
{"id": "C43", "title": "Removing redundant apertures never changes which particles survive", "statement": "remove_redundant_apertures only removes an aperture that lies, with only drifts and markers in between, between two equal apertures that are kept; in particular every active element keeps the apertures adjacent to it.", "quantifier": "all lines with any arrangement of apertures, drifts, markers and active elements", "why_tests_cant": "Three-register scan over arbitrary sequences with repeated names.", "anchors": ["xtrack/line.py:Line.remove_redundant_apertures", "xtrack/line.py:_apertures_equal"]}
{"id": "C44", "title": "filter_elements keeps the line length", "statement": "line.filter_elements replaces the excluded elements with drifts such that all remaining elements keep their s position.", "quantifier": "all lines and masks", "why_tests_cant": "Depends on element type and repetition.", "anchors": ["xtrack/line.py:Line.filter_elements"]}
{"id": "C45", "title": "Unique names after replacing repeated elements", "statement": "replace_all_repeated_elements makes all names in the line distinct (except generated drifts if they are excluded), each new element is a copy of the one it replaces, and no existing element of the environment is overwritten.", "quantifier": "all lines and environments", "why_tests_cant": "Name generation must avoid arbitrary existing names.", "anchors": ["xtrack/line.py:Line.replace_all_repeated_elements", "xtrack/environment.py:Environment._get_a_drift_name", "xtrack/line.py:_next_name"]}
{"id": "C46", "title": "Apertures kill exactly the particles outside their shape", "statement": "LimitRect, LimitEllipse, LimitRectEllipse, LimitRacetrack and LongitudinalLimitRect mark a particle as lost if and only if its position is outside the geometric shape given by the parameters (rectangle, ellipse, intersection, rounded rectangle, window), after any sequence of changes of the half-axes; nothing else of the particle is changed.", "quantifier": "all parameters accepted by the constructor, all particle positions, all sequences of half-axis changes", "why_tests_cant": "Continuum of positions, boundary cases and cached squared parameters.", "anchors": ["xtrack/beam_elements/elements_src/limitrect.h", "xtrack/beam_elements/elements_src/limitellipse.h", "xtrack/beam_elements/elements_src/limitrectellipse.h", "xtrack/beam_elements/elements_src/limitracetrack.h", "xtrack/beam_elements/limit_ellipse.py", "xtrack/beam_elements/limit_racetrack.py"]}
{"id": "C47", "title": "Polygon aperture equals point-in-polygon on every context", "statement": "LimitPolygon keeps exactly the particles inside the polygon; the CPU shortcut using an inscribed circle around the origin never changes the verdict.", "quantifier": "all polygons and all particle positions", "why_tests_cant": "Continuum of positions and polygons; the shortcut is only wrong for particular polygons.", "anchors": ["xtrack/beam_elements/elements_src/limitpolygon.h:LimitPolygon_track_local_particle"]}
{"id": "C48", "title": "Frame rotations and shifts are exactly undone", "statement": "A rotation about x, y or s followed by the opposite rotation, a transverse shift followed by the opposite shift and an exact drift followed by the exact drift of opposite length return the particle to its initial coordinates, and rotations preserve the magnitude of momentum.", "quantifier": "all particles with real longitudinal momentum and all angles for which the particle still crosses the rotated plane", "why_tests_cant": "Non-linear identities over a continuum.", "anchors": ["xtrack/beam_elements/elements_src/track_xrotation.h", "xtrack/beam_elements/elements_src/track_yrotation.h", "xtrack/beam_elements/elements_src/track_srotation.h", "xtrack/beam_elements/elements_src/track_drift.h", "xtrack/beam_elements/elements_src/track_xyshift.h"]}
{"id": "C49", "title": "Misalignment entry and exit cancel", "statement": "For an element with transverse shifts and roll, entering the misaligned frame and then backtracking the entry transformation returns the particle unchanged; for a straight element made transparent (zero length) entry followed by exit is the identity.", "quantifier": "all misalignment parameters and particles", "why_tests_cant": "Six-parameter continuum.", "anchors": ["xtrack/beam_elements/elements_src/track_misalignments.h", "xtrack/headers/track_local_particle_with_transformations.h"]}
{"id": "C50", "title": "Drift composition", "statement": "Tracking through a drift of length L1 and then L2 equals a drift of length L1+L2, backtracking a drift undoes it, for both the expanded and the exact model; the energy variables do not change.", "quantifier": "all particles and all real lengths", "why_tests_cant": "Continuum.", "anchors": ["xtrack/beam_elements/elements_src/track_drift.h"]}
{"id": "C51", "title": "Where and when a particle is lost, independently of the others", "statement": "After tracking, at_element and at_turn of a lost particle identify the element of the line at which it was lost and the turn in which this happened, and the result for each particle is the one obtained by tracking it alone: it depends neither on which other particles are tracked with it nor on the number of threads.", "quantifier": "all lines, all bunches, all loss patterns, all numbers of turns and threads", "why_tests_cant": "The number of loss patterns and companions is unbounded; a test fixes one bunch.", "anchors": ["xtrack/tracker.py: Tracker._build_kernel (track_line)", "xtrack/particles/local_particle_custom_api.h: check_is_active, increment_at_element, increment_at_turn"]}
{"id": "C52", "title": "Drawing exponential and normal samples always terminates", "statement": "Generating an exponential or normal sample for a particle returns after finitely many uniform draws, whatever seed the particle has and however many samples were drawn before; for a particle without seeds the call returns after marking the particle with the error state.", "quantifier": "all seeds, all numbers of previous draws, seeded and unseeded particles", "why_tests_cant": "The rejection loop is unbounded and the generator has 2^128 states; no test shows that none of them leads to an endless run of zeros.", "anchors": ["xtrack/random/random_src/exponential.h:RandomExponential_generate", "xtrack/random/random_src/normal.h:RandomNormal_generate", "xtrack/random/random_src/uniform.h:RandomUniform_generate"]}
{"id": "C53", "title": "The multi-tracker completes every branch", "statement": "PipelineMultiTracker.track ends with every branch tracked to its last turn, however often and in whatever order the collective elements of the branches put the tracking on hold (finitely often); each branch has applied the same elements in the same order as if it had been tracked alone without holds.", "quantifier": "all numbers of branches, all lines and track arguments, all finite hold patterns of all branches", "why_tests_cant": "The interleavings of holds and resumes of several branches are unbounded; a test runs one of them.", "anchors": ["xtrack/pipeline/multitracker.py:PipelineMultiTracker.track", "xtrack/tracker.py:Tracker.resume", "xtrack/tracker.py:Tracker._track_with_collective"]}
{"id": "C54", "title": "Temporary settings are temporary", "statement": "Track flags and line configuration changed by twiss, by backtracking or by the freezing contexts are restored when these end, normally or by an exception at any point, at any nesting; while they run, exactly the requested flags and settings are in force in addition to those of the user.", "quantifier": "all programs built from these contexts, all nestings, all points at which an exception is raised, all prior settings", "why_tests_cant": "Nesting and exception points are unbounded.", "anchors": ["xtrack/line.py:_preserve_config", "xtrack/line.py:_preserve_track_flags", "xtrack/line.py:freeze_longitudinal", "xtrack/twiss/twiss.py:_apply_twiss_line_context", "xtrack/tracker.py:TrackerConfig"]}
{"id": "C55", "title": "Resolving a replica always ends with the right element or an error", "statement": "Resolving a replica (through any number of replicas of replicas) returns the element at the end of the chain; it raises KeyError exactly if the chain leaves the environment and RecursionError exactly if the chain is circular; it never loops.", "quantifier": "all environments, all chains of replicas including missing parents and loops", "why_tests_cant": "Chains of arbitrary length and loops entered at any point.", "anchors": ["xtrack/base_element.py:Replica.resolve"]}
{"id": "C56", "title": "Slicing does not change what a misalignment does", "statement": "Tracking through the thick slices (with edges) of a misaligned element equals tracking through the misaligned element with the bodies of the slices one after the other: the frame changes between slices cancel, the misalignment acts as one rigid motion of the whole element. The same for the kicks and exact drifts of a thinly sliced straight element.", "quantifier": "all straight and bent elements, all shifts, rotations, tilts and anchors, all numbers and weights of slices, all bodies, all particles which cross the planes of the frames forward", "why_tests_cant": "Six misalignment parameters, arbitrary slicings and particles; cancellation must be exact at every joint.", "anchors": ["xtrack/headers/track_local_particle_with_transformations.h", "xtrack/beam_elements/elements_src/track_misalignments.h", "xtrack/slicing.py:Slicer._make_slices"]}
{"id": "C57", "title": "Impact points on polygons exist, lie on the first wall crossed, and carry its normal", "statement": "LimitPolygon.impact_point_and_normal, called with one point inside and one outside of the polygon, always finds an impact: the returned transverse position lies on the straight line between the two points and on the wall which is crossed first, the returned normal has length one and is orthogonal to that wall, and the returned longitudinal position is interpolated in the same way.", "quantifier": "all polygons accepted by the constructor (not convex, self-crossing, clockwise or not), all pairs of points off the boundary on different sides", "why_tests_cant": "Continuum of polygons and segments, including paths which run along a wall or through a vertex.", "anchors": ["xtrack/beam_elements/elements_src/limitpolygon.h:LimitPolygon_impact_point_and_normal", "xtrack/beam_elements/limit_polygon.py:LimitPolygon.__init__", "xtrack/beam_elements/limit_polygon.py:impact_point_and_normal"]}
{"id": "C58", "title": "The kick of a magnet is the field of its multipoles", "statement": "A particle at (x, y) receives from the multipoles of a magnet the momenta -chi Re B and chi Im B, where B is the sum over all orders of (kn + i ks)(x + i y)^n/n!, taken over the arrays knl, ksl, the relative arrays and the main components k0...k3, k0s...k3s; plus, in a curved frame, the weak-focusing terms of the dipole and quadrupole and the rotation of the frame. Kicks of the same magnet add up and are undone by the opposite weight; positions, energy and path length are not touched.", "quantifier": "all strengths, orders (of both arrays, also different), positions, curvatures and weights", "why_tests_cant": "The loop runs over an arbitrary order with a running factorial; a test fixes strengths and a few orders and can not distinguish a wrong factor at an untested order or a missing cross term", "anchors": ["xtrack/beam_elements/elements_src/track_magnet_kick.h: kick_simple_single_coordinates, track_magnet_kick_single_particle"]}
{"id": "C59", "title": "Inside a magnet the particle follows the equations of motion", "statement": "For every drift model of a magnet body (expanded drift, exact drift, polar drift, expanded combined-function magnet, exact bend in a curved or straight frame, solenoid) the coordinates as functions of the length solve Hamilton's equations of the field which the model stands for, including the arrival time. Hence tracking through two pieces of a magnet body is tracking through the whole, and a negative length undoes it (also for the nested integrators of the exact bend). No model touches energy, charge, spin or reference quantities, and s advances by the length.", "quantifier": "all models, strengths, curvatures, lengths and particles which are not turned around", "why_tests_cant": "The maps are closed formulas with case distinctions on the sign of focusing strengths; a test compares one or two particles with a reference, agreement for all strengths and the exact composition law can not be sampled", "anchors": ["xtrack/beam_elements/elements_src/track_magnet_drift.h: track_magnet_drift_single_particle and all functions called by it"]}
{"id": "C60", "title": "Backtracking a magnet undoes tracking it", "statement": "Tracking a particle forward through any magnet element or thick slice (bend, rectangular bend, quadrupole, sextupole, octupole, multipole, solenoid with multipoles) and then backwards through it restores every coordinate, for every drift-kick model, integrator, number of kicks and multipole content; an edge whose model cannot be inverted loses the particle rather than tracking it wrongly.", "quantifier": "all magnet parameters, models, integrators, numbers of kicks, slice weights, directions, and all particles which are not turned around inside", "why_tests_cant": "A test compares some elements at some amplitudes to a tolerance; a wrong sign in one term of one model is invisible for the settings not tried.", "anchors": ["xtrack/beam_elements/elements_src/track_magnet.template.h", "xtrack/beam_elements/elements_src/track_magnet_configure.h", "xtrack/beam_elements/elements_src/track_magnet_edge.h"]}
{"id": "C61", "title": "All models of a magnet integrate the same field, whatever the slicing", "statement": "For every model the drift parts and the kicks of a magnet together are the equations of motion in the field that the user specified (main strengths, knl, ksl, relative multipoles, curvature); the steps of every integrator add up to the whole length and the whole strength for every number of kicks; s advances by exactly the length; the slices of a magnet together carry its strength once.", "quantifier": "all magnets, models, integrators, numbers of kicks, slice weights and particles", "why_tests_cant": "Tests compare a few models with each other for some strengths; a term that is dropped or counted twice in a combination of model, curvature and multipole is seen only if that combination is tried.", "anchors": ["xtrack/beam_elements/elements_src/track_magnet.template.h", "xtrack/beam_elements/elements_src/track_magnet_configure.h", "xtrack/beam_elements/elements_src/track_magnet_kick.h", "xtrack/beam_elements/elements_src/_include_integrator.py"]}
{"id": "C62", "title": "The reference particle follows the reference trajectory through bends", "statement": "A particle on the reference trajectory with reference momentum leaves every bend, rectangular bend and thin bending multipole whose dipole strength matches its curvature exactly on the reference trajectory, after the nominal length and with no change of arrival time.", "quantifier": "all bends: angles, lengths, multipole contents without dipole, edge angles, models, numbers of kicks, slices, directions", "why_tests_cant": "Tests use a few bends and a tolerance; the bookkeeping of the rotations, shifts and path length of rectangular bends has many cases.", "anchors": ["xtrack/beam_elements/elements_src/track_magnet.template.h", "xtrack/beam_elements/elements_src/track_magnet_drift.h", "xtrack/beam_elements/rbend.py"]}
{"id": "C63", "title": "Angle, length, curvature and k0 of bends agree after any history of assignments", "statement": "Whatever the order in which angle, length (or length_straight, rbend_angle_diff), k0 and k0_from_h of a Bend or RBend are assigned, the curvature is that of an arc with the last angle and length, k0 is read back as assigned and the strength used in tracking is the curvature or the number assigned last; saving and loading gives the same element.", "quantifier": "all finite histories of assignments to Bend and RBend, and construction from dictionaries", "why_tests_cant": "The state depends on the whole history; tests try a few orders.", "anchors": ["xtrack/beam_elements/_common.py:_BendCommon", "xtrack/beam_elements/bend.py:Bend", "xtrack/beam_elements/rbend.py:RBend"]}
{"id": "C64", "title": "Replacing multipoles by simple bends and quadrupoles keeps the physics", "statement": "use_simple_quadrupoles and use_simple_bends leave the tracking of every line of the environment unchanged for every particle.", "quantifier": "all environments, lines and particles", "why_tests_cant": "The replacement applies to every element in the environment and to every particle species; tests sample proton beams and unrotated elements.", "anchors": ["xtrack/line.py:Line.use_simple_quadrupoles", "xtrack/line.py:Line.use_simple_bends", "xtrack/beam_elements/elements_src/simplethinbend.h", "xtrack/beam_elements/elements_src/simplethinquadrupole.h"]}
{"id": "C65", "title": "The survey follows the reference path", "statement": "line.survey returns one row per element and one more; the row of the starting element is the given position and orientation; the axes of every row are orthonormal; from each row to the next the frame is carried along the reference path of the element in between: along an arc of its length, with its angle, in the plane given by its tilt, or moved by the translation, rotation or slice edge that stands there.", "quantifier": "all lines of elements, slices and replicas, all starting elements, positions and orientations", "why_tests_cant": "Lines are arbitrary sequences; tests use a few lattices, mostly flat", "anchors": ["xtrack/survey.py: get_survey, advance_element, survey_from_line", "xtrack/beam_elements/slice_elements_thick.py:_propagate_survey", "xtrack/beam_elements/slice_elements_drift.py:_propagate_survey", "xtrack/beam_elements/slice_elements_edge.py:_propagate_survey", "xtrack/beam_elements/rotation.py:_propagate_survey", "xtrack/beam_elements/x_rotation.py:_propagate_survey", "xtrack/beam_elements/y_rotation.py:_propagate_survey", "xtrack/beam_elements/s_rotation.py:_propagate_survey", "xtrack/beam_elements/translation.py:_propagate_survey"]}
{"id": "C66", "title": "Survey and tracking agree", "statement": "A particle that flies freely through a line whose fields are off moves, in the laboratory given by the survey rows, on one straight line with constant direction: its local coordinates before and after the line, placed in the frames of the first and last row, belong to the same straight flight, whatever translations, rotations, misaligned or curved (switched-off) elements stand in between.", "quantifier": "all lines of such elements, all particles that cross the intermediate planes, all starting poses", "why_tests_cant": "Relates two separate pieces of code (C kernels and python survey) for arbitrary lines", "anchors": ["xtrack/survey.py: get_survey", "xtrack/beam_elements/elements_src: rotation.h, xyshift.h, track_misalignments.h"]}
{"id": "C67", "title": "The choice of the starting point does not matter", "statement": "Two surveys of the same line from any two elements, positions and orientations differ by one rigid motion of space, so what one element looks like from another is the same in both; a survey restarted from a row of a survey, at the element of that row, gives the same table.", "quantifier": "all lines, pairs of starting elements and poses", "why_tests_cant": "Quantifies over pairs of starting points", "anchors": ["xtrack/survey.py: get_survey (element0), survey_relative_transform"]}
{"id": "C68", "title": "Slicing does not move the machine in the survey", "statement": "When an element is replaced by its slices (thick slices with total weight one; thin slices and drifts as well when the element does not bend or is a rectangular bend with straight body) all rows of the survey before and behind the slices stay as they are.", "quantifier": "all lines, elements, slice weights, starting elements before the slices", "why_tests_cant": "Tests compare a few slicings of a few magnets within a tolerance", "anchors": ["xtrack/survey.py: get_survey", "xtrack/beam_elements/slice_elements_thick.py:_propagate_survey", "xtrack/beam_elements/slice_elements_drift.py:_propagate_survey", "xtrack/beam_elements/slice_elements_edge.py:_propagate_survey", "xtrack/beam_elements/rbend.py: _x0_in, _x0_out"]}
{"id": "C69", "title": "The reversed survey is the survey of the reversed line", "statement": "SurveyTable.reverse gives the table which a survey of the line in reverse order, with every element seen from the other side, would give starting from the reversed last row; reversing twice gives the table back; positions, names and properties are those of the reversed order.", "quantifier": "all lines and starting points", "why_tests_cant": "Ranges over all lines; the tests reverse two lattices", "anchors": ["xtrack/survey.py: SurveyTable.reverse"]}
{"id": "C70", "title": "The angles in the survey describe the orientation", "statement": "theta, phi and psi of a row, given as theta0, phi0, psi0 with the position of the row to a new survey from the element of the row, reproduce the whole table; the row of the starting element has the given angles up to full turns; from row to row no angle jumps by more than half a turn.", "quantifier": "all lines and rows (except rows whose vertical axis is horizontal)", "why_tests_cant": "Multi-valued functions and unwrapping over arbitrary long tables", "anchors": ["xtrack/survey.py: get_angles_from_w, get_E_from_angles, _get_survey_quantities_from_v_w"]}
{"id": "C71", "title": "A wedge is exact motion in a uniform field", "statement": "Tracking through a dipole wedge (the element Wedge with k1 = 0, or the wedge inside a full edge) moves the particle as the Lorentz force of a uniform vertical field does from the present plane to the plane turned by the wedge angle, for every momentum, charge and offset for which the particle reaches that plane; zeta changes by the flight time. Without field it is a change of frame. Two wedges in a row are one wedge of the summed angle, and the opposite angle undoes a wedge.", "quantifier": "all wedge angles, strengths (zero or above the threshold), particles that cross the turned plane forward", "why_tests_cant": "The map is a rewritten closed formula (to avoid cancellation); tests compare a handful of particles with other codes at finite precision and cannot show that it solves the equations of motion or composes exactly", "anchors": ["xtrack/beam_elements/elements_src/track_wedge.h: Wedge_single_particle", "xtrack/beam_elements/elements_src/wedge.h"]}
{"id": "C72", "title": "Linear and full dipole edges describe the same face", "statement": "A linear edge kicks px by chi k tan(e) x and py by -chi k tan(e_v - gap correction) y, k being the total dipole field however it is given; without gap this is the field of a quadrupole in vacuum; backtracking takes the kick back. A rectangular bend with curved body is the sector bend with the faces turned further by half of the angle minus/plus half of rbend_angle_diff at entry/exit. To first order the full edge gives the same deflection as the linear edge in both planes, and it does not matter whether the dipole field is given by k0 or by knl[0].", "quantifier": "all magnets, edge angles, strengths, charge ratios and particles", "why_tests_cant": "Tests compare the two models at one angle and with small gap corrections within loose tolerances", "anchors": ["xtrack/beam_elements/elements_src/track_dipole_edge_linear.h", "xtrack/beam_elements/elements_src/track_magnet_edge.h: track_magnet_edge_particles", "xtrack/beam_elements/elements_src/track_dipole_fringe.h", "xtrack/beam_elements/elements_src/track_magnet.template.h: track_magnet_particles"]}
{"id": "C73", "title": "DipoleEdge elements are the edges of a magnet", "statement": "A DipoleEdge with the attributes of an edge of a magnet (linear, dipole-only or suppressed), placed before or after the magnet without edges, tracks as the magnet with its edges, forwards and backwards. Whatever the order in which attributes of a DipoleEdge are assigned, the element is the one created with the final values.", "quantifier": "all magnets that are not rectangular bends, all edge parameters, both directions, every history of assignments", "why_tests_cant": "The cached coefficients depend on the history of assignments; the equivalence has to hold for all parameters and both directions", "anchors": ["xtrack/beam_elements/dipole_edge.py: DipoleEdge", "xtrack/beam_elements/elements_src/dipoleedge.h", "xtrack/beam_elements/elements_src/track_dipole_edge_nonlinear.h", "xtrack/beam_elements/elements_src/track_magnet_edge.h"]}
{"id": "C74", "title": "The body of every magnet is symplectic", "statement": "Tracking through the body of a magnet (Bend, RBend, Quadrupole, Sextupole, Octupole, Multipole, Magnet, UniformSolenoid and their slices) is a symplectic map of (x, px, y, py, zeta, pzeta), for every model, integrator, number of kicks, strength and slice weight, forward and in backtracking, so that long-term tracking neither damps nor excites the beam artificially.", "quantifier": "all models, integrators, strengths, curvatures, weights, and all particles which are not turned around", "why_tests_cant": "A test evaluates a finite-difference Jacobian at a few points for a few settings; the claim is about the exact derivative at every point and all combinations of models and integrators.", "anchors": ["xtrack/beam_elements/elements_src/track_magnet.template.h", "xtrack/beam_elements/elements_src/track_magnet_drift.h:track_magnet_drift_single_particle", "xtrack/beam_elements/elements_src/track_magnet_kick.h:track_magnet_kick_single_particle"]}
{"id": "C75", "title": "Edges and whole magnets are symplectic", "statement": "Tracking through the edges of a magnet (linear, full with dipole and multipole fringes and wedges, dipole-only), through DipoleEdge and Wedge elements, and through a whole magnet with both edges and its body is a symplectic map.", "quantifier": "all edge models, angles, gaps, fringe integrals, multipoles and all particles which cross the faces", "why_tests_cant": "Full fringe maps are long implicit formulas in which one wrong sign or power breaks symplecticity in third order only, which sampled Jacobians at small amplitude do not resolve.", "anchors": ["xtrack/beam_elements/elements_src/track_dipole_fringe.h", "xtrack/beam_elements/elements_src/track_mult_fringe.h", "xtrack/beam_elements/elements_src/track_wedge.h", "xtrack/beam_elements/elements_src/track_magnet_edge.h", "xtrack/beam_elements/elements_src/dipoleedge.h"]}
{"id": "C76", "title": "Misalignments and changes of the frame are symplectic", "statement": "Rotations, translations and shifts, as elements or as misalignment (shifts, tilts, yaw, pitch, roll, anchor) of any element, straight or curved, keep tracking symplectic.", "quantifier": "all angles, shifts and anchors, all elements, all particles which cross the intermediate planes", "why_tests_cant": "The composition of rotations and shifts differs for each branch (straight, curved, backtracking); a test samples some.", "anchors": ["xtrack/beam_elements/elements_src/track_misalignments.h", "xtrack/beam_elements/elements_src/track_xrotation.h", "xtrack/beam_elements/elements_src/track_yrotation.h", "xtrack/beam_elements/elements_src/track_srotation.h"]}
{"id": "C77", "title": "RF elements give the right energy, are symplectic and can be backtracked", "statement": "A cavity gives a particle of charge q the energy q V sin(phase at its arrival), independently of the number of kicks, model and integrator; cavities, crab cavities and RF multipoles are symplectic (the energy kick is the one which belongs to the transverse kick); backtracking an RF element undoes tracking it.", "quantifier": "all voltages, frequencies, harmonics, phases, multipoles, models, reference charges and particles", "why_tests_cant": "The relation between the transverse and the longitudinal kick is an identity between derivatives for all amplitudes and orders; tests use protons and low orders.", "anchors": ["xtrack/beam_elements/elements_src/track_rf.h:track_rf_kick_single_particle", "xtrack/beam_elements/elements_src/track_rf.h:track_rf_particles", "xtrack/beam_elements/elements_src/cavity.h", "xtrack/beam_elements/elements_src/crab_cavity.h", "xtrack/beam_elements/elements_src/rfmultipole.h"]}
{"id": "C78", "title": "Tracking for any number of turns is symplectic and conserves phase space volume", "statement": "The map of a line of drifts, magnets, edges, RF elements, thin elements (wires, exciters, nonlinear lenses, AC dipoles and others), rotations, translations and misaligned elements over any number of turns is symplectic, hence its Jacobian determinant has modulus one.", "quantifier": "all lines of these elements, all numbers of turns, both directions, all particles which get through", "why_tests_cant": "The claim is about compositions of unbounded length.", "anchors": ["xtrack/tracker.py:track_line (generated code)", "xtrack/line.py:Line.track"]}
{"id": "C79", "title": "A ring of LineSegmentMaps has the tunes, chromaticities and optics it was made with", "statement": "In normalised coordinates of the given Twiss parameters, relative to the given orbit and dispersion, a segment turns a particle by 2 pi times (tune + chromatic expansion of the given coefficients + detuning times the actions); phase advances of successive segments with matching optics add up, over any number of turns; the normalised emittances of a particle do not change (also under acceleration); a particle on the orbit of its momentum stays on it.", "quantifier": "all optics, tunes, chromaticities of any order, detunings, lists of segments, numbers of turns, particles, longitudinal modes", "why_tests_cant": "The statement concerns compositions of any number of maps and all combinations of optional arguments; tests check one or two sets of arguments.", "anchors": ["xtrack/beam_elements/line_segment_map.py:LineSegmentMap", "xtrack/beam_elements/elements_src/linesegmentmap.h:transverse_motion", "xtrack/beam_elements/elements_src/linesegmentmap.h"]}
{"id": "C80", "title": "Synchrotron motion of a LineSegmentMap", "statement": "With a fixed synchrotron tune a particle inside a bucket turns around the centre of its bucket by the sum of the tunes of the segments, over any number of turns, and never leaves the bucket; with fixed RF it turns by the tune which follows from the slope of the RF kick of the nonlinear mode at the stable phase; the nonlinear mode gives the particle the energy of all RF systems at its position between two halves of the slippage.", "quantifier": "all tunes, buckets, RF systems, momentum compactions, particles and numbers of turns", "why_tests_cant": "Compositions of unbounded length, and real-valued identities for all RF parameters and charges.", "anchors": ["xtrack/beam_elements/line_segment_map.py:LineSegmentMap", "xtrack/beam_elements/elements_src/linesegmentmap.h"]}
{"id": "C81", "title": "LineSegmentMaps are symplectic", "statement": "Without damping, noise and acceleration a segment, and any line of segments over any number of turns, is a symplectic map.", "quantifier": "all segments, lists of segments, numbers of turns, longitudinal modes and particles", "why_tests_cant": "Symplecticity is an identity between derivatives at every point of phase space.", "anchors": ["xtrack/beam_elements/line_segment_map.py:LineSegmentMap", "xtrack/beam_elements/elements_src/linesegmentmap.h"]}
{"id": "C82", "title": "Thin elements are symplectic", "statement": "Tracking through a thin bend, thin quadrupole, time delay, wire, AC dipole, exciter, nonlinear lens, multipole edge or electron lens is a symplectic map, in both directions.", "quantifier": "all parameters of the elements and all particles at which the kick is defined", "why_tests_cant": "Symplecticity is an identity between derivatives at every point of phase space, including fields with logarithms and inverse trigonometric functions.", "anchors": ["xtrack/beam_elements/wire.py:Wire", "xtrack/beam_elements/exciter.py:Exciter", "xtrack/beam_elements/nonlinear_lens.py:NonLinearLens", "xtrack/beam_elements/elens.py:Elens", "xtrack/beam_elements/elements_src/wire.h", "xtrack/beam_elements/elements_src/exciter.h", "xtrack/beam_elements/elements_src/nonlinearlens.h", "xtrack/beam_elements/elements_src/elens.h", "xtrack/beam_elements/elements_src/simplethinbend.h", "xtrack/beam_elements/elements_src/simplethinquadrupole.h", "xtrack/beam_elements/elements_src/timedelay.h", "xtrack/beam_elements/elements_src/multipoleedge.h"]}
{"id": "C83", "title": "An AC dipole drives with the given waveform and twiss mode gives the driven tune", "statement": "In tracking mode the kick in turn n is 0.3 volt / p0c times the trapezoidal envelope given by ramp times sin(2 pi freq n + lag). In twiss mode, however freq, natural_q and beta_at_acdipole were set, a ring with these optics has the tune freq; without beta or natural tune the gradient is zero.", "quantifier": "all parameters, turns and particles; all sequences of assignments; all alpha", "why_tests_cant": "The waveform has unboundedly many turns, and the tune claim is about every ring and every history of assignments.", "anchors": ["xtrack/beam_elements/acdipole.py:ACDipole", "xtrack/beam_elements/acdipole.py:_set_eff_grad", "xtrack/beam_elements/elements_src/acdipole.h", "xtrack/beam_elements/elements_src/track_acdipole.h"]}
{"id": "C84", "title": "An exciter plays its samples at the right times", "statement": "A particle that arrives within sample n of the excitation gets the multipole kick scaled by sample n of the periodically repeated waveform; particles that arrive before the start or after the duration get no kick.", "quantifier": "all waveforms, sampling frequencies, durations, multipole orders, turns and particles", "why_tests_cant": "The sample depends on real arrival times; every boundary between samples matters.", "anchors": ["xtrack/beam_elements/exciter.py:Exciter", "xtrack/beam_elements/elements_src/exciter.h"]}
{"id": "C85", "title": "A wire gives the kick of the Biot-Savart field", "statement": "The kick of a Wire is the charge of the particle over the reference momentum times the field of a straight wire of the physical length, integrated over the interaction length, minus the kick to be subtracted.", "quantifier": "all wires, reference momenta, charges and particles off the wire", "why_tests_cant": "The claim is an identity between a closed formula and a double integral at all distances.", "anchors": ["xtrack/beam_elements/wire.py:Wire", "xtrack/beam_elements/elements_src/wire.h"]}
{"id": "C86", "title": "Backtracking undoes thin elements", "statement": "Backtracking through a thin bend, thin quadrupole, time delay, exciter or electron lens restores the particle.", "quantifier": "all parameters and particles", "why_tests_cant": "The identity must hold exactly for all parameters, including zero curvature and residual kicks.", "anchors": ["xtrack/beam_elements/elements_src/simplethinbend.h", "xtrack/beam_elements/elements_src/simplethinquadrupole.h", "xtrack/beam_elements/elements_src/timedelay.h", "xtrack/beam_elements/elements_src/exciter.h", "xtrack/beam_elements/elements_src/elens.h"]}
{"id": "C87", "title": "A nonlinear lens has the elliptic potential with the documented quadrupole term", "statement": "Off the horizontal plane the kick of a NonLinearLens is the gradient of knll times the elliptic potential with singularities at x = +-cnll; the kick at the centre vanishes and its linear part is that of a quadrupole of strength 2 knll / cnll^2.", "quantifier": "all knll, cnll > 0 and particles", "why_tests_cant": "The claim is about derivatives of a function of logarithms and inverse trigonometric functions at every point, with removable singularities.", "anchors": ["xtrack/beam_elements/nonlinear_lens.py:NonLinearLens", "xtrack/beam_elements/elements_src/nonlinearlens.h"]}
{"id": "C88", "title": "An electron lens applies the Lorentz force of the enclosed current", "statement": "The kick of an electron lens with uniform density is the electric and magnetic force of the current within the radius of the particle times the transit time, scaled with the charge of the particle, over the reference momentum; within the inner radius only the residual kick acts.", "quantifier": "all radii, currents, voltages, lengths and particles", "why_tests_cant": "The claim relates the code to Gauss' and Ampere's law for every radius, including the edges of the beam.", "anchors": ["xtrack/beam_elements/elens.py:Elens", "xtrack/beam_elements/elements_src/elens.h"]}
{"id": "C89", "title": "R matrices of a twiss table are those of the line", "statement": "In a line of elements which act as affine symplectic maps, the R matrix that a twiss table gives between any two of its rows is the product of the matrices of the elements between them. So R matrices compose, and do not depend on the initial optics, on the orbit, or on the size of the finite-difference step the table was computed with.", "quantifier": "all lines of affine symplectic elements (coupled or not, with or without RF), orbits, initial optics, steps, pairs of rows", "why_tests_cant": "The R matrix is reconstructed from W matrices and phases which were normalised row by row; a sign or phase error can cancel for the usual uncoupled optics which tests use", "anchors": ["xtrack/twiss/twiss_table.py:get_R_matrix", "xtrack/twiss/optics_propagation.py", "xtrack/twiss/lattice_functions_from_W.py"]}
{"id": "C90", "title": "Periodic optics and restarting from a row", "statement": "A twiss started from the initial conditions which a table gives at one of its rows reproduces the rest of the table: the same W matrices and the same phase advances counted from there (up to whole turns). If the initial optics is matched to the matrix of the whole line, all lattice functions at the end are those at the start, and the phase advance over the line is the tune (up to an integer).", "quantifier": "all lines of affine symplectic elements, orbits, initial optics, restart points, tunes", "why_tests_cant": "The W matrix at a row has a conventional phase; whether restarting commutes with the convention has to hold for each optics, tests compare beta functions at few places", "anchors": ["xtrack/twiss/optics_propagation.py", "xtrack/twiss/twiss_init.py:TwissInit", "xtrack/twiss/lattice_functions_from_W.py"]}
{"id": "C91", "title": "Beta and alpha functions follow the textbook transport", "statement": "betx, alfx, gamx (and the vertical ones) at each row are obtained from the values given at the start with the entries of the transfer matrix; the first row shows what was given; the transfer matrix has the Courant-Snyder form with the beta functions and phase advances of the table; beta gamma - alpha^2 = 1 in uncoupled lines; both ways in which the functions are extracted from W agree.", "quantifier": "all lines of affine symplectic elements, initial beta, alpha, dispersion, orbits, steps", "why_tests_cant": "Tests compare with another code for a few machines to a tolerance", "anchors": ["xtrack/twiss/lattice_functions_from_W.py", "xtrack/twiss/twiss_init.py:TwissInit", "xtrack/twiss/optics_propagation.py"]}
{"id": "C92", "title": "Dispersion is the derivative of the orbit with respect to momentum", "statement": "In a line without RF the columns dx, dpx, dy, dpy at each row are the transfer matrix applied to the dispersion at the start, which is the one given by the user; the periodic dispersion of the 4d method is reproduced by the one-turn matrix, at every row. With RF, the dispersion and the crab dispersion are the motion in the longitudinal mode with (zeta, pzeta) = (0, 1) and (1, 0).", "quantifier": "all lines of affine symplectic elements without RF, coupled or not, initial dispersions and longitudinal beta functions, rings with an invertible 4d block", "why_tests_cant": "Initial values of bets are 1 in tests; coupled dispersion is tested against one machine", "anchors": ["xtrack/twiss/twiss_init.py:TwissInit", "xtrack/twiss/lattice_functions_from_W.py", "xtrack/twiss/periodic_solution.py"]}
{"id": "C93", "title": "Phase advance is continuous", "statement": "The columns mux, muy, muzeta start from zero and are the phase counted from the first row up to whole turns; whenever the true phase advances by less than half a turn from a row to the next, they are the true phase advance, over any number of turns.", "quantifier": "all sequences of phases, of any length", "why_tests_cant": "Unwrapping depends on all previous rows; a wrong branch shows only for particular phases", "anchors": ["xtrack/twiss/lattice_functions_from_W.py"]}
{"id": "C94", "title": "Linear normal form of a stable machine", "statement": "For a symplectic one-turn matrix with distinct eigenvalues on the unit circle the normal form gives a symplectic W with M W = W R, R made of three rotations by the phases of the eigenvalues, with W[0,1] = W[2,3] = W[4,5] = 0 and non-negative diagonal, the third mode being the longitudinal one and the second the more vertical of the others; likewise with only_4d_block. The optics started from it is periodic and its tunes are the phases of the eigenvalues. Symplectification returns a symplectic matrix and leaves symplectic matrices unchanged.", "quantifier": "all one-turn matrices and all orders and normalisations of the eigenvectors which the eigenvalue solver may return", "why_tests_cant": "The order and phases of eigenvectors come from LAPACK; tests see one order per machine", "anchors": ["xtrack/linear_normal_form.py:get_linear_normal_form", "xtrack/linear_normal_form.py:sort_modes", "xtrack/linear_normal_form.py:healy_symplectify"]}
{"id": "C95", "title": "Reversed twiss is the twiss of the reversed motion", "statement": "Initial conditions given in the reversed frame are those which are reported back; reversing a table twice gives the table; the functions of a reversed table belong to its W matrices, phases grow from zero by the same amounts, and its W and R matrices and chromatic functions are those of the reversed motion.", "quantifier": "all tables, all lines of affine symplectic elements, all initial conditions in either frame", "why_tests_cant": "Reversal flips the sign of selected columns; each column needs its own check in a machine where it does not vanish", "anchors": ["xtrack/twiss/twiss_table.py:reverse", "xtrack/twiss/twiss_init.py:TwissInit", "xtrack/twiss/chromatic_functions.py"]}
{"id": "C96", "title": "Normalized coordinates and matched beam", "statement": "Normalized coordinates of a particle determine it; along the line they only rotate, by the phase advances of the table, so the actions are the same at every row; the beam covariance given by the table for given emittances is transported from row to row by the transfer matrices.", "quantifier": "all lines of affine symplectic elements, particles, emittances, pairs of rows", "why_tests_cant": "Has to hold for all particles and coupled optics; tests use statistical comparison of tracked bunches", "anchors": ["xtrack/twiss/twiss_table.py:get_normalized_coordinates", "xtrack/twiss/twiss_table.py:get_beam_covariance"]}
{"id": "C97", "title": "R and T matrices by finite differences", "statement": "The R matrix computed by tracking around a particle is exact for affine maps for all steps, and tends to the derivative of the map when the steps tend to zero; on maps of second order R and T are exact.", "quantifier": "all maps (affine, of second order, differentiable), orbits and steps", "why_tests_cant": "Tests compare with tolerances that hide a term proportional to the step", "anchors": ["xtrack/twiss/transfer_matrices.py"]}
{"id": "C98", "title": "Slip factor of both methods", "statement": "The slip factor of the 6d method and of the 4d method is the one of its definition: the change of zeta after one turn of a particle with one unit of pzeta which comes back with all other coordinates unchanged. With one cavity of any strength anywhere in the ring the 6d method gives the slip factor which the 4d method gives without it.", "quantifier": "all one-turn matrices (coupled, dispersive), positions and strengths of the cavity, steps", "why_tests_cant": "Two independent formulas, compared by tests on few machines to a tolerance", "anchors": ["xtrack/twiss/twiss_postprocess_and_complem_results.py"]}
{"id": "C99", "title": "A second order map reproduces the part of the line it was made from", "statement": "The SecondOrderTaylorMap made from a part of a line takes the closed orbit at its start to the closed orbit at its end, for every line. If the part of the line is a map of second order, the element gives the same coordinates as tracking through the part, for every particle and around any orbit; s advances by the length of the part.", "quantifier": "all lines, orbits, finite-difference steps, particles", "why_tests_cant": "The coefficients are shifted from the orbit to the origin (feed-down); a wrong factor is invisible on machines with zero orbit", "anchors": ["xtrack/beam_elements/second_order_taylor_map.py:from_line", "xtrack/beam_elements/elements_src/second_order_taylor_map.h:SecondOrderTaylorMap_track_local_particle"]}
{"id": "C100", "title": "First and second order maps agree", "statement": "A FirstOrderTaylorMap, given in (tau, ptau), acts as the SecondOrderTaylorMap with the coefficients converted to (zeta, pzeta), for any reference velocity; if its matrix is symplectic so is the map in the coordinates of xtrack.", "quantifier": "all coefficients, particles and reference velocities", "why_tests_cant": "Tests use ultra-relativistic beams where the two sets of coordinates nearly coincide", "anchors": ["xtrack/beam_elements/elements_src/firstordertaylormap.h:FirstOrderTaylorMap_track_local_particle", "xtrack/beam_elements/elements_src/second_order_taylor_map.h:SecondOrderTaylorMap_track_local_particle"]}
{"id": "C101", "title": "Scaled coordinates of a second order map", "statement": "The map returned by scale_coordinates acts on scaled coordinates as the original map acts on the original ones.", "quantifier": "all maps, all scale factors", "why_tests_cant": "Only reflections are tested", "anchors": ["xtrack/beam_elements/second_order_taylor_map.py:scale_coordinates"]}
{"id": "C102", "title": "Replacing parts of a line by maps keeps the line", "statement": "In the line returned by get_line_with_second_order_maps the split elements, the first and the last element are kept as they are; every element of the original line is represented exactly once and in order, by itself or inside one map; the length is the same; tracking gives the same result when each map reproduces its part.", "quantifier": "all lines, all choices of split elements, all names", "why_tests_cant": "Depends on the positions of all split elements and on names; tests split at a few places", "anchors": ["xtrack/line.py:get_line_with_second_order_maps"]}
{"id": "C103", "title": "Twiss over a range shows the given optics at the given place", "statement": "A twiss from start to end with optics given at an element of the range returns one table with the elements from start to end in order, going over the end of the line when end comes before start. Optics, phases and s follow through the elements, and in the row of the given element they have the given values. If this is not possible the program raises an error. With the optics of the full periodic table at the start, every row shows the optics of the full periodic table.", "quantifier": "all lines, all pairs of start and end, all positions of the given element in the range, all optics", "why_tests_cant": "The result is put together from up to three partial tables, forward and backward, with different cases for the place of the given element; tests use markers at a few places, for which a wrong side of the element makes no difference", "anchors": ["xtrack/twiss/handle_init_inside_range_and_line_wrap.py:_compute_twiss_handling_init_inside_range_and_line_wrap", "xtrack/twiss/optics_propagation.py:_propagate_twiss_from_init", "xtrack/twiss/twiss_table.py:concatenate", "xtrack/twiss/twiss.py:_get_open_twiss_range_flags"]}
{"id": "C104", "title": "Twiss over one turn from any start", "statement": "A twiss with start and without end returns a table of one turn from start: all elements once in the order of the turn, the optics of the periodic solution (or the given one), and all phases, including muzeta, and s continuous over the end of the line; in the periodic case they start from zero, otherwise from the given values.", "quantifier": "all rings, all starts, all columns", "why_tests_cant": "Tests check one start in the middle of one ring and a few columns", "anchors": ["xtrack/twiss/twiss.py:_select_twiss_route", "xtrack/twiss/twiss_table.py:concatenate", "xtrack/twiss/twiss_table.py:zero_at", "xtrack/twiss/handle_init_inside_range_and_line_wrap.py:_compute_twiss_handling_init_inside_range_and_line_wrap"]}
{"id": "C105", "title": "Coasting beams: the collective elements see the free motion of every particle, each passage once and in its time window", "statement": "When a coasting beam is tracked with SyncTime elements (install_sync_time_at_collective_elements), the successive passages of every particle through the synchronised places have the times of its free motion, no passage is skipped or repeated, each is seen in the turn of the tracking whose time window contains it, and a particle which is not lost is never left waiting beyond the window in which it is due. Preparing the particles with prepare_particles_for_sync_time makes no difference.", "quantifier": "All rings, frame lengths, numbers of collective elements, sets of particles, changes of zeta along the line (also losses) and numbers of turns in which no exception is raised.", "why_tests_cant": "The order in which particles are stopped, resumed and reordered depends on the whole history; tests look at histograms for a few turns.", "anchors": ["xtrack/synctime.py:SyncTime", "xtrack/synctime.py:install_sync_time_at_collective_elements", "xtrack/synctime.py:prepare_particles_for_sync_time"]}
{"id": "C106", "title": "Feed-down gives the field seen around the orbit", "statement": "feed_down(kn, kskew, shift_x, shift_y, psi, x0, y0) returns the multipole strengths of the magnet as seen around the point (x0, y0): for every particle the kick of the displaced and rolled thin magnet equals the kick of the returned strengths at the distance of the particle from (x0, y0). Without displacement and roll the strengths are returned unchanged, and max_output_order only cuts the result.", "quantifier": "all numbers of orders, strengths, shifts, rolls, orbits and particle positions", "why_tests_cant": "A test compares a few strengths at a few points; the equality of polynomials of any order and for all positions needs the binomial theorem.", "anchors": ["xtrack/feed_down.py:feed_down"]}
{"id": "C107", "title": "Driving terms describe the perturbed motion to first order", "statement": "With the driving terms of all resonances up to an order from rdt_first_order_perturbation, the motion of tracking_from_rdt follows from row to row and from turn to turn the linear motion with, at each magnet, the kick of this magnet at the unperturbed position; only changes of the tunes are left out. The magnets are taken as misaligned as they are in tracking. The driving terms are the only ones which do this. The frequencies in the metadata are in [0, 1) and are those of the lines in the motion.", "quantifier": "all lines, strengths, misalignments, orbits, optics, tunes off resonance, actions, phases, turns and rows", "why_tests_cant": "Tests compare one spectrum line of one machine with tracking to some percent; neither the sum over all resonances nor exact equality can be seen this way.", "anchors": ["xtrack/rdt.py:rdt_first_order_perturbation", "xtrack/rdt.py:tracking_from_rdt", "xtrack/rdt.py:rdt_metadata"]}
{"id": "C108", "title": "Spin moves by a rotation", "statement": "Whatever the elements are (magnets, solenoids, wedges, rotations of the frame, misalignments, apertures, drifts), the spin of a particle at the end of a tracking depends on the spin at the beginning by a rotation, which is given by the orbit: the length of the spin and the angles between spins on the same orbit are kept, no reflection occurs, a particle without spin stays without, and the orbit does not depend on the spin.", "quantifier": "all lines, orbits, fields, path lengths and initial spins", "why_tests_cant": "A tracking test checks the length of a few spins on a few orbits; that each elementary precession and the composition of any number of them is a proper rotation is a statement for all inputs.", "anchors": ["xtrack/beam_elements/elements_src/track_magnet_radiation.h:magnet_spin"]}
{"id": "C109", "title": "Spin precession follows the Thomas-BMT equation", "statement": "With spin tracking on, the spin turns in each magnet about the vector given by the Thomas-BMT equation for the field, the momentum and the anomalous magnetic moment of the particle, by the modulus of it times the path length, relative to a frame which turns with the reference orbit. On the design orbit of any sequence of horizontal bends the spin turns about the vertical by G gamma times the total bending angle. This holds also with horizontal and vertical slopes and inside solenoids.", "quantifier": "all magnets, fields, particles and sequences of bends", "why_tests_cant": "Tests compare the spin tune and a few orbits with a reference code with small tolerances; the direction of motion enters at second order in the slopes, below these tolerances.", "anchors": ["xtrack/beam_elements/elements_src/track_magnet_radiation.h:magnet_spin", "xtrack/beam_elements/elements_src/track_magnet_radiation.h:direction_of_motion"]}
{"id": "C110", "title": "Mean radiation takes the classical energy and keeps the direction", "statement": "With radiation model 'mean' a particle loses on each path in a field the classical energy 2/3 r0 m c^2 gamma^4 l / rho^2, with the field perpendicular to its motion; the direction of its motion is kept, without field nothing changes, and the momentum stays positive as long as the particle is alive.", "quantifier": "all particles, reference particles, fields and path lengths", "why_tests_cant": "Tests look at the damping and the energy loss per turn of some rings in the ultrarelativistic small slope limit.", "anchors": ["xtrack/headers/synrad_spectrum.h:synrad_average_kick", "xtrack/beam_elements/elements_src/track_magnet_radiation.h:magnet_radiation", "xtrack/beam_elements/elements_src/track_magnet_radiation.h:compute_b_perp_mod"]}
{"id": "C111", "title": "Photons account for the energy lost", "statement": "With radiation model 'quantum' the photons emitted on a path are those of the arrivals before the mean number, each is in the record of photons with its energy, the energy of the particle is reduced by the sum of the recorded energies, its direction of motion is kept, and it is lost just if the photons take all its energy.", "quantifier": "all sequences of random numbers, fields, path lengths and particles", "why_tests_cant": "Randomness: a test sees a sample of the sequences; rare ones (a photon which takes all the energy, a random number next to zero) do not occur in a test.", "anchors": ["xtrack/headers/synrad_spectrum.h:synrad_emit_photons", "xtrack/headers/synrad_spectrum.h:synrad_gen_photon_energy_normalized"]}
{"id": "C112", "title": "Total radiated energy by tables counts every photon once", "statement": "With the tabulated quantum model ('quantum-kick') the number of photons is that of the arrivals of a Poisson process before the mean number, by either of the two ways of counting; the photons are divided into groups for which there is a table, none left out or counted twice; in the tables the interval of the grid which holds the random number is found, and the energy is interpolated between the two entries; momentum, direction and loss of the particle follow the total energy.", "quantifier": "all mean numbers, random numbers, numbers of photons, sizes of grid and table contents", "why_tests_cant": "Statistical tests compare means and variances; a wrong group for one number of photons or a wrong interval at a boundary is not seen in them.", "anchors": ["xtrack/headers/synrad_spectrum.h:synrad_gen_photon_count", "xtrack/headers/synrad_spectrum.h:synrad_gen_total_energy_normalized_quantum_kick", "xtrack/headers/synrad_spectrum.h:synrad_emit_total_energy_loss"]}
{"id": "C113", "title": "Radiation kicks of the closed orbit for all particles", "statement": "With the radiation method 'kick_as_co' of twiss every particle gets in each magnet exactly the change of momentum of the particle on the closed orbit, so that the matrix of the line is that of the line without radiation around the orbit with radiation.", "quantifier": "all magnets, numbers of integration steps and particles", "why_tests_cant": "Tests compare twiss results for some lattices with the default integrator; the effect is of the size of the radiation in one step.", "anchors": ["xtrack/headers/synrad_spectrum.h:synrad_average_kick", "xtrack/beam_elements/elements_src/track_magnet.template.h:track_magnet_particles"]}
{"id": "C114", "title": "Saving a table writes exactly the selected columns and attributes", "statement": "For every table and every choice of `include`, `exclude` and `include_meta`, saving a table (dictionary, CSV) writes exactly the columns and attributes which are included and not excluded: nothing which was not asked for is written, nothing asked for is lost, and metadata is written when it is asked for.", "quantifier": "all tables, all lists of included and excluded names, all settings of the metadata option", "why_tests_cant": "The selection combines three options with defaults and with names which can be columns, attributes or metadata; a test fixes a few combinations.", "anchors": ["xtrack/table.py:to_dict", "xtrack/table.py:to_csv", "xtrack/table.py:_resolve_name_selection", "xtrack/table.py:_split_include_exclude"]}
{"id": "C115", "title": "A table survives being written as CSV and read again", "statement": "For every table, reading the CSV file written by `to_csv` gives a table with the same columns in the same order, with the same values and types in every row.", "quantifier": "all tables: any number of rows and columns, any texts, integers, floats and objects in the cells", "why_tests_cant": "Whether a cell survives depends on its text (quotes, separators, comment signs, blanks, number formats); a test holds a few cells.", "anchors": ["xtrack/table.py:to_csv", "xtrack/table.py:from_csv", "xtrack/table.py:_cast_csv_column"]}
{"id": "C116", "title": "A table and any data survive being written as JSON and read again", "statement": "For all data made of numbers, complex numbers, texts, lists and dictionaries, `xt.json.load` of the file written by `xt.json.dump` gives the same data, compressed or not; and a table written by `to_json` is given back by `Table.from_json`, as often as it is read.", "quantifier": "all data, all tables, compressed and not compressed files, any number of reads of the same dictionary", "why_tests_cant": "The data are of any depth; complex numbers, compression and repeated reading are combinations which tests do not run through.", "anchors": ["xtrack/json.py:dump", "xtrack/json.py:load", "xtrack/table.py:from_json", "xtrack/table.py:from_dict"]}
{"id": "C117", "title": "Attributes of a table survive the header of a TFS file", "statement": "For every attribute of a table (None, truth value, integer, float, complex number, text, array), the header line written by `to_tfs` is read back by `from_tfs` as the same name and the same value.", "quantifier": "all attribute names, all values, all widths of the columns of the header", "why_tests_cant": "Whether a value survives depends on its text: spaces, quotes, digits; a test holds a few values.", "anchors": ["xtrack/table.py:to_tfs", "xtrack/table.py:from_tfs", "xtrack/table.py:_format_tfs_header_value", "xtrack/table.py:_convert_header_value", "xtrack/table.py:_parse_headers"]}
{"id": "C118", "title": "Energy loss compensation leaves the cavities as they were but for a phase which gives back the loss", "statement": "For every line and every outcome of the tracking, after `line.compensate_radiation_energy_loss()` the voltages, frequencies, harmonic numbers, lags and phases of all cavities are those from before; on the turn which was found to close in energy each cavity gives exactly its share of the loss, on the slope which keeps the bunch together; and if the function fails, the line is as before.", "quantifier": "all settings of the cavities, all tracking results, numbers of iterations and tolerances, all ways to end", "why_tests_cant": "The iteration changes all cavities for a while and restores them; its end depends on tracking results in a way that a test with one machine does not vary.", "anchors": ["xtrack/tapering.py:compensate_radiation_energy_loss"]}
{"id": "C119", "title": "Names of particles and PDG numbers translate into each other", "statement": "For every particle and every ion, and their anti-particles, the name given for a PDG number, long or short, is read back as the same number; every way to write an ion (element short or long, any case, nucleons before or behind, separators, superscripts) gives its number, with the right charge and mass number; and names which do not mean a particle are refused.", "quantifier": "all particles of the table, all elements and numbers of nucleons, all styles and separators", "why_tests_cant": "There are more than ten thousand ions with some twenty spellings each; element names occur in other element names.", "anchors": ["xtrack/particles/pdg.py:get_name_from_pdg_id", "xtrack/particles/pdg.py:get_pdg_id_from_name", "xtrack/particles/pdg.py:get_properties_from_pdg_id", "xtrack/particles/pdg.py:get_pdg_id_ion", "xtrack/particles/pdg.py:is_ion"]}
{"id": "C120", "title": "The reported Edwards-Teng matrix decouples the turn", "statement": "For every ring whose optics twiss reports with coupling, the two by two matrix r11_edw_teng ... r22_edw_teng at each element defines a symplectic change of coordinates in which the one-turn matrix at this element is two independent turns, one in each plane, and those turns have the reported tunes qx and qy.", "quantifier": "all symplectic normal forms at an element and all pairs of tunes with different cosines", "why_tests_cant": "The coupling matrix is a function of ten real parameters of the normal form and of the tunes; tests compare with another program on a few lattices, and equal traces of the planes need a special lattice.", "anchors": ["xtrack/twiss/coupling_edw_teng.py:_get_edwards_teng_matrix", "xtrack/twiss/coupling_edw_teng.py:_conj_mat", "xtrack/twiss/coupling_edw_teng.py:_edwards_teng_from_one_turn_at_all_locations"]}
{"id": "C121", "title": "Chromatic functions are momentum derivatives", "statement": "The chromatic functions of a twiss (ax_chrom, bx_chrom, ay_chrom, by_chrom, dmux, dmuy, ddx, ddpx, ddy, ddpy) are the derivatives with respect to the momentum of the optics at each element, up to a change of the momentum smaller than delta_chrom; dqx, dqy, ddqx, ddqy are the first and second derivatives of the tunes. On an open range the functions given with the initial conditions are reported at the start, in both reference frames.", "quantifier": "all initial conditions, all smooth dependences on the momentum, all ranges and both reference frames", "why_tests_cant": "The columns are quotients of differences of three tables; tests compare single lattices with another program, mostly on full rings which start at s = 0.", "anchors": ["xtrack/twiss/chromatic_functions.py:_get_chromatic_functions", "xtrack/twiss/chromatic_functions.py:_build_open_off_momentum_init", "xtrack/twiss/twiss_init.py:_finish_initialization", "xtrack/twiss/optics_propagation.py:_propagate_twiss_from_init"]}
{"id": "C122", "title": "Modal optics and driving terms of the linear coupling", "statement": "For a twiss with coupling, the reported g_edw_teng, betx_edw_teng, alfx_edw_teng, bety_edw_teng and alfy_edw_teng are those of the Edwards-Teng decomposition of the motion given by the reported coupling matrix; the reported resonance driving terms satisfy g^2 (1 + 4|f1001|^2 - 4|f1010|^2) = 1; between sources of coupling they keep their moduli, f1001 turns with the difference and f1010 with the sum of the phase advances.", "quantifier": "every symplectic normal form, every tunes, every pair of matrices of uncoupled elements", "why_tests_cant": "Tests compare a few lattices with another code; the identities have to hold for every coupled lattice, also when the coupling is so strong that the two modes exchange their planes.", "anchors": ["xtrack/twiss/lattice_functions_from_W.py:_get_lattice_functions", "xtrack/twiss/coupling_edw_teng.py:_get_edwards_teng_matrix"]}
{"id": "C123", "title": "Reported strengths are those used in tracking", "statement": "For every element of a line, the integrated strengths given by line.attr['k0l'] ... ['k5l'], ['k0sl'] ... ['k5sl'] (also in line.get_table(attr=True), line.get_strengths() and in twiss tables with strengths) are those with which tracking kicks the particles in a pass through the element, including components given relative to the main one; slicing an element keeps the sum of the reported strengths, angles and lengths; a replica reports what its original reports.", "quantifier": "every dictionary of elements, every magnet, slice and replica, every order from 0 to 5, every slicing scheme", "why_tests_cant": "Tests look at single magnets and at one slicing; the strengths of relative components, of slices and of replicas of slices combine in ways which samples do not cover.", "anchors": ["xtrack/line.py:LineAttr", "xtrack/line.py:LineAttrItem", "xtrack/line.py:_main_strength_from_attr", "xtrack/line.py:_angle_rbend_correction_from_attr", "xtrack/base_element.py:Replica", "xtrack/beam_elements/_common.py:get_total_knl_ksl"]}
{"id": "C124", "title": "Refined loss locations", "statement": "After LossLocationRefinement.refine_loss_location, every particle lost at an aperture whose distance from the previous one is above ds is at a place between the two apertures, on its own trajectory, outside of the interpolated aperture there, and not more than ds behind a place where it was inside; particles which are alive or lost for other reasons, and all states, are unchanged; refining again changes nothing.", "quantifier": "all lines, all apertures, all trajectories, all sets of lost particles, all step lengths, all numbers of calls", "why_tests_cant": "Tests refine losses in a few short lines in one call; which apertures are reached depends on where else particles are lost, and on what lies between other apertures.", "anchors": ["xtrack/loss_location_refinement/loss_location_refinement.py:refine_loss_location", "xtrack/loss_location_refinement/loss_location_refinement.py:refine_loss_location_single_aperture", "xtrack/loss_location_refinement/loss_location_refinement.py:generate_interp_aperture_locations"]}
{"id": "C125", "title": "Matched knobs", "statement": "After line.match_knob(knob_name, vary, targets, knob_value_start, knob_value_end): with the knob at its start value all variables are as before the match, with the knob at its end value all variables are as the solver left them, in between they are linear in the knob; only the given variables move, by the same amount whatever other knobs are set to; generating the knob again changes nothing; variables stay within their limits in the match.", "quantifier": "all environments with any expressions and any other knobs, all lists of variables, all solutions, all pairs of different knob values, all histories of assignments and matches", "why_tests_cant": "Tests make one or two knobs in a fresh environment; which terms are left in expressions depends on the history of matches.", "anchors": ["xtrack/match.py:KnobOptimizer", "xtrack/match.py:generate_knob", "xtrack/match.py:match_knob_line"]}
{"id": "C126", "title": "Inequality targets", "statement": "A target with GreaterThan or LessThan contributes zero to the cost exactly when the inequality holds; otherwise it contributes the violation (step mode) or a value which is below it by at most a fixed fraction of sigma (smooth mode), and the contribution of the smooth mode has a derivative everywhere. A luminosity which meets a logarithmic luminosity target meets it within the tolerance given.", "quantifier": "all bounds, all widths, all values of the quantity", "why_tests_cant": "Tests match a few quantities to a few bounds; the transition is a piecewise polynomial whose pieces have to fit together exactly.", "anchors": ["xtrack/match.py:GreaterThan", "xtrack/match.py:LessThan", "xtrack/match.py:_transition_poly", "xtrack/targets.py:TargetLuminosity"]}
{"id": "C127", "title": "Luminosity is the overlap of the bunches", "statement": "The luminosity given by xtrack.lumi is the rate of collisions of two bunches with Gaussian densities which move on their orbits, with sizes following the optics around the interaction point and with the kinematic factor of their velocities.", "quantifier": "all pairs of beams: positions, angles, energies, masses, emittances, bunch lengths, optics", "why_tests_cant": "Tests compare with a few numbers for beams at high energy; the formula is an integral in four dimensions in which three are done by hand.", "anchors": ["xtrack/lumi.py:luminosity", "xtrack/lumi.py:luminosity_from_twiss"]}
{"id": "C128", "title": "Trajectory correction respects the corrector limits and ends", "statement": "With limits of the correctors, the kicks of a trajectory correction are within the limits after any number of iterations and calls, whether messages are printed or not. With automatic iterations the correction ends, and it ends early only if the root mean square position at the monitors is below the tolerance or does not improve any more.", "quantifier": "all machines (responses to kicks), limits, numbers of iterations, starting kicks, planes, verbosity", "why_tests_cant": "the kicks depend on the history of iterations and calls and on the response of the machine; a run only shows one history", "anchors": ["xtrack/trajectory_correction.py:TrajectoryCorrection", "xtrack/trajectory_correction.py:OrbitCorrectionSinglePlane"]}
{"id": "C129", "title": "Response matrices of the trajectory correction are the response of the line", "statement": "Every element of the response matrix is the change of the position at the monitor per unit of kick at the corrector: of the trajectory in an open line, zero for monitors upstream, and of the closed orbit in a ring.", "quantifier": "all optics functions, phases and tunes, all pairs of monitor and corrector in either order", "why_tests_cant": "an identity between real functions; a numerical comparison covers one lattice to some tolerance", "anchors": ["xtrack/trajectory_correction.py:_build_response_matrix"]}
{"id": "C130", "title": "Trajectory correction is the best one", "statement": "On a linear machine with the given response no other kicks lead to a smaller sum of squares at the monitors, and no smaller kicks reach the same; if the trajectory can be brought to zero at all monitors, it is. Asking for the best few correctors gives that many correctors.", "quantifier": "all response matrices, measured positions, numbers of singular values, cutoffs and numbers of correctors", "why_tests_cant": "optimality is over all kicks, and the failing cases depend on the rank of parts of the matrix", "anchors": ["xtrack/trajectory_correction.py:_get_correction"]}
{"id": "C131", "title": "Reported radiative polarization", "statement": "The reported equilibrium polarization is the one of Derbenev and Kondratenko along the invariant spin direction: it does not change when the charge and all fields are reversed, and it is between -1 and 1. Depolarization only makes the build-up faster.", "quantifier": "all rings (spin directions and their derivatives, curvatures, fields), energies and charges", "why_tests_cant": "needs every ring and both charges; references exist only for few rings, all with positive charge", "anchors": ["xtrack/twiss/spin.py:_add_spin_polarization"]}
{"id": "C132", "title": "Energy loss and damping with radiation", "statement": "The reported energy loss is the radiated energy. The partition numbers add up to four, the damping rates are those given by energy loss and partition numbers, the damping constants of the modes add up to the contraction of phase space, and the emittances from kicks and from radiation integrals agree.", "quantifier": "all rings, numbers of elements, energies and masses", "why_tests_cant": "identities between real numbers for all rings; a comparison of numbers holds for one ring to some tolerance", "anchors": ["xtrack/twiss/radiation.py:_get_eneloss_and_damping_rates", "xtrack/twiss/radiation.py:_compute_radiation_integrals", "xtrack/twiss/radiation.py:_extract_sr_distribution_properties", "xtrack/twiss/radiation.py:_get_equilibrium_emittance_kick_as_co"]}
{"id": "C133", "title": "Equilibrium beam with radiation", "statement": "A beam with the reported equilibrium covariance matrix does not change in a turn with damping and diffusion, every beam tends to the reported emittances, and the matrix at the end of the ring is the one at its start, in the canonical coordinates.", "quantifier": "all damped one-turn matrices, diffusions and starting beams", "why_tests_cant": "stationarity and limits over infinitely many turns for all rings", "anchors": ["xtrack/twiss/radiation.py:_get_equilibrium_emittance_full"]}
{"id": "C134", "title": "A footprint reports the tune of every particle of its grid", "statement": "line.get_footprint(...) places particles on the requested grid (polar: radius times cosine and sine of the angle, in equal steps; uniform_action_grid: actions in equal steps), and the entries qx, qy in a row and column are the tunes of the particle which started at that row and column, whatever the size of the chunks in which the spectra are computed. The tune is the frequency of the strongest line of the motion, does not depend on the closed orbit, and for a motion with a single line is the fractional tune.", "quantifier": "all ranges, numbers of points, motions, chunk sizes, closed orbits, amplitudes, phases and tunes", "why_tests_cant": "A test compares a few tunes of one machine, with a fractional part below one half; the orthogonality of the lines, the index arithmetic between grid, chunk and spectrum, and the fold at one half hold or fail for all of them", "anchors": ["xtrack/footprint.py:Footprint", "xtrack/footprint.py:_get_footprint"]}
{"id": "C135", "title": "The stability diagram is one over the dispersion integral", "statement": "Footprint.get_stability_diagram returns for each coherent tune Q one over the integral of J exp(-Jx - Jy)/(Q - q(Jx, Jy) + i eps) over the actions of the grid, J being the action of the plane asked for, with the trapezoidal rule; the imaginary part is positive as documented; the adaptive choice of eps ends after at most max_iter rounds, with a value not below min_epsilon, and is consistent with the point returned up to the tolerance.", "quantifier": "all grids, numbers of points, tables of tunes, coherent tunes, values of epsilon, tolerances", "why_tests_cant": "A test draws the diagram of one footprint with equal grids in both planes; an exchanged axis, a sign or a stopping rule shows up only with different grids and tables", "anchors": ["xtrack/footprint.py:get_stability_diagram", "xtrack/footprint.py:_get_tune_shift", "xtrack/footprint.py:_get_tune_shift_adaptive_epsilon"]}
{"id": "C136", "title": "A footprint rescaled on a knob is the footprint at the value of the knob", "statement": "With linear_rescale_on_knobs, where the tunes depend linearly on the knob, the footprint has the tunes at the present value of the knob; if the two footprints it is computed from have errors of at most h, the error is at most h(|1-t|+|t|), t being the distance from v0 in units of dv, hence at most h for values between v0 and v0+dv.", "quantifier": "all tunes linear in the knob, values v0, dv different from zero, values of the knob, errors", "why_tests_cant": "A test has one knob and one step; the amplification of the error with the distance holds for all of them", "anchors": ["xtrack/footprint.py:LinearRescale", "xtrack/footprint.py:_footprint_with_linear_rescale"]}
{"id": "C137", "title": "Elements survive being written to a dictionary and read back", "statement": "For every beam element e, Class.from_dict(e.to_dict()) is an element with the same values: strengths of every order (up to 1e-16), numbers of strengths, position and tilt, taper, flags, durations, chromaticities, associated aperture, extra data and prototype. Every element can be written, and reading the same dictionary twice gives the same element twice.", "quantifier": "all values of all fields, all orders and lengths of the arrays, whichever defaults are left out of the dictionary", "why_tests_cant": "Each class has its own constructor with derived fields; a test writes one instance of some classes with few fields set, and the lost values are those which are not set in the test", "anchors": ["xtrack/base_element.py:BeamElement.to_dict", "xtrack/beam_elements/_common.py:_HasKnlKsl.to_dict", "xtrack/beam_elements/dipole_edge.py:DipoleEdge.to_dict", "xtrack/beam_elements/magnet_edge.py:MagnetEdge.to_dict", "xtrack/beam_elements/exciter.py:Exciter", "xtrack/beam_elements/acdipole.py:ACDipole", "xtrack/beam_elements/line_segment_map.py:LineSegmentMap", "xtrack/beam_elements/rotation.py:Rotation.to_dict"]}
{"id": "C138", "title": "Lines and environments survive being written and read, and being copied", "statement": "Every line can be written with to_dict or to_json; from_dict then gives a line with the same elements in the same order, the same flags and the same composer, in both modes. A copy, deep or shallow, has the same elements in the same order. Every line of an environment stands for the same elements after writing and reading the environment, and after env.copy(). include_version=False leaves the version out.", "quantifier": "all lines in both modes, all components, all environments and orders of their lines", "why_tests_cant": "Depends on the mode, on what the components are and on the order in which lines were defined; tests save a few lines made of elements", "anchors": ["xtrack/line.py:Line.to_dict", "xtrack/line.py:Line.from_dict", "xtrack/line.py:Line.copy", "xtrack/line.py:Line.to_json", "xtrack/composer/composer.py:Composer.to_dict", "xtrack/composer/composer.py:Composer.from_dict", "xtrack/environment.py:Environment.from_dict"]}
{"id": "C139", "title": "A copy of a line is independent of the line", "statement": "Whatever is done with a (deep) copy of a line, the line keeps its configuration, its metadata and its elements, and whatever is done with the line, the copy keeps its own.", "quantifier": "all lines and all sequences of operations on the line or on the copy", "why_tests_cant": "Sharing only shows when a particular container is edited after copying; it needs all histories of edits", "anchors": ["xtrack/line.py:Line.copy", "xtrack/line.py:Line.twiss_default", "xtrack/environment.py:Environment.import_line"]}
{"id": "C140", "title": "Particles follow the energy program", "statement": "In a line with an energy program, turn number and time agree at the points of the program (the turn number grows by the time times the mean velocity over the circumference), at constant velocity every turn begins at its number times the revolution time, and at the start of each turn the particles get the momentum of the program at that time. This stays so after the line is copied and after its environment is written and read.", "quantifier": "all programs (points, velocities, circumferences), all turns, all histories of turns, all environments", "why_tests_cant": "Tests ramp one line with float times and do not copy it; the owner of the program is a hidden state", "anchors": ["xtrack/line.py:EnergyProgram", "xtrack/line.py:Line.energy_program", "xtrack/line.py:Line.copy", "xtrack/line.py:Line.from_dict", "xtrack/tracker.py:Tracker._handle_time_dependent_vars"]}
{"id": "C141", "title": "An element made from another one is what was given for it", "statement": "After any sequence of env.new (from a class or from another element), env.set, assignments to variables and removals, every attribute of every element has the value of its own definition: the number or expression last given for it, else what its prototype was defined to be when it was created, else the default of its class. In particular a number given at creation stays whatever is later assigned to the variables.", "quantifier": "All sequences of calls, all elements, attributes, expressions and values of the variables", "why_tests_cant": "The failure appears only when a variable is changed after the creation, and depends on the whole history of the name and of its prototype; tests look at the value immediately after the creation.", "anchors": ["xtrack/environment.py:Environment.new", "xtrack/environment.py:_set_kwargs", "xtrack/environment.py:_copy_element_from", "xtrack/environment.py:_parse_kwargs"]}
{"id": "C142", "title": "Expressions written to MAD-X are read back with the same value", "statement": "An expression of a variable or an element attribute which is written by to_madx_sequence and read back by xt.load keeps its value for every value of the variables it depends on; and reading gives the operators of MAD-X their usual precedence and order.", "quantifier": "all expressions (nested operations, calls, names, numbers) and all values of the variables", "why_tests_cant": "The writer strips characters from the ends of a printed formula and the reader has a grammar with precedences: a test checks a few formulas, the failures need a particular function at the outermost place or names which differ in case", "anchors": ["xtrack/mad_writer.py:expr_to_mad_str", "xtrack/mad_writer.py:mad_str_or_value", "xtrack/mad_parser/parse.py:MadxTransformer", "xtrack/mad_parser/madx.lark"]}
{"id": "C143", "title": "Lines of MAD-X files have their elements in the order of MAD-X", "statement": "A line defined in a MAD-X file by names, repetitions n*x, reflections -x and inner parentheses, arbitrarily nested and using lines defined before, contains after xt.load the elements in the order of MAD-X; and if apertures are installed, each one directly precedes its element.", "quantifier": "all files of line definitions, all nestings, repetition counts and signs", "why_tests_cant": "The definitions are recursive and combine repetition, reflection, nesting and references; tests contain a handful of combinations", "anchors": ["xtrack/mad_parser/loader.py:_parse_line_components", "xtrack/mad_parser/loader.py:_parse_lines", "xtrack/mad_parser/parse.py:line_element", "xtrack/mad_parser/parse.py:Modifiers"]}
{"id": "C144", "title": "The algebra of lines", "statement": "For lines and builders -a has the elements in reverse order, -(-a) is a, a + b and a - b are a followed by b or by -b, and n*a is a repeated n times, for builders in compose mode as for lines; and what is built from a sum has the contents of the summands in order.", "quantifier": "all lines and builders, nested to any depth, all counts", "why_tests_cant": "Combinations of the operations act on nested descriptions which are expanded only when the line is built; a test fixes a few combinations", "anchors": ["xtrack/line.py:__rmul__", "xtrack/line.py:__neg__", "xtrack/line.py:__add__", "xtrack/line.py:mirror", "xtrack/composer/composer.py:Composer", "xtrack/composer/composer.py:_flatten_components"]}
{"id": "C145", "title": "Elements of MAD-X files have the parameters given last", "statement": "An element of a MAD-X file, defined through any chain of classes, its own definition and later assignments, has after xt.load for each attribute the value given last for the corresponding key in the units and with the sign of xtrack, or zero; the exit fringe integral is fintx, and fint if fintx was never given; a bend takes its field from its angle if and only if no nonzero k0 was given; the strengths of multipoles are those given by knl or by the keys k0l, k1l, ....", "quantifier": "all chains of definitions and assignments, all types of elements and keys, values given as numbers or expressions", "why_tests_cant": "Inheritance chains of any length with any subset of the keys in each link: the failures need a literal zero, or fint without fintx, after another value", "anchors": ["xtrack/mad_parser/loader.py:_convert_element_params", "xtrack/mad_parser/loader.py:_new_element", "xtrack/mad_parser/loader.py:_set_element", "xtrack/mad_parser/loader.py:get_params"]}
{"id": "C146", "title": "A line written as a MAD-X sequence comes back the same", "statement": "When a line is written with to_madx_sequence and the text is read with xt.load, every element comes back with the same strengths, lengths, edges, voltages, phases, tilts and displacements, at the same place, and the slices of an element add up to it.", "quantifier": "all lines of straight magnets, bends, cavities, crab cavities, correctors, thin multipoles and slices, all values of their attributes", "why_tests_cant": "Attributes are converted one by one with special cases for zero values and for the numbers of components; tests compare a few lattices in which the special values do not occur", "anchors": ["xtrack/mad_writer.py:to_madx_sequence", "xtrack/mad_writer.py:bend_to_mad_str", "xtrack/mad_writer.py:quadrupole_to_mad_str", "xtrack/mad_writer.py:cavity_to_mad_str", "xtrack/mad_writer.py:crabcavity_to_mad_str", "xtrack/mad_writer.py:multipole_to_mad_str", "xtrack/mad_writer.py:_knl_ksl_to_mad", "xtrack/mad_parser/loader.py:_convert_element_params"]}
{"id": "C147", "title": "Apertures of elements of MAD-X files", "statement": "The aperture associated with an element of a MAD-X file has the apertype and the dimensions given last in the chain of its classes, its own definition and the assignments to it; a circle if no type was given, none if no dimensions were given.", "quantifier": "all chains of definitions and assignments, all types and dimensions", "why_tests_cant": "Each statement can give type, dimensions, both or none, as definition or assignment; the failures need particular combinations over several statements", "anchors": ["xtrack/mad_parser/loader.py:_build_aperture", "xtrack/mad_parser/loader.py:_new_element", "xtrack/mad_parser/loader.py:_set_element"]}
{"id": "C148", "title": "Statements of MAD-X files act in their order", "statement": "Loading a MAD-X file gives every element the parameters which result from doing its definitions and assignments one after the other, every variable assigned with = the value of its right-hand side, and every sequence the beam attached to it or else the default beam.", "quantifier": "all files of definitions, assignments, variables and beams, of any length and in any order", "why_tests_cant": "The loader collects statements by kind and applies them kind by kind; whether that is the same depends on the order in the whole file", "anchors": ["xtrack/mad_parser/loader.py:load_parsed_dict", "xtrack/mad_parser/loader.py:_parse_elements", "xtrack/mad_parser/loader.py:_parse_parameters", "xtrack/mad_parser/loader.py:_parse_beam", "xtrack/mad_parser/parse.py:top_level_clone", "xtrack/mad_parser/parse.py:top_level_command", "xtrack/mad_parser/parse.py:op_arrow"]}
{"id": "C149", "title": "The aperture computed at a position does not depend on the other positions asked for", "statement": "For every aperture model, `cross_sections_at_s(positions)` and `poses_at_s(positions)` return for each position the cross-section and the pose that belong to that position: the same as if only this position had been asked for.", "quantifier": "all lines and rings, all bounds of profiles, all lists of positions in any order", "why_tests_cant": "Tests ask for positions in increasing order; the result at one position must not depend on which others are in the list, for every list.", "anchors": ["xtrack/aperture/aperture.py:cross_sections_at_s", "xtrack/aperture/aperture.py:poses_at_s", "xtrack/aperture/headers/survey_tools.h:resample_survey"]}
{"id": "C150", "title": "An aperture profile is found wherever it sits along the survey", "statement": "A profile installed in the aperture model obtains a longitudinal position whenever its plane meets some segment of the survey, whatever element it was referred to.", "quantifier": "all numbers of survey segments, all positions of the reference, lines and rings, all placements of the profile", "why_tests_cant": "The search starts at the reference and alternates sides; whether every segment is visited depends on the starting index for all lengths.", "anchors": ["xtrack/aperture/headers/zigzag_iterate.h:zigzag", "xtrack/aperture/aperture.py:get_bounds_table"]}
{"id": "C151", "title": "Cuts requested with a resolution are at most the resolution apart", "statement": "Asked for the cross-sections along an element with a resolution, the aperture model returns positions from the entrance to the exit of the element with neighbours at most the resolution apart.", "quantifier": "all lengths of elements, all resolutions", "why_tests_cant": "Tests use one pair of length and resolution; the number of points and its rounding matter for every ratio.", "anchors": ["xtrack/aperture/aperture.py:_get_cuts_at_element"]}
{"id": "C152", "title": "Intervals of positions on a ring cover what they should", "statement": "The interval reported for a set of positions on a ring contains them all and is the shortest such arc; an interval given by its start and its end is cut at the end of the line into pieces which together contain exactly the positions of the arc from start to end, including the whole ring.", "quantifier": "all lengths of ring, all sets of positions, all pairs of start and end, all tolerances", "why_tests_cant": "Wrapping has boundary cases (points at the seam, ends which coincide modulo the length) which hold or fail only when all starts and ends are considered; minimality is a statement about all arcs.", "anchors": ["xtrack/aperture/aperture.py:_shortest_circular_interval", "xtrack/aperture/aperture.py:_split_wrapped_s_interval", "xtrack/aperture/aperture.py:s_around_transitions"]}
{"id": "C153", "title": "Optics for aperture computations come from the nearest row", "statement": "For every requested position, the optics used in the aperture computation are those of a row of the table such that no other row is nearer to the position.", "quantifier": "all optics tables ordered in s (with repeated positions), all requested positions", "why_tests_cant": "The choice between neighbours, with repeated rows and positions beyond both ends, must be right for every table.", "anchors": ["xtrack/aperture/aperture.py:_sliced_twiss_at_s"]}
{"id": "C154", "title": "A point is inside the aperture cross-section exactly when it is reported so", "statement": "For every convex cross-section and every point, the aperture computation treats the point as inside if it lies in the interior and as outside if it lies in the exterior; for every cross-section, convex or not, a point outside its bounding box is outside, and the answer does not change when both are displaced or when further points are put on the sides.", "quantifier": "all polygons, all numbers of corners, all points", "why_tests_cant": "The ray test has special cases at corners and horizontal sides; correctness is a statement about all polygons and all points.", "anchors": ["xtrack/aperture/headers/polygon_algs.h:is_point_inside_polygon_points", "xtrack/aperture/headers/polygon_algs.h:points_inside_polygon_points"]}
{"id": "C155", "title": "The beam envelope has the shape asked for by the halo parameters", "statement": "The envelope has the horizontal, vertical and radial extents given by the halo parameters of the beam; scaling by the number of sigmas scales the shape, and the envelope with tolerances is the set of sums of points of the beam and of the tolerance shape.", "quantifier": "all halo sizes, beam sizes and tolerances", "why_tests_cant": "Tests compare a few parameter sets; the equations have solutions only in a range, and the sum of shapes is a statement about all points.", "anchors": ["xtrack/aperture/headers/beam_aperture.h:beam_racetrack", "xtrack/aperture/headers/polygon_algs.h:add_racetracks", "xtrack/aperture/headers/polygon_algs.h:scale_racetrack"]}
{"id": "C156", "title": "The extent of the beam in a direction is exact", "statement": "For every racetrack shape with rounded corners and every direction, the radius used in the aperture computation is the distance up to which points in this direction belong to the shape; the number of sigmas found for a direction makes the envelope reach the aperture there.", "quantifier": "all racetracks, all angles", "why_tests_cant": "Which of three formulas applies changes with the angle; exactness must hold at every angle and in particular where they meet.", "anchors": ["xtrack/aperture/headers/polygon_algs.h:racetrack_radius_at_angle", "xtrack/aperture/headers/beam_aperture.h:compute_n1_for_point"]}
{"id": "C157", "title": "The bisection returns the largest beam which fits", "statement": "With method bisection, `get_aperture_sigmas_at_s` returns a number of sigmas for which the beam fits, such that no number larger by more than the tolerance does, within the limits of the search; the search always ends.", "quantifier": "all apertures for which smaller beams fit wherever larger ones do, all limits and tolerances", "why_tests_cant": "The result of a search depends on the whole history of comparisons; the bound on the error must hold for every aperture.", "anchors": ["xtrack/aperture/headers/beam_aperture.h:max_aperture_sigma_bisect_one_slice"]}
{"id": "C158", "title": "Distances to the aperture along rays are those of the wall", "statement": "The distance to the aperture in a direction is the smallest one at which the ray from the centre of the beam meets the wall, whichever edge the search begins with and whether or not the cross-section is convex; a beam with its centre outside of the aperture does not fit.", "quantifier": "all polygons, all origins, all directions, all starting edges", "why_tests_cant": "Tests use a few shapes with the origin inside; shortcuts for convex shapes and edges parallel to the ray must be right for every polygon.", "anchors": ["xtrack/aperture/headers/polygon_algs.h:dist_to_poly_along_ray", "xtrack/aperture/headers/polygon_algs.h:polygon_is_convex"]}
{"id": "C159", "title": "The extents of the aperture on the axes are those of its outline", "statement": "`min_x`, `max_x`, `min_y` and `max_y` of a cross-section are the extreme coordinates at which its outline meets the axes, and are not numbers exactly when it does not meet them.", "quantifier": "all polygons", "why_tests_cant": "Corners and sides on the axis are special cases; extremality is a statement about all points of the outline.", "anchors": ["xtrack/aperture/headers/cross_sections.h:update_axis_extents_for_segment"]}
{"id": "C160", "title": "Poses of profiles and pipes are rigid motions and can be read back", "statement": "What the aperture model makes of shifts and rotation angles is a rotation and a shift, which keeps distances; its inverse undoes it; the shifts and angles read from a pose make the same pose again.", "quantifier": "all shifts, all angles, all rigid motions", "why_tests_cant": "Identities between products of sines and cosines must hold for all angles, and the reading has a singular case which random tests do not meet.", "anchors": ["xtrack/aperture/headers/base.h:transform_to_matrix", "xtrack/aperture/headers/base.h:matrix_to_transform", "xtrack/aperture/headers/base.h:pose_inverse_rigid", "xtrack/aperture/transform.py:matrix_to_transform"]}
{"id": "C161", "title": "Poses within bent elements lie on the reference curve", "statement": "The pose at a position within an element is a rigid motion; going on from it along the rest of the element is the same as going there at once; it sits on the curve with which the planes of the aperture profiles are intersected.", "quantifier": "all starts, lengths, angles, tilts, positions", "why_tests_cant": "Consistency of three different formulas for the same arc, at every position.", "anchors": ["xtrack/aperture/headers/survey_tools.h:survey_arc_matrix", "xtrack/aperture/headers/survey_tools.h:interpolate_survey_table_entry", "xtrack/aperture/headers/segment3d.h:arc_segment_point_at"]}
{"id": "C162", "title": "Profiles are installed where their plane meets the reference curve", "statement": "The position found for a profile on a straight or bent element is on the plane of the profile; if the plane meets the element it is found, and of several intersections with the circle of a bend the one closest to the element is returned.", "quantifier": "all segments, all arcs including those of more than a turn, all planes", "why_tests_cant": "Solutions of a trigonometric equation come in infinite families, which a search over six candidates of each has to cover.", "anchors": ["xtrack/aperture/headers/segment3d.h:line_segment_plane_intersect", "xtrack/aperture/headers/segment3d.h:arc_segment_plane_intersect"]}
{"id": "C163", "title": "The closest point of the reference curve is the closest", "statement": "The position to which a point of a profile is assigned on an element is that of the closest point of the line or circle of the element.", "quantifier": "all points, all segments", "why_tests_cant": "Minimality is a statement about all points of the curve.", "anchors": ["xtrack/aperture/headers/segment3d.h:closest_t_on_line_segment", "xtrack/aperture/headers/segment3d.h:closest_t_on_arc_segment"]}
{"id": "C164", "title": "Coordinates along a bent pipe are inverse to each other, and walls are cut where they meet the plane", "statement": "Points come back from the coordinates along the bent axis of a pipe, and the coordinates are found again from the point; a plane cuts the wall between two profiles at a point of the plane.", "quantifier": "all points, all curvatures of both signs, all planes", "why_tests_cant": "Quadrants and signs of the curvature have to fit together for all points.", "anchors": ["xtrack/aperture/headers/convert_curvilinear.h", "xtrack/aperture/headers/cross_sections.h:intersect_segment_with_plane_and_project_xy"]}
{"id": "C165", "title": "Tolerances of the aperture are interpolated between the profiles", "statement": "On a ring a position is taken relative to a profile as the closest of its equivalents. The mechanical tolerance at a position is between those of the neighbouring profiles of the pipe, and between them it changes linearly, whichever of the two the search found.", "quantifier": "all positions, rings, profiles and tolerances", "why_tests_cant": "Minimality over all turns and bounds for all positions.", "anchors": ["xtrack/aperture/headers/cross_sections.h:normalize_s_near_reference", "xtrack/aperture/headers/cross_sections.h:interpolate_aperture_tolerances_at_s"]}
{"id": "C166", "title": "The order of the profiles follows their positions up to the tolerance", "statement": "Sorting the profiles by position loses and doubles none, and none comes before another one which is by more than the tolerance upstream; this stays so when profiles of a pipe are moved together; two pipes which overlap by no more than the tolerance come one after the other, however they were mixed.", "quantifier": "all lists of profiles, positions, pipes, tolerances", "why_tests_cant": "The moves are repeated, and each may destroy what another one reached; only an invariant covers all lists.", "anchors": ["xtrack/aperture/structures.py:ApertureBounds.sort_by_s", "xtrack/aperture/structures.py:ApertureBounds.reorder_for_tolerated_pipe_overlaps"]}
{"id": "C167", "title": "Overlapping pipes are reported exactly if there are any", "statement": "The aperture model is refused exactly if two pieces of pipe overlap by more than the tolerance.", "quantifier": "all lists of pieces longer than the tolerance", "why_tests_cant": "A sweep over sorted pieces compares each with one number only, and must be right about all pairs.", "anchors": ["xtrack/aperture/aperture.py:_check_pipe_bounds_validity"]}
{"id": "C168", "title": "The outline of a profile is the boundary of its shape", "statement": "For circles, rectangles, ellipses, rectangles cut by ellipses, racetracks and octagons with sizes which make sense, the outline is closed, all points asked for are written, they are at equal distances along the outline, and every one of them is on the boundary of the region the shape stands for: inside, with everything behind it outside.", "quantifier": "all shapes, sizes and numbers of points", "why_tests_cant": "The outline has different pieces for different proportions; each boundary point must satisfy inequalities for all angles.", "anchors": ["xtrack/aperture/headers/path.h:segments_from_rectellipse", "xtrack/aperture/headers/path.h:segments_from_racetrack", "xtrack/aperture/headers/path.h:segments_from_octagon", "xtrack/aperture/headers/path.h:poly_get_n_uniform_points", "xtrack/aperture/headers/profile.h"]}
{"id": "C169", "title": "Aperture models made from limit elements agree with tracking", "statement": "At a limit element of a line the aperture model made from the line has, in the plane of the element, exactly the region in which particles survive tracking through the element, with its shifts and rotations.", "quantifier": "all limit elements, shifts, rotations and particles", "why_tests_cant": "Equality of two regions computed by unrelated code.", "anchors": ["xtrack/aperture/aperture.py:Aperture.from_line_with_limits", "xtrack/aperture/profile_converters.py:profile_from_limit_element", "xtrack/headers/track_local_particle_with_transformations.h"]}
{"id": "C170", "title": "The pipe of an associated aperture belongs to the element", "statement": "In an aperture model made from associated apertures every element has a pipe of its own length and curvature.", "quantifier": "all lines and assignments of apertures to elements", "why_tests_cant": "Depends on all elements which share an aperture.", "anchors": ["xtrack/aperture/aperture.py:Aperture.from_line_with_associated_apertures"]}
{"id": "C171", "title": "Apertures of MAD-X are the same in the aperture model and in the line", "statement": "The shape which the aperture model makes of an aperture of MAD-X is the region of the limit element which the loader makes of it; parameters beyond those of the shape are reported and apertures with zero parameters ignored.", "quantifier": "all shapes and parameters", "why_tests_cant": "Equality of regions for all parameters, of two converters.", "anchors": ["xtrack/aperture/profile_converters.py:profile_from_madx_aperture", "xtrack/mad_parser/loader.py:MadxLoader"]}
{"id": "C172", "title": "The beam statistics monitor counts each particle in its slice, bunch and turn", "statement": "After any sequence of passages, the sum stored for a turn, bunch and slice is the sum over exactly the living particles with an id in the range which passed in a recorded turn, belong to the selected bunch and are inside the slice; the order of the particles does not matter, and nothing is counted twice.", "quantifier": "all configurations, beams and sequences of passages", "why_tests_cant": "Concerns all interleavings of particles and turns and all positions, also on edges of slices.", "anchors": ["xtrack/monitors/beam_stats_monitor.h", "xtrack/monitors/beam_stats_monitor/beam_stats_monitor.py:BeamStatsMonitor"]}
{"id": "C173", "title": "Particles of a coasting beam are counted in the turn in which they really pass", "statement": "In a coasting beam a particle is counted in the turn and slice of its position on the unrolled ring, and every particle has exactly one such turn and slice.", "quantifier": "all positions, also several turns ahead or behind", "why_tests_cant": "Floor and remainder for all positions and lengths.", "anchors": ["xtrack/monitors/beam_stats_monitor.h", "xtrack/monitors/beam_stats_monitor/beam_stats_monitor.py:BeamStatsMonitor"]}
{"id": "C174", "title": "Sums at the level of bunches and of the beam are the sums over their particles", "statement": "Statistics of a bunch obtained from slices, and of the beam obtained from bunches or slices, are those of all the particles of the bunch or the beam.", "quantifier": "all configurations and beams", "why_tests_cant": "Needs that the slices cover and do not overlap, for all positions.", "anchors": ["xtrack/monitors/beam_stats_monitor/beam_stats_monitor.py:BeamStatsMonitor._moments_at_level"]}
{"id": "C175", "title": "The reported positions of slices are the centres of the slices", "statement": "A particle is counted in the slice whose reported centre is nearest: at most half a slice away; the reported turns are the turns recorded.", "quantifier": "all configurations and positions", "why_tests_cant": "For all positions of particles and numbers of slices.", "anchors": ["xtrack/monitors/beam_stats_monitor/beam_stats_monitor.py:BeamStatsMonitor.zeta_centers", "xtrack/monitors/beam_stats_monitor.h"]}
{"id": "C176", "title": "Statistics obtained from the stored sums are those of the particles", "statement": "Means, covariances, sizes and emittances computed from the stored sums are the weighted mean, covariance, standard deviation and emittance of the particles counted; sizes and emittances are real; emittances do not change under linear maps of determinant one.", "quantifier": "all beams with positive total weight", "why_tests_cant": "Identities and inequalities (Cauchy-Schwarz) over all beams.", "anchors": ["xtrack/monitors/beam_stats_monitor/beam_stats_monitor.py:_compute_stat"]}
{"id": "C177", "title": "Whatever statistic is asked for, the sums it needs are stored", "statement": "For every accepted list of statistics the monitor stores all the sums from which each statistic of the list is computed; unknown names are refused.", "quantifier": "all lists of statistics", "why_tests_cant": "All lists of names.", "anchors": ["xtrack/monitors/beam_stats_monitor/beam_stats_monitor.py:_moments_for_stats"]}
{"id": "C178", "title": "Profiles count each particle in the bin of its coordinate", "statement": "The count in a bin of a profile is the total weight of the particles counted by the monitor in that turn and bunch or slice whose coordinate is between the reported edges of the bin; the counts of a profile sum up to at most the total weight.", "quantifier": "all configurations, beams and sequences of passages", "why_tests_cant": "For all coordinates, also on the edges, and all interleavings.", "anchors": ["xtrack/monitors/beam_stats_monitor.h", "xtrack/monitors/beam_stats_monitor/beam_stats_monitor.py:BeamStatsMonitor.profile_bin_edges"]}
{"id": "C179", "title": "The output file of the beam statistics monitor is a record of the turns", "statement": "Whatever is recorded, whatever frames are started and however often the monitor is saved, the turns in the output file are strictly increasing, saving twice adds nothing, each row is what the monitor reported for that turn, and a save either adds a row to all datasets or to none.", "quantifier": "all histories of recording, starting frames and saving", "why_tests_cant": "Concerns all histories of events.", "anchors": ["xtrack/monitors/beam_stats_monitor/hdf5.py:save_to_file", "xtrack/monitors/beam_stats_monitor/hdf5.py:_validate_hdf5_file", "xtrack/monitors/beam_stats_monitor/beam_stats_monitor.py:BeamStatsMonitor.start_new_frame"]}
{"id": "C180", "title": "The closed orbit which is found is closed", "statement": "A particle returned by the search for the closed orbit comes back to its coordinates after the turns asked for, up to the tolerances and the shift of zeta asked for; with a given delta or zeta it has that delta or zeta; a guess on the closed orbit is taken as it is; if none is found an exception is raised.", "quantifier": "all lines, guesses, shifts, given values and outcomes of the optimizer", "why_tests_cant": "Must hold for every map and every path of the two attempts.", "anchors": ["xtrack/twiss/closed_orbit.py:find_closed_orbit_line", "xtrack/twiss/closed_orbit.py:_one_turn_map", "xtrack/twiss/closed_orbit.py:_merit_function_co_t_rev"]}
{"id": "C181", "title": "A closed orbit searched elsewhere is the closed orbit at the start", "statement": "With co_search_at the particle returned is at the start of the line and on the closed orbit there, and its spin comes back after a turn.", "quantifier": "all lines and places of the search", "why_tests_cant": "Must hold for every line and place.", "anchors": ["xtrack/twiss/closed_orbit.py:find_closed_orbit_line", "xtrack/twiss/spin.py:_find_spin_fixed_point"]}
{"id": "C182", "title": "Backtracking through a SplineBoris element undoes tracking", "statement": "A particle which got through a SplineBoris element and is tracked back through it has exactly the coordinates it began with.", "quantifier": "all fields, shifts, scales, numbers of steps and particles", "why_tests_cant": "Must hold for every field and particle; a test compares a few within tolerances.", "anchors": ["xtrack/beam_elements/elements_src/track_splineboris.h:SplineBoris_single_particle"]}
{"id": "C183", "title": "Splines take the given values", "statement": "The function along s made from the five numbers of a spline has the given values and slopes at both ends of the element and the given mean over it.", "quantifier": "all splines and lengths", "why_tests_cant": "Must hold for all numbers; it is an identity of polynomials.", "anchors": ["xtrack/beam_elements/splineboris_src/spline_B_field_eval.h:hermite_to_polynomial", "xtrack/beam_elements/splineboris_src/spline_B_field_eval.h:poly_compose", "xtrack/beam_elements/splineboris.py:Spline4"]}
{"id": "C184", "title": "A SplineBoris element agrees with motion known exactly", "statement": "Without field a particle moves through a SplineBoris element as through an exact drift; in a uniform field it gets the kick of the integrated field according to its charge and mass; a particle which cannot get through is not reported as having got through.", "quantifier": "all lengths, numbers of steps, fields and particles of any charge and mass", "why_tests_cant": "Tests use the reference particle species and weak fields.", "anchors": ["xtrack/beam_elements/elements_src/track_splineboris.h:SplineBoris_single_particle", "xtrack/beam_elements/elements_src/track_drift.h:Drift_single_particle_exact"]}
{"id": "C185", "title": "The field of a SplineBoris element is one which can exist", "statement": "At every point the field made from the splines has neither divergence nor curl; in the middle plane its transverse components are the Taylor series with the splines as derivatives, and on the axis the longitudinal one is its spline.", "quantifier": "all splines, all numbers of splines from one to seven, all points", "why_tests_cant": "Generated expressions with hundreds of terms; a test samples a few points of a few fields.", "anchors": ["xtrack/beam_elements/splineboris_src/spline_B_field_eval.h:evaluate_B"]}
{"id": "C186", "title": "An electron cooler cools", "statement": "Inside the beam of electrons an electron cooler changes the momentum of a particle exactly against its velocity relative to the electrons there, so that faster particles are slowed down, slower ones accelerated and those which move with the electrons left alone; outside it nothing changes; the recorded force times the time spent in the cooler is the change of the momentum; the force goes with the square of the charge of the particle.", "quantifier": "all coolers, reference particles, species and particles", "why_tests_cant": "Must hold for every setting of a dozen parameters; tests compare a curve for one cooler.", "anchors": ["xtrack/beam_elements/elements_src/electroncooler.h:ElectronCooler_track_local_particle", "xtrack/beam_elements/electron_cooler.py:ElectronCooler"]}
{"id": "C187", "title": "Tracking with collective elements leaves the particles as found", "statement": "After tracking a line with collective elements the lost particles in the particles object are as visible or hidden as before the call, the object lives in the same context and buffer as before, and the monitor at several elements has recorded everything tracked; also if tracking starts or stops inside the line, and if it is put on hold and resumed.", "quantifier": "all lines of collective and other elements, with any needs for the CPU or for hidden lost particles, all first and last elements, numbers of turns, and histories of holds", "why_tests_cant": "The combinations of parts, first and last elements and holds are unbounded; tests track from the beginning to the end.", "anchors": ["xtrack/tracker.py:Tracker._track_with_collective", "xtrack/tracker.py:Tracker._prepare_particles_for_part", "xtrack/tracker.py:Tracker._track_part", "xtrack/tracker.py:Tracker.resume"]}
{"id": "C188", "title": "A dictionary can be read again", "statement": "Reading a line, environment or table from a dictionary gives what was written, and reading the same dictionary again gives the same again; what is done with one of the results is not seen in the other.", "quantifier": "all dictionaries written from environments with any functions, from tables with any attributes, from elements, and ancient dictionaries of lines", "why_tests_cant": "Holds for the first reading of every dictionary, and tests read once; whether the second reading differs depends on what is in the dictionary.", "anchors": ["xtrack/functions.py:Functions.from_dict", "xtrack/table.py:Table.from_dict", "xtrack/table.py:Table._deserialize_attr_value", "xtrack/line.py:Line.from_dict", "xtrack/line.py:_deserialize_element", "xtrack/environment.py:Environment.from_dict"]}
{"id": "C189", "title": "A table survives being written to an HDF5 file and read again", "statement": "Reading the HDF5 file written by to_hdf5 gives a table with the same columns and attributes in the same order with the same values, with or without a group; other tables in the file are left alone; every table can be written.", "quantifier": "all tables, files with any tables in them, names of groups, paths and open files", "why_tests_cant": "Must hold for every kind of column and attribute and any earlier contents of the file; only twiss tables with the default group are tested.", "anchors": ["xtrack/table.py:Table.to_hdf5", "xtrack/table.py:Table.from_hdf5", "xtrack/table.py:Table._resolve_hdf5_target", "xtrack/load.py:load"]}
{"id": "C190", "title": "A file called by an environment works on this environment", "statement": "Whatever a Python file called with env.call, and all files called from it, define in the environment they get from get_environment is in env, also if some of them fail; after the call, however it ends, get_environment gives a new environment.", "quantifier": "all files, nested to any depth, with any failures and interruptions", "why_tests_cant": "Nesting, failures and interruptions combine without bound; tests call single files.", "anchors": ["xtrack/environment.py:Environment.call", "xtrack/environment.py:get_environment"]}
{"id": "C191", "title": "xt.load reads what it is given", "statement": "The format of a file is known from its ending, in small or capital letters; the same data give the same from the disk, from the net, as a string or as a stream, compressed or not; a list of files is read in its order; options are passed to the reader.", "quantifier": "all names, data, formats, options and lists of files", "why_tests_cant": "Must hold for every name and every combination of source, format and options; tests load a few files.", "anchors": ["xtrack/load.py:load", "xtrack/load.py:_guess_format_from_path", "xtrack/json.py:load", "xtrack/general.py:read_url"]}
{"id": "C192", "title": "Renaming a variable changes nothing but its name", "statement": "After env.vars.rename(old, new) every variable and attribute has the value it had, the variable has its value and expression under the new name, the old name is gone, and all later changes of variables have the effect they would have had; a name already in use is not overwritten.", "quantifier": "all sets of variables and expressions, old and new names and all later assignments", "why_tests_cant": "Must hold for every net of expressions and every later assignment; tests rename one or two variables.", "anchors": ["xtrack/environment.py:EnvVars.rename", "xtrack/environment.py:EnvVars.__setitem__", "xtrack/environment.py:Environment._unregister_object"]}
{"id": "C193", "title": "Lines from sequences have their elements at the given positions", "statement": "Line.from_sequence makes a line of the given length with all elements in their order at the given positions (of entry, centre or exit), drifts between them, and names which are all different; it is an error exactly if elements overlap or do not fit; with auto_reorder the order of nodes does not matter.", "quantifier": "all sequences, names, naming schemes, positions, lengths and references", "why_tests_cant": "Must hold for every sequence and choice of names; tests build a few sequences.", "anchors": ["xtrack/line.py:Line.from_sequence", "xtrack/line.py:flatten_sequence", "xtrack/line.py:_next_name", "xtrack/line.py:Line.__init__"]}
{"id": "C194", "title": "Relative multipolar errors follow the strength of the magnet", "statement": "env.set_multipolar_errors adds to each component of knl and ksl the given relative error times the reference strength times the length, which follows later changes of strength and length; setting errors again replaces those set before; components without an error and elements not named are not touched.", "quantifier": "all elements, strengths, errors, reference strengths and later changes, and any number of calls", "why_tests_cant": "Must hold for every element and every history of calls; tests set errors once on a few magnets.", "anchors": ["xtrack/environment.py:Environment.set_multipolar_errors", "xtrack/environment.py:DEFAULT_REF_STRENGTH_NAME", "xtrack/view.py:View.__getitem__"]}
{"id": "C195", "title": "Loading variables gives those of the file in any order and leaves the settings", "statement": "env.vars.load and env.vars.update give every variable of the file or dictionary its value or expression, whatever their order; variables which are not in it keep theirs, and missing ones used by expressions are zero. Whether missing variables default to zero afterwards is as before, also if there was an error.", "quantifier": "all files, dictionaries, expressions, orders, environments and errors", "why_tests_cant": "Must hold for every file, order of entries and place of an error; tests load a few correct files.", "anchors": ["xtrack/environment.py:EnvVars.update", "xtrack/environment.py:EnvVars.load", "xtrack/environment.py:EnvVars.load_json", "xtrack/environment.py:EnvVars._load_madx", "xtrack/mad_parser/loader.py:MadxLoader"]}
{"id": "C196", "title": "A reversed line of a MAD-X file is the same machine seen the other way", "statement": "With reverse_lines the loaded line has its elements in reverse order, and each of them, in the frame with longitudinal and horizontal axes turned round, has the magnetic field, edges and aperture it had; this for elements which occur once or several times; elements outside the lines are not touched.", "quantifier": "all lines, elements, multipoles of any order, points, apertures and numbers of occurrences", "why_tests_cant": "Must hold for every element, multipole and number of occurrences; tests reverse one lattice.", "anchors": ["xtrack/environment.py:_reverse_element", "xtrack/mad_parser/loader.py:load_madx_lattice"]}
{"id": "C197", "title": "Optimising a line for tracking does not change what it does", "statement": "line.optimize_for_tracking leaves the result of tracking unchanged for every particle, whatever markers are kept and whether it completes or stops because a name is taken; afterwards no two neighbouring elements are drifts or thin multipoles which could be merged, and the markers left are exactly those to be kept.", "quantifier": "all lines, elements, lists of markers to keep and particles", "why_tests_cant": "Seven transformations of the line are composed, each working on what the one before has left; tests compare a few lattices and one species of particles.", "anchors": ["xtrack/line.py:Line.optimize_for_tracking"]}
{"id": "C198", "title": "Extending the order of the strengths changes no strength", "statement": "extend_knl_ksl of an environment or line gives every element named (or, without names, every element having knl and ksl) at least the order asked for, changes no strength and no other field, leaves all other elements alone, and raises only if an element named has no strengths.", "quantifier": "all environments, lines, lists of names with repetitions, orders and strengths", "why_tests_cant": "Must hold for all strengths, orders and lists of names; tests extend a few elements.", "anchors": ["xtrack/environment.py:Environment.extend_knl_ksl", "xtrack/line.py:Line.extend_knl_ksl", "xtrack/beam_elements/_common.py:_HasKnlKsl.to_dict"]}
