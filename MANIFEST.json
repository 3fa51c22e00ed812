{
 "claims": [
  {
   "property": "C01",
   "status": "proved",
   "theorems": [
    "Verif.Loss.C01_serial_tracking_refines_single_particle"
   ],
   "note": "Serial kernel over any elements, losses, turns; refinement to tracking each particle alone."
  },
  {
   "property": "C02",
   "status": "proved",
   "theorems": [
    "Verif.Loss.C02_openmp_any_schedule_refines_single_particle",
    "Verif.Loss.C02_schedules_exist",
    "Verif.Loss.C02_openmp_agrees_with_serial",
    "Verif.Loss.C02_count_violated_without_prefix"
   ],
   "note": "Any number of threads and any interleaving at per-element granularity; counters need allocated slots first (witness shows the need)."
  },
  {
   "property": "C51",
   "status": "proved",
   "theorems": [
    "Verif.Loss.C51_lost_location",
    "Verif.Loss.C51_survivor_location",
    "Verif.Loss.C51_independent_of_other_particles"
   ],
   "note": "Together with C01 and C02: location, turn and result of a particle do not depend on the other particles."
  },
  {
   "property": "C03",
   "status": "partial",
   "theorems": [
    "Verif.Particles.C03_reorganize_partial",
    "Verif.Particles.C03_reorganize_when_needed_partial",
    "Verif.Particles.C03_reorganize_violated"
   ],
   "note": "Records, order inside groups, counts and alive-first proved for all arrays; lost-before-unallocated fails when the alive particles are already in front (witness)."
  },
  {
   "property": "C04",
   "status": "partial",
   "theorems": [
    "Verif.Particles.C04_add_particles_partial",
    "Verif.Particles.C04_add_raises_iff",
    "Verif.Particles.C04_history_partial",
    "Verif.Particles.C04_add_violated_gap",
    "Verif.Particles.C04_add_violated_hidden"
   ],
   "note": "Proved for ordered, non-hidden objects and all histories of tracking, adding, reorganizing; two concrete violations proved."
  },
  {
   "property": "C05",
   "status": "proved",
   "theorems": [
    "Verif.Particles.C05_merge",
    "Verif.Particles.C05_filter",
    "Verif.Particles.C05_filter_raises_iff"
   ],
   "note": "Merge of objects whose lost particles are not hidden; filter on the visible arrays."
  },
  {
   "property": "C06",
   "status": "partial",
   "theorems": [
    "Verif.Particles.C06_sort_partial",
    "Verif.Particles.C06_sort_by_id",
    "Verif.Particles.exists_argsort",
    "Verif.Particles.C06_sort_violated"
   ],
   "note": "Sorting by particle_id has the property; sorting by another key can put lost particles first (witness, with the consequence that an alive particle is no longer tracked)."
  },
  {
   "property": "C07",
   "status": "proved",
   "theorems": [
    "Verif.Particles.C07_visible_when_hidden",
    "Verif.Particles.C07_hide_unhide_lossless"
   ],
   "note": ""
  },
  {
   "property": "C08",
   "status": "partial",
   "theorems": [
    "Verif.Energy.C08_operation_keeps_consistency",
    "Verif.Energy.C08_sequences_partial",
    "Verif.Energy.C08_relations",
    "Verif.Energy.C08_reference",
    "Verif.Energy.C08_constructor",
    "Verif.Energy.C08_violated_by_p0c_assignment"
   ],
   "note": "Real arithmetic. All sequences of C and Python operations that recompute the deviations; the plain assignment particles.p0c = v (also gamma0, beta0, energy0) leaves delta and ptau contradicting each other (witness)."
  },
  {
   "property": "C09",
   "status": "proved",
   "theorems": [
    "Verif.Energy.C09_delta_ptau_inverse"
   ],
   "note": "Real arithmetic."
  },
  {
   "property": "C10",
   "status": "proved",
   "theorems": [
    "Verif.Energy.C10_add_to_energy",
    "Verif.Energy.C10_add_to_energy_additive"
   ],
   "note": "Real arithmetic; the Python method never rescales px, py (C12)."
  },
  {
   "property": "C11",
   "status": "proved",
   "theorems": [
    "Verif.Energy.C11_reference_change",
    "Verif.Energy.C11_reference_change_sequences",
    "Verif.Energy.C11_round_trip"
   ],
   "note": "Real arithmetic."
  },
  {
   "property": "C12",
   "status": "partial",
   "theorems": [
    "Verif.Energy.C12_python_agrees_with_c_partial",
    "Verif.Energy.C12_p0c_violated"
   ],
   "note": "Holds for delta, ptau, add_to_energy and update_p0c_and_energy_deviations; assigning particles.p0c in Python does not do what the C function does (witness)."
  },
  {
   "property": "C13",
   "status": "partial",
   "theorems": [
    "Verif.Energy.C13_rigidity_setter",
    "Verif.Energy.C13_rigidity_constructor_partial",
    "Verif.Energy.C13_rigidity_violated",
    "Verif.Energy.C13_setter_negative_momentum"
   ],
   "note": "Setter round-trips; constructor only for positive charge, sign flips for negative charge (proved for all such inputs)."
  },
  {
   "property": "C14",
   "status": "proved",
   "theorems": [
    "Verif.Energy.C14_exact_slopes",
    "Verif.Energy.C14_exact_slopes_add_scale",
    "Verif.Energy.C14_single_slope_violated"
   ],
   "note": "The setter of a single slope does not round-trip when the other momentum is not zero (witness)."
  },
  {
   "property": "C15",
   "status": "proved",
   "theorems": [
    "Verif.Rng.C15_seeded_stream",
    "Verif.Rng.C15_streams_never_merge",
    "Verif.Rng.C15_seed_collision"
   ],
   "note": "All seeds, any number of draws. Two different seeds can give the same stream (witness)."
  },
  {
   "property": "C16",
   "status": "partial",
   "theorems": [
    "Verif.Rng.C16_sampling_writes_partial",
    "Verif.Rng.C16_samples_per_seed",
    "Verif.Rng.C16_violated_out_of_bounds"
   ],
   "note": "Holds when ids are distinct and below the number of rows; ids above (e.g. after filter) write outside the buffer (witness)."
  },
  {
   "property": "C52",
   "status": "partial",
   "theorems": [
    "Verif.Rng.C52_sampling_terminates_partial",
    "Verif.Rng.C52_unseeded_hangs"
   ],
   "note": "Seeded particles: always terminates. Unseeded particle: the loop never ends (proved for every bound)."
  },
  {
   "property": "C17",
   "status": "proved",
   "theorems": [
    "Verif.Record.C17_slots_exclusive",
    "Verif.Record.C17_final_count",
    "Verif.Record.C17_calls_return",
    "Verif.Record.C17_counter_wraps"
   ],
   "note": "Any capacity below 2^32 minus the number of threads, any numbers of events, any schedule of the individual memory accesses; with larger tables the 32-bit counter wraps (witness)."
  },
  {
   "property": "C18",
   "status": "partial",
   "theorems": [
    "Verif.Tracker.C18_elements_tracked_partial",
    "Verif.Tracker.C18_stop_at_end_violated",
    "Verif.Tracker.C18_skip_end_turn_actions",
    "Verif.Tracker.C18_counters",
    "Verif.Tracker.C18_at_element_during_tracking",
    "Verif.Tracker.C18_monitor_size"
   ],
   "note": "All accepted combinations of arguments except ele_stop = len(line) after more than one turn, where the last end-of-turn actions are skipped (witness)."
  },
  {
   "property": "C19",
   "status": "partial",
   "theorems": [
    "Verif.Tracker.C19_reverse_order_partial",
    "Verif.Tracker.C19_round_trip_partial",
    "Verif.Tracker.C19_wrap_violated"
   ],
   "note": "Holds for one segment of the line and for any number of full turns; a range that wraps around the end of the line is backtracked in the wrong order (witness)."
  },
  {
   "property": "C20",
   "status": "partial",
   "theorems": [
    "Verif.Tracker.C20_progress_general_partial",
    "Verif.Tracker.C20_progress_partial",
    "Verif.Tracker.C20_progress_collective_partial",
    "Verif.Tracker.C20_monitor_size_partial",
    "Verif.Tracker.C20_stop_zero_violated",
    "Verif.Tracker.C20_stop_at_end_violated",
    "Verif.Tracker.C20_start_at_element_violated"
   ],
   "note": "All batch sizes, start elements, stop elements inside the line, numbers of turns, collective or not. Fails for ele_stop = 0, ele_stop = len(line) and start_tracking_at_element (witnesses)."
  },
  {
   "property": "C21",
   "status": "partial",
   "theorems": [
    "Verif.Tracker.C21_parts",
    "Verif.Tracker.C21_collective_tracking_partial",
    "Verif.Tracker.C21_same_as_non_collective_partial",
    "Verif.Tracker.C21_zero_elements_violated",
    "Verif.Tracker.C21_monitor_violated"
   ],
   "note": "All arrangements of collective elements and all accepted arguments except zero elements starting on a collective element (witness). The turn-by-turn record of a first partial turn is skipped (witness)."
  },
  {
   "property": "C22",
   "status": "partial",
   "theorems": [
    "Verif.Tracker.C22_hold_resume_partial",
    "Verif.Tracker.C22_time_dependent_violated"
   ],
   "note": "All hold patterns; with time-dependent variables a session on hold cannot be resumed (witness)."
  },
  {
   "property": "C23",
   "status": "partial",
   "theorems": [
    "Verif.Pipeline.C23_tags_distinct_partial",
    "Verif.Pipeline.C23_delivery_partial",
    "Verif.Pipeline.C23_registered_twice_violated",
    "Verif.Pipeline.C23_buffer_reused_violated",
    "Verif.Pipeline.C23_two_ranks_violated"
   ],
   "note": "Tags: all registration histories with names used once. Delivery with the communicator of xtrack: all particles on one rank, buffers not changed while pending. Witnesses for names used twice, buffers changed while pending, two ranks."
  },
  {
   "property": "C53",
   "status": "partial",
   "theorems": [
    "Verif.Pipeline.C53_multitracker_partial"
   ],
   "note": "All numbers of branches and all finite hold patterns; lines with time-dependent variables excluded; the answers of the collective elements are arbitrary, that they eventually stop holding is not proved."
  },
  {
   "property": "C24",
   "status": "partial",
   "theorems": [
    "Verif.Monitors.C24_cells_partial",
    "Verif.Monitors.C24_in_bounds",
    "Verif.Monitors.C24_overlap_violated",
    "Verif.Monitors.C24_mixed_turns_violated"
   ],
   "note": "All windows, ids, histories and both recording modes; excluded (with witnesses): overlapping repetitions, and passages in which only some particles have reached the first turn when there are several repetitions."
  },
  {
   "property": "C25",
   "status": "partial",
   "theorems": [
    "Verif.Monitors.C25_last_turns_partial",
    "Verif.Monitors.C25_gap_violated"
   ],
   "note": "All histories in which the particle passes at every recorded turn from its first to its last; witness for a history with a gap."
  },
  {
   "property": "C26",
   "status": "proved",
   "theorems": [
    "Verif.Monitors.C26_multi_element",
    "Verif.Monitors.C26_in_bounds"
   ],
   "note": "All windows, observed elements, orders of passages."
  },
  {
   "property": "C27",
   "status": "partial",
   "theorems": [
    "Verif.Monitors.Bpm.C27_position_size_partial",
    "Verif.Monitors.Bpm.C27_exactly_once",
    "Verif.Monitors.Bpm.C27_in_bounds",
    "Verif.Monitors.Bpm.C27_profile",
    "Verif.Monitors.Bpm.C27_profile_edges",
    "Verif.Monitors.Bpm.C27_all_particles_violated"
   ],
   "note": "Counts, means and variances for all histories over the reals; excluded (with witness): particle_id_start > 0 with all particles requested, which records nothing."
  },
  {
   "property": "C28",
   "status": "proved",
   "theorems": [
    "Verif.MultiSetter.C28_set_get",
    "Verif.MultiSetter.C28_new_raises_iff",
    "Verif.MultiSetter.C28_repeated_last_wins"
   ],
   "note": "Byte-level model; any order of the threads; disjointness of the fields of distinct elements is the hypothesis."
  },
  {
   "property": "C29",
   "status": "proved",
   "theorems": [
    "Verif.Config.C29_flags",
    "Verif.Config.C29_independent"
   ],
   "note": "All histories of writes, including unknown names; register as seen by the C code."
  },
  {
   "property": "C54",
   "status": "proved",
   "theorems": [
    "Verif.Config.C54_contexts_restore",
    "Verif.Config.C54_twiss_restores",
    "Verif.Config.C54_backtrack_restores",
    "Verif.Config.C54_twiss_inside",
    "Verif.Config.C54_backtrack_inside"
   ],
   "note": "All programs with nested contexts and exceptions; the configuration is compared as the kernel selection sees it (entries that are False do not count)."
  },
  {
   "property": "C30",
   "status": "partial",
   "theorems": [
    "Verif.Slicing.C30_thin",
    "Verif.Slicing.C30_thick_partial",
    "Verif.Slicing.C30_nonneg",
    "Verif.Slicing.C30_custom_positions",
    "Verif.Slicing.C30_custom_without_cuts_violated"
   ],
   "note": "All orders, all custom cuts, over the reals; excluded (with witness): a thick custom scheme without cuts, which raises a division by zero. No negative drift for custom cuts in order inside the element."
  },
  {
   "property": "C31",
   "status": "partial",
   "theorems": [
    "Verif.Slicing.C31_lengths_partial",
    "Verif.Slicing.C31_thin_weights",
    "Verif.Slicing.C31_thick_weights",
    "Verif.Slicing.C31_offsets_partial",
    "Verif.Slicing.C31_last_matching",
    "Verif.Slicing.C31_drifts_by_default",
    "Verif.Slicing.C31_untouched",
    "Verif.Slicing.C31_marker_overwrites_violated",
    "Verif.Slicing.C31_marker_overwrites_happens",
    "Verif.Slicing.C31_reslice_offset_violated",
    "Verif.Slicing.C31_reslice_happens"
   ],
   "note": "All lines with replicas, slices and repeated elements, all strategies; excluded (with witnesses): names of edge markers already in use by another element, offsets of slices of slices. Assumes that the cache of drifts agrees with the environment. Apertures associated with elements not modelled."
  },
  {
   "property": "C32",
   "status": "partial",
   "theorems": [
    "Verif.Slicing.C32_cut_partial",
    "Verif.Slicing.C32_cuts_inside",
    "Verif.Slicing.C32_search_succeeds",
    "Verif.Slicing.C32_beyond_end_violated"
   ],
   "note": "All lines with non-negative lengths, all lists of positions; a position beyond the end raises KeyError (proved). Same assumptions on names as C31."
  },
  {
   "property": "C55",
   "status": "proved",
   "theorems": [
    "Verif.Slicing.C55_found",
    "Verif.Slicing.C55_keyError",
    "Verif.Slicing.C55_circular",
    "Verif.Slicing.resolve_not_running"
   ],
   "note": "All dictionaries, including missing parents and loops."
  },
  {
   "property": "C33",
   "status": "partial",
   "theorems": [
    "Verif.Composer.C33_positions",
    "Verif.Composer.C33_resolves_iff",
    "Verif.Composer.C33_unique",
    "Verif.Composer.C33_order_success",
    "Verif.Composer.C33_order_partial",
    "Verif.Composer.C33_repeated_reference_violated"
   ],
   "note": "All lists of placements, lengths and anchors over the reals. Independence of the order of definition needs every reference name to occur once; with repeated names the position depends on the order (witness)."
  },
  {
   "property": "C34",
   "status": "proved",
   "theorems": [
    "Verif.Composer.C34_line",
    "Verif.Composer.C34_no_overlap",
    "Verif.Composer.C34_validate",
    "Verif.Composer.C34_raises_only",
    "Verif.Composer.C34_names_with_length"
   ],
   "note": "All placements, tolerances, lengths; real arithmetic. Assumes that the cache of drifts agrees with the environment. The sort of Python is any stable sort."
  },
  {
   "property": "C35",
   "status": "partial",
   "theorems": [
    "Verif.Composer.C35_permutation",
    "Verif.Composer.C35_sorted_partial",
    "Verif.Composer.C35_before_after",
    "Verif.Composer.C35_input_order",
    "Verif.Composer.C35_upstream_downstream",
    "Verif.Composer.C35_raises_only",
    "Verif.Composer.C35_cycle_raises",
    "Verif.Composer.C35_resolved_never_raises",
    "Verif.Composer.C35_sorted_violated"
   ],
   "note": "All tables in which two centers are equal or further apart than the tolerance; with chains of close centers the comparator is not transitive and components stay out of order by any distance (witness)."
  },
  {
   "property": "C36",
   "status": "proved",
   "theorems": [
    "Verif.Composer.C36_concatenation",
    "Verif.Composer.C36_mirror",
    "Verif.Composer.C36_nested",
    "Verif.Composer.C36_by_name",
    "Verif.Composer.C36_environment_kept",
    "Verif.Composer.C36_placed_line"
   ],
   "note": "All trees. A placed line with from_ but without at is put in sequence, from_ is ignored (covered by C36_concatenation, in which from_ is arbitrary)."
  },
  {
   "property": "C37",
   "status": "partial",
   "theorems": [
    "Verif.Lines.C37_neg",
    "Verif.Lines.C37_mirror_twice",
    "Verif.Lines.C37_mul",
    "Verif.Lines.C37_add_partial",
    "Verif.Lines.C37_sub_partial",
    "Verif.Lines.C37_mirror_of_sum_partial",
    "Verif.Lines.C37_independent",
    "Verif.Lines.C37_wf",
    "Verif.Lines.C37_stale_name_violated"
   ],
   "note": "All histories of lines, operands and multiplicities. Sums need named operands to be the lines registered under their names: otherwise `line + other` silently uses the other line (witness)."
  },
  {
   "property": "C38",
   "status": "proved",
   "theorems": [
    "Verif.Lines.C38_rotation",
    "Verif.Lines.C38_start",
    "Verif.Lines.C38_undo",
    "Verif.Lines.C38_raises_iff"
   ],
   "note": "All lines, indices (negative and out of range included) and names."
  },
  {
   "property": "C39",
   "status": "partial",
   "theorems": [
    "Verif.Lines.C39_remove",
    "Verif.Lines.C39_remove_shift_partial",
    "Verif.Lines.C39_replace_partial",
    "Verif.Lines.C39_negative_length_violated",
    "Verif.Lines.C39_end_point_violated"
   ],
   "note": "All lines and matches, repeated and mixed. Excluded with witnesses: removed elements with negative length (they are dropped and the rest moves), and a pattern that matches the end point of the table (replace raises after changing the line)."
  },
  {
   "property": "C44",
   "status": "partial",
   "theorems": [
    "Verif.Lines.C44_filter_partial",
    "Verif.Lines.C44_drift_violated",
    "Verif.Lines.C44_repeated_violated"
   ],
   "note": "All lines and masks that exclude no drift with a length: an excluded drift gets length 0 and the rest moves (witness). The mask acts on names, so a kept occurrence of a repeated name is replaced too (witness)."
  },
  {
   "property": "C45",
   "status": "proved",
   "theorems": [
    "Verif.Lines.C45_unique_names"
   ],
   "note": "All lines whose elements exist, all orders of the Python set, both modes, all separators; includes the case in which the method raises."
  },
  {
   "property": "C48",
   "status": "proved",
   "theorems": [
    "Verif.Frames.C48_yrotation",
    "Verif.Frames.C48_xrotation",
    "Verif.Frames.C48_srotation",
    "Verif.Frames.C48_rotation",
    "Verif.Frames.C48_shifts",
    "Verif.Frames.C48_conserved",
    "Verif.Frames.C50_element",
    "Verif.Frames.kin_of_consistent"
   ],
   "note": "All angles and particles for which cos is not 0 and the particle crosses the rotated plane forward; the result is also identified as the same free particle seen from the rotated frame (momentum, spin, line of flight, time)."
  },
  {
   "property": "C49",
   "status": "proved",
   "theorems": [
    "Verif.Frames.C49_entry",
    "Verif.Frames.C49_exit",
    "Verif.Frames.C49_backtrack",
    "Verif.Frames.C49_frames",
    "Verif.Frames.C49_transparent",
    "Verif.Frames.C49_drift",
    "Verif.Frames.C49_none",
    "Verif.Frames.C49_always",
    "Verif.Frames.C49_thin_slice"
   ],
   "note": "All six parameters, anchors, tilts, straight and bent elements and slices; the particle has to cross the planes of the frames forward, angle = h length, and the pitch of a straight element is below 90 degrees."
  },
  {
   "property": "C50",
   "status": "proved",
   "theorems": [
    "Verif.Frames.C50_compose",
    "Verif.Frames.C50_element",
    "Verif.Frames.C50_exact_flight",
    "Verif.Frames.C50_slopes",
    "Verif.Frames.C50_expanded_error",
    "Verif.Frames.C50_polar_flight",
    "Verif.Frames.C50_polar"
   ],
   "note": "All particles and lengths; polar drifts with cos different from 0 and the particle crossing the planes forward."
  },
  {
   "property": "C56",
   "status": "proved",
   "theorems": [
    "Verif.Frames.C56_joint",
    "Verif.Frames.C56_between",
    "Verif.Frames.C56_slices",
    "Verif.Frames.C56_thin"
   ],
   "note": "All slicings whose offsets are the sums of the lengths before them (C31 proves this of the slicer for elements which are not themselves slices)."
  },
  {
   "property": "C46",
   "status": "partial",
   "theorems": [
    "Verif.Apertures.C46_rect",
    "Verif.Apertures.C46_longitudinal",
    "Verif.Apertures.C46_ellipse",
    "Verif.Apertures.C46_ellipse_new",
    "Verif.Apertures.C46_rectellipse",
    "Verif.Apertures.C46_racetrack",
    "Verif.Apertures.C46_racetrack_square",
    "Verif.Apertures.C46_field_violated",
    "Verif.Apertures.C46_degenerate_violated"
   ],
   "note": "All positions, all accepted parameters, all histories of the half-axis interface. Excluded with witnesses: writing the stored squares directly (the cached product gets stale), and a half axis zero, which LimitRectEllipse accepts and which lets particles pass at any height."
  },
  {
   "property": "C47",
   "status": "partial",
   "theorems": [
    "Verif.Apertures.C47_loop",
    "Verif.Apertures.C47_polygon_partial",
    "Verif.Apertures.C47_outside_disc",
    "Verif.Apertures.C47_disc_kept",
    "Verif.Apertures.C47_area",
    "Verif.Apertures.C47_shortcut_violated",
    "Verif.Apertures.C47_centroid_violated"
   ],
   "note": "All polygons, convex or not, on all points off the boundary: the loop computes the interior (outside far away, constant on connected sets, changes across a side). The CPU shortcut is right if the origin is inside; otherwise particles outside are kept on the CPU (witness). The centroid property always returns the origin."
  },
  {
   "property": "C57",
   "status": "partial",
   "theorems": [
    "Verif.Apertures.C57_found",
    "Verif.Apertures.C57_point",
    "Verif.Apertures.C57_first",
    "Verif.Apertures.C57_z_violated"
   ],
   "note": "All polygons and segments, including paths along walls, up to the tolerance of the code; the longitudinal position is always zero (witness)."
  },
  {
   "property": "C43",
   "status": "partial",
   "theorems": [
    "Verif.Cleanup.C43_survive_partial",
    "Verif.Cleanup.C43_between_partial",
    "Verif.Cleanup.C43_adjacent_partial",
    "Verif.Cleanup.C43_complete_partial",
    "Verif.Cleanup.C43_repeated_violated",
    "Verif.Cleanup.C43_concave_violated",
    "Verif.Cleanup.C43_negative_violated"
   ],
   "note": "All lines with distinct names, convex apertures and drifts of non-negative length: every particle survives the cleaned line exactly when it survives the original one. Excluded with witnesses: repeated names (the wrong occurrence is removed), every non-convex opening, negative drifts."
  },
  {
   "property": "C58",
   "status": "proved",
   "theorems": [
    "Verif.Magnets.C58_kick",
    "Verif.Magnets.C58_add",
    "Verif.Magnets.C58_undo",
    "Verif.Magnets.C58_superpose",
    "Verif.Magnets.C58_low_orders",
    "Verif.Magnets.C58_terms",
    "Verif.Magnets.kickCoords_field"
   ],
   "note": "All strengths, orders, positions, weights; real arithmetic."
  },
  {
   "property": "C59",
   "status": "partial",
   "theorems": [
    "Verif.Magnets.C59_motion",
    "Verif.Magnets.C59_compose",
    "Verif.Magnets.C59_inverse",
    "Verif.Magnets.C59_nested_inverse",
    "Verif.Magnets.C59_nested_path",
    "Verif.Magnets.C59_touched",
    "Verif.Magnets.C59_expanded_violated"
   ],
   "note": "All models, strengths, lengths and particles which are not turned around. Excluded with a witness: the expanded model with a dipole field that is neither matched by the curvature nor accompanied by focusing, where the arrival time is wrong. Fields below the thresholds of the code (1e-8, 1e-9) must be exactly zero; the nested integrators cover the length to 15 digits."
  },
  {
   "property": "C60",
   "status": "partial",
   "theorems": [
    "Verif.Magnets.C60_backtrack",
    "Verif.Magnets.C60_forward",
    "Verif.Magnets.C60_full_edge",
    "Verif.Magnets.C60_straight",
    "Verif.Magnets.C60_quadrupole",
    "Verif.Magnets.steps_reverse",
    "Verif.Magnets.drift_undo",
    "Verif.Magnets.body_undo"
   ],
   "note": "All models, integrators, numbers of kicks, slice weights, linear edges, straight and curved rectangular bends, all particles which pass the body without being turned around (no condition at all for straight magnets). Full edge models always lose the particle when backtracking, as the code intends. Not covered: radiation and spin."
  },
  {
   "property": "C61",
   "status": "partial",
   "theorems": [
    "Verif.Magnets.C61_weights",
    "Verif.Magnets.C61_no_kicks",
    "Verif.Magnets.C61_path",
    "Verif.Magnets.C61_same_field",
    "Verif.Magnets.C61_nested_kick",
    "Verif.Magnets.C61_slices",
    "Verif.Magnets.C61_hxl_slices_violated",
    "Verif.Magnets.C61_hxl_auto_violated"
   ],
   "note": "All models and multipoles with hxl = 0. Violated for hxl: it is not multiplied by the weight of a slice (witness), and a thick multipole which has only hxl makes no kicks with the automatic number of kicks (witness). The nested integrators cover the length to 15 digits, as their coefficients."
  },
  {
   "property": "C62",
   "status": "partial",
   "theorems": [
    "Verif.Magnets.C62_bend",
    "Verif.Magnets.C62_multipole",
    "Verif.Magnets.C62_rbend",
    "Verif.Magnets.C62_rbend_centred"
   ],
   "note": "All bends with the models which follow the curvature exactly (2, 4, 5, 6), and all models if there is no curvature; rectangular bends with straight body and exact model. The default model of bends (rotation, kick, rotation) approximates the curvature and is not covered."
  },
  {
   "property": "C63",
   "status": "partial",
   "theorems": [
    "Verif.Magnets.C63_bend",
    "Verif.Magnets.C63_bend_order",
    "Verif.Magnets.C63_bend_dict",
    "Verif.Magnets.C63_bend_old",
    "Verif.Magnets.C63_rbend",
    "Verif.Magnets.C63_rbend_order",
    "Verif.Magnets.C63_rbend_dict",
    "Verif.Magnets.C63_rbend_reference",
    "Verif.Magnets.C63_rbend_offsets",
    "Verif.Magnets.C63_thin_rbend_violated"
   ],
   "note": "All histories. Excluded with a witness: a rectangular bend with an angle and straight length zero, which bends nothing."
  },
  {
   "property": "C41",
   "status": "partial",
   "theorems": [
    "Verif.Cleanup.C41_markers",
    "Verif.Cleanup.C41_zero_drifts",
    "Verif.Cleanup.C41_inactive",
    "Verif.Cleanup.C41_merge_drifts_partial",
    "Verif.Cleanup.C41_merge_drifts_names",
    "Verif.Cleanup.C41_merge_drifts_succeeds",
    "Verif.Cleanup.C41_merge_multipoles_partial",
    "Verif.Cleanup.C41_mixed_models_violated",
    "Verif.Cleanup.C41_replica_violated",
    "Verif.Cleanup.C41_half_merged_violated",
    "Verif.Cleanup.C41_shifted_multipoles_violated",
    "Verif.Cleanup.C41_second_line_violated"
   ],
   "note": "All lines, keep lists and particles. The three removals are proved without conditions. Merging drifts: proved if neighbouring drifts have the same model and the line holds no slice or replica of its own drifts. Merging multipoles: proved if the multipoles merged have no shifts and rotations. Excluded with witnesses: an exact drift merged with an expanded one, a replica of a merged drift, a replica next to a drift (the method raises with lengths already changed), shifted multipoles, a second line with the same multipoles. Radiation is off; the calls of replace_all_repeated_elements are C45."
  },
  {
   "property": "C42",
   "status": "partial",
   "theorems": [
    "Verif.Cleanup.C42_other_partial",
    "Verif.Cleanup.C42_history_partial",
    "Verif.Cleanup.C42_other_violated",
    "Verif.Cleanup.C42_cache_violated",
    "Verif.Cleanup.C41_merge_multipoles_partial"
   ],
   "note": "All environments and histories in which the merged lines share no drift with the other line and hold no drift of the cache. Violated otherwise (witnesses): a shared drift changes the length of the other line, and a drift requested later for a gap has the wrong length."
  },
  {
   "property": "C64",
   "status": "partial",
   "theorems": [
    "Verif.Cleanup.C64_quadrupoles_partial",
    "Verif.Cleanup.C64_bends_partial",
    "Verif.Cleanup.C64_no_frame_violated",
    "Verif.Cleanup.C64_chi_violated"
   ],
   "note": "All environments and lines. Simple quadrupoles: proved for all particles if the multipoles replaced have no rotation about s. Simple bends: proved for particles with chi = 1. Excluded with witnesses: rot_s_rad_no_frame is dropped; particles with another charge-to-mass ratio get a wrong zeta."
  },
  {
   "property": "C40",
   "status": "partial",
   "theorems": [
    "Verif.Composer.C40_insert_partial",
    "Verif.Composer.C40_raises_only",
    "Verif.Composer.C40_tie_violated"
   ],
   "note": "All lines and all sets of insertions for which insert returns; insertions begin in the line and do not end at exactly the tolerance from a boundary (C40_tie_violated: there a whole element that the insertion does not cover is removed). Positions and the total length hold up to the tolerance times the number of elements. C40_raises_only lists every reason for an exception. get_index_unique and sorted are parameters with their documented properties."
  },
  {
   "property": "C65",
   "status": "partial",
   "theorems": [
    "Verif.Survey.C65_rows_partial",
    "Verif.Survey.C65_unique",
    "Verif.Survey.C65_replica_violated"
   ],
   "note": "All lines, starting elements (counted from the front) and poses. Missing: replicas of translations, rotations and slices; there the statement is false (C65_replica_violated): a Replica of a Translation or Rotation does not move the survey, and a Replica of a slice of a bend has no angle."
  },
  {
   "property": "C66",
   "status": "proved",
   "theorems": [
    "Verif.Survey.C66_tracking"
   ],
   "note": "Elements: translations, rotations, drifts, and misaligned magnets (straight and curved) with a field-free body, for particles which cross the planes in between; exact drift."
  },
  {
   "property": "C67",
   "status": "proved",
   "theorems": [
    "Verif.Survey.C67_rigid",
    "Verif.Survey.C67_restart",
    "Verif.Survey.C67_relative"
   ],
   "note": "All lines, also with replicas."
  },
  {
   "property": "C68",
   "status": "partial",
   "theorems": [
    "Verif.Survey.C68_slices_partial",
    "Verif.Survey.C68_angle_diff_violated"
   ],
   "note": "All lines and weights. Rectangular bends: fields as calculated by the setters and an angle above 1e-10. Missing: a rectangular bend with straight body, angle 0 and a difference between its edge angles; there slicing moves the machine (C68_angle_diff_violated)."
  },
  {
   "property": "C69",
   "status": "proved",
   "theorems": [
    "Verif.Survey.C69_reversed_line",
    "Verif.Survey.C69_follows",
    "Verif.Survey.C69_involution",
    "Verif.Survey.C69_columns"
   ],
   "note": "The columns XYZ, E_matrix (and so all angles), s, and the properties of elements."
  },
  {
   "property": "C70",
   "status": "partial",
   "theorems": [
    "Verif.Survey.C70_angles_partial",
    "Verif.Survey.C70_start",
    "Verif.Survey.C70_continuous"
   ],
   "note": "Missing: rows whose vertical axis is horizontal, where the code divides by the cosine of a right angle."
  },
  {
   "property": "C71",
   "status": "proved",
   "theorems": [
    "Verif.Edges.C71_motion",
    "Verif.Edges.C71_compose",
    "Verif.Edges.C71_inverse"
   ],
   "note": "Fields that the code ignores (below 1e-9 but not zero) are excluded. The spin is turned with the frame only, as the code says."
  },
  {
   "property": "C72",
   "status": "partial",
   "theorems": [
    "Verif.Edges.C72_linear",
    "Verif.Edges.C72_rbend",
    "Verif.Edges.C72_full_horizontal",
    "Verif.Edges.C72_full_vertical_partial",
    "Verif.Edges.C72_gap_violated",
    "Verif.Edges.C72_knl_violated"
   ],
   "note": "Linear edges and rectangular bends: all cases. Full edge against linear edge: entry, particles which come straight in; in the vertical plane without gap. With a gap the two differ by the square of the cosine of the angle in the correction (C72_gap_violated), and a dipole field given by knl is not seen by the wedge of the full edge (C72_knl_violated)."
  },
  {
   "property": "C73",
   "status": "proved",
   "theorems": [
    "Verif.Edges.C73_history",
    "Verif.Edges.C73_magnet"
   ],
   "note": "Both edges active, no radiation; for full edges the dipole field is given by k0 (see C72_knl_violated)."
  },
  {
   "property": "C74",
   "status": "partial",
   "theorems": [
    "Verif.Symplectic.C74_drift_partial",
    "Verif.Symplectic.C74_kick",
    "Verif.Symplectic.C74_body_partial",
    "Verif.Symplectic.C74_combined_violated"
   ],
   "note": "All models, integrators, numbers of kicks, weights, strengths; real arithmetic; no radiation. Excluded with a witness: mat-kick-mat with k0 h + k1 = 0 and a field which does not match the curvature (a bend which is switched off, a straight dipole): there the map is not symplectic for any particle."
  },
  {
   "property": "C75",
   "status": "partial",
   "theorems": [
    "Verif.Symplectic.C75_edge",
    "Verif.Symplectic.C75_magnet_partial",
    "Verif.Symplectic.C75_elements"
   ],
   "note": "All edge models, all particles which cross the faces. Whole magnets inherit the exception of C74. Full edges are not backtracked (the code loses the particle)."
  },
  {
   "property": "C76",
   "status": "proved",
   "theorems": [
    "Verif.Symplectic.C76_placed",
    "Verif.Symplectic.C76_elements"
   ],
   "note": "All misalignments, straight and curved, and all rotation and translation elements."
  },
  {
   "property": "C77",
   "status": "partial",
   "theorems": [
    "Verif.Rf.C77_gain",
    "Verif.Rf.C77_backtrack",
    "Verif.Rf.C77_symplectic_partial",
    "Verif.Rf.C77_ok",
    "Verif.Rf.C77_quadrupole_violated",
    "Verif.Rf.C77_crab_violated"
   ],
   "note": "Energy gain (thin cavities) and backtracking: all cases. Symplecticity: cavities always; crab cavities and RF dipoles for reference charge +-1 and energy kick on. Violated: RF multipoles above the dipole (energy kick too large by the factor k + 1, witness for the quadrupole), crab cavities with |q0| different from 1, kill_energy_kick with transverse kicks."
  },
  {
   "property": "C78",
   "status": "partial",
   "theorems": [
    "Verif.Symplectic.C78_line_partial",
    "Verif.Symplectic.C78_turns_partial",
    "Verif.Symplectic.C78_volume"
   ],
   "note": "All lines of the elements of C74-C77 and C82 within the conditions stated there."
  },
  {
   "property": "C79",
   "status": "partial",
   "theorems": [
    "Verif.SegMap.C79_segment_partial",
    "Verif.SegMap.C79_line_partial",
    "Verif.SegMap.C79_emittance_partial",
    "Verif.SegMap.C79_orbit_partial",
    "Verif.SegMap.C79_turns_partial",
    "Verif.SegMap.C79_chroma_violated",
    "Verif.SegMap.C79_set_tune_violated",
    "Verif.SegMap.C79_second_order_violated"
   ],
   "note": "All modes, with acceleration, chromaticity of any order, detuning, dispersion and orbit. Violated: the chromaticity is ignored when both tunes are zero (also if a tune is assigned later), and ddqx given without dqx acts as linear chromaticity."
  },
  {
   "property": "C80",
   "status": "partial",
   "theorems": [
    "Verif.SegMap.C80_segment",
    "Verif.SegMap.C80_line",
    "Verif.SegMap.C80_turns",
    "Verif.SegMap.C80_fixed_rf_partial",
    "Verif.SegMap.C80_nonlinear",
    "Verif.SegMap.C80_negative_charge_violated"
   ],
   "note": "Fixed synchrotron tune and nonlinear mode: all cases. Fixed RF: positive reference charge, reference charge for the particle; for negative reference charge the code takes the root of a negative number (C80_negative_charge_violated)."
  },
  {
   "property": "C81",
   "status": "partial",
   "theorems": [
    "Verif.SegMap.C81_segment_partial",
    "Verif.SegMap.C81_line_partial",
    "Verif.SegMap.C81_turns_partial",
    "Verif.SegMap.C81_dispersion_violated",
    "Verif.SegMap.C81_chroma_violated",
    "Verif.SegMap.C81_detuning_violated"
   ],
   "note": "All modes; particles which keep a positive energy and are not on the edge of a bucket. Without dispersion, without chromaticity and with det_xy = det_yx; each of the three conditions is necessary (violations for all particles off the axis)."
  },
  {
   "property": "C82",
   "status": "partial",
   "theorems": [
    "Verif.Thin.C82_thin_partial",
    "Verif.Thin.C82_bend_violated",
    "Verif.Thin.C82_elens_violated"
   ],
   "note": "All elements but electron lenses, which are not symplectic (the kick depends on the momentum); thin bends with curvature only for chi = 1, for other particles they are not symplectic."
  },
  {
   "property": "C83",
   "status": "partial",
   "theorems": [
    "Verif.Thin.C83_kick_partial",
    "Verif.Thin.C83_twiss_partial",
    "Verif.Thin.C83_ramp_violated",
    "Verif.Thin.C83_lag_violated",
    "Verif.Thin.C83_natural_violated"
   ],
   "note": "Proved with lag in periods and for ramps which end before turn 65536. Violated: longer ramps wrap around, lag is documented in radians but is a number of periods, and a missing natural tune gives a division by zero instead of a zero gradient."
  },
  {
   "property": "C84",
   "status": "partial",
   "theorems": [
    "Verif.Thin.C84_exciter_partial",
    "Verif.Thin.C84_early_violated"
   ],
   "note": "All samples and all times after the excitation, and times more than a sample before it. Violated: a particle which arrives less than a sample before the start gets the first sample."
  },
  {
   "property": "C85",
   "status": "partial",
   "theorems": [
    "Verif.Thin.C85_wire_partial",
    "Verif.Thin.C85_chi_violated"
   ],
   "note": "Proved for chi = 1. Violated: the kick does not scale with chi."
  },
  {
   "property": "C86",
   "status": "partial",
   "theorems": [
    "Verif.Thin.C86_backtrack_partial",
    "Verif.Thin.C86_residual_violated"
   ],
   "note": "All cases but the residual kick of an electron lens, which is added again."
  },
  {
   "property": "C87",
   "status": "proved",
   "theorems": [
    "Verif.Thin.C87_potential",
    "Verif.Thin.C87_quadrupole"
   ],
   "note": ""
  },
  {
   "property": "C88",
   "status": "partial",
   "theorems": [
    "Verif.Thin.C88_elens_partial",
    "Verif.Thin.C88_charge_violated"
   ],
   "note": "Proved for particles with the charge to mass ratio and momentum of the reference. Violated for others: the kick is divided by chi and multiplied by 1 + delta."
  },
  {
   "property": "C89",
   "status": "proved",
   "theorems": [
    "Verif.Twiss.C89_R_matrix",
    "Verif.Twiss.C89_compose",
    "Verif.Twiss.C89_independent"
   ],
   "note": "Elements as affine symplectic maps."
  },
  {
   "property": "C90",
   "status": "proved",
   "theorems": [
    "Verif.Twiss.C90_restart",
    "Verif.Twiss.C90_restart_phase",
    "Verif.Twiss.C90_periodic",
    "Verif.Twiss.C90_tune"
   ],
   "note": "Elements as affine symplectic maps; rows where the conventional phase is defined."
  },
  {
   "property": "C91",
   "status": "proved",
   "theorems": [
    "Verif.Twiss.C91_transport_x",
    "Verif.Twiss.C91_transport_y",
    "Verif.Twiss.C91_initial",
    "Verif.Twiss.C91_courant_snyder",
    "Verif.Twiss.C91_gamma",
    "Verif.Twiss.C91_full_inverse"
   ],
   "note": ""
  },
  {
   "property": "C92",
   "status": "partial",
   "theorems": [
    "Verif.Twiss.C92_dispersion",
    "Verif.Twiss.C92_dispersion_init",
    "Verif.Twiss.C92_mode",
    "Verif.Twiss.C92_mode_zeta",
    "Verif.Twiss.C92_periodic",
    "Verif.Twiss.C92_ring",
    "Verif.Twiss.C92_bets_violated"
   ],
   "note": "Initial dispersion for bets = 1. Violated: with another bets the dispersion given to TwissInit is not the one of the table."
  },
  {
   "property": "C93",
   "status": "proved",
   "theorems": [
    "Verif.Twiss.C93_continuous",
    "Verif.Twiss.C93_mod"
   ],
   "note": ""
  },
  {
   "property": "C94",
   "status": "partial",
   "theorems": [
    "Verif.Twiss.C94_normal_form",
    "Verif.Twiss.C94_normal_form_4d",
    "Verif.Twiss.C94_tunes",
    "Verif.Twiss.C94_healy_symplectic",
    "Verif.Twiss.C94_healy_id",
    "Verif.Twiss.C94_half_integer_violated",
    "Verif.Twiss.C94_healy_violated"
   ],
   "note": "Proved when the sines of the phases of the modes differ. Violated: tunes which differ by one half are refused; symplectification can raise an exception."
  },
  {
   "property": "C95",
   "status": "partial",
   "theorems": [
    "Verif.Twiss.C95_init",
    "Verif.Twiss.C95_init_reverse",
    "Verif.Twiss.C95_functions",
    "Verif.Twiss.C95_involution",
    "Verif.Twiss.C95_phase",
    "Verif.Twiss.C95_motion",
    "Verif.Twiss.C95_R_matrix_partial",
    "Verif.Twiss.C95_R_matrix_violated",
    "Verif.Twiss.C95_chromatic_violated"
   ],
   "note": "Violated: R matrices of a reversed table (sign of phix, phiy), its dzeta and dmux, dmuy."
  },
  {
   "property": "C96",
   "status": "proved",
   "theorems": [
    "Verif.Twiss.C96_inverse",
    "Verif.Twiss.C96_rotation",
    "Verif.Twiss.C96_action",
    "Verif.Twiss.C96_covariance"
   ],
   "note": ""
  },
  {
   "property": "C97",
   "status": "partial",
   "theorems": [
    "Verif.Twiss.C97_affine",
    "Verif.Twiss.C97_second_order",
    "Verif.Twiss.C97_T_matrix_partial",
    "Verif.Twiss.C97_limit",
    "Verif.Twiss.C97_pzeta_violated"
   ],
   "note": "Violated for the column of pzeta of R (and (i,5,5) of T) on second order maps: the two steps of pzeta are not symmetric."
  },
  {
   "property": "C98",
   "status": "proved",
   "theorems": [
    "Verif.Twiss.C98_slip_6d",
    "Verif.Twiss.C98_slip_4d",
    "Verif.Twiss.C98_methods"
   ],
   "note": ""
  },
  {
   "property": "C99",
   "status": "partial",
   "theorems": [
    "Verif.Taylor.C99_orbit",
    "Verif.Taylor.C99_exact",
    "Verif.Taylor.C99_from_line_partial",
    "Verif.Taylor.C99_track",
    "Verif.Taylor.C99_wrap_violated"
   ],
   "note": "With measured matrices: lines whose map does not contain the square of pzeta (see C97). Violated: the length of a part which goes over the end of the line is negative."
  },
  {
   "property": "C100",
   "status": "proved",
   "theorems": [
    "Verif.Taylor.C100_first_second",
    "Verif.Taylor.C100_symplectic"
   ],
   "note": ""
  },
  {
   "property": "C101",
   "status": "partial",
   "theorems": [
    "Verif.Taylor.C101_reflect_partial",
    "Verif.Taylor.C101_twice",
    "Verif.Taylor.C101_scale_violated"
   ],
   "note": "Proved for factors 1 and -1. Violated for all others: columns are multiplied by the factors instead of divided."
  },
  {
   "property": "C102",
   "status": "partial",
   "theorems": [
    "Verif.Taylor.C102_cover",
    "Verif.Taylor.C102_kept",
    "Verif.Taylor.C102_length",
    "Verif.Taylor.C102_track_partial",
    "Verif.Taylor.C102_names_violated"
   ],
   "note": "Proved when no kept element is called map_0, map_1, ... Violated otherwise: the kept element takes the place of the map of the same name."
  },
  {
   "property": "C103",
   "status": "partial",
   "theorems": [
    "Verif.Ranges.C103_range_partial",
    "Verif.Ranges.C103_full_periodic",
    "Verif.Ranges.C103_error",
    "Verif.Ranges.C103_end",
    "Verif.Ranges.C103_end_violated",
    "Verif.Ranges.C103_wrap_violated",
    "Verif.Ranges.C103_last_violated"
   ],
   "note": "Proved when the optics is given at the start of the range or at a marker. Violated: given at a thick end of the range it is applied at its exit (and s is shifted); given at a thick element inside a range over the end of the line the table jumps, without an exception; a range which starts at a thick last element with the optics given beyond the end of the line."
  },
  {
   "property": "C104",
   "status": "partial",
   "theorems": [
    "Verif.Ranges.C104_start_partial",
    "Verif.Ranges.C104_open_partial",
    "Verif.Ranges.C104_first_violated",
    "Verif.Ranges.C104_muzeta_violated",
    "Verif.Ranges.C104_phase_violated"
   ],
   "note": "Optics, mux, muy and s for all starts but the first element. Violated: muzeta jumps at the end of the line, the first element as start raises an exception, and the given mux, muy are ignored."
  },
  {
   "property": "C105",
   "status": "partial",
   "theorems": [
    "Verif.Sync.C105_passages_partial",
    "Verif.Sync.C105_windows",
    "Verif.Sync.C105_particles",
    "Verif.Sync.C105_prepare",
    "Verif.Sync.C105_late_violated"
   ],
   "note": "Proved for particles which start at most one frame late (zeta >= -1.5 frame lengths). Violated beyond: such a particle can be parked a second time when the particle in the first slot was stopped at the end of its first turn, and then is never resumed."
  },
  {
   "property": "C106",
   "status": "proved",
   "theorems": [
    "Verif.Rdt.C106_field",
    "Verif.Rdt.C106_truncate",
    "Verif.Rdt.C106_neutral",
    "Verif.Rdt.C106_track"
   ],
   "note": ""
  },
  {
   "property": "C107",
   "status": "partial",
   "theorems": [
    "Verif.Rdt.C107_kick",
    "Verif.Rdt.C107_next",
    "Verif.Rdt.C107_close",
    "Verif.Rdt.C107_unique",
    "Verif.Rdt.C107_motion",
    "Verif.Rdt.C107_misaligned",
    "Verif.Rdt.C107_roll_violated",
    "Verif.Rdt.C107_freq"
   ],
   "note": "Violated for magnets with rot_s_rad_no_frame: the tracking rolls them, the feed-down of the driving terms does not."
  },
  {
   "property": "C108",
   "status": "proved",
   "theorems": [
    "Verif.Spin.C108_rotation",
    "Verif.Spin.C108_length"
   ],
   "note": ""
  },
  {
   "property": "C109",
   "status": "partial",
   "theorems": [
    "Verif.Spin.C109_precession_partial",
    "Verif.Spin.C109_axis",
    "Verif.Spin.C109_spin_tune",
    "Verif.Spin.C109_unit_violated",
    "Verif.Spin.C109_parallel_violated",
    "Verif.Spin.C109_canonical_violated"
   ],
   "note": "Proved for particles without vertical momentum outside of vector potentials, and the G gamma angle on the design orbit. Violated with vertical momentum (a wrong sign in the longitudinal component of the direction of motion) and in solenoids (the vector potential is added to the canonical momentum instead of subtracted)."
  },
  {
   "property": "C110",
   "status": "partial",
   "theorems": [
    "Verif.Rad.C110_power",
    "Verif.Rad.C110_loss",
    "Verif.Rad.C110_kinetic",
    "Verif.Rad.C110_field_partial",
    "Verif.Rad.C110_field_violated",
    "Verif.Rad.C110_all_energy_violated"
   ],
   "note": "Energy and direction proved. Violated: the field perpendicular to the motion is wrong for particles with vertical momentum; a particle whose mean loss exceeds its energy gets a negative momentum and is tracked on."
  },
  {
   "property": "C111",
   "status": "partial",
   "theorems": [
    "Verif.Rad.C111_photons",
    "Verif.Rad.C111_lost",
    "Verif.Rad.C111_energy_partial",
    "Verif.Rad.C111_last_photon_violated",
    "Verif.Rad.C111_retry_violated"
   ],
   "note": "Energy means here beta-scaled: the momentum is reduced in the ratio of energies, and the difference from the exact energy is bounded (C111_energy_partial). Violated: the photon which takes the last energy is not recorded; a random number next to zero gives a photon without energy."
  },
  {
   "property": "C112",
   "status": "proved",
   "theorems": [
    "Verif.Rad.C112_count",
    "Verif.Rad.C112_count_zero",
    "Verif.Rad.C112_groups",
    "Verif.Rad.C112_total",
    "Verif.Rad.C112_emit",
    "Verif.Rad.C112_index_log",
    "Verif.Rad.C112_index_lin",
    "Verif.Rad.C112_interpolate"
   ],
   "note": "The contents of the tables are parameters."
  },
  {
   "property": "C113",
   "status": "partial",
   "theorems": [
    "Verif.Rad.C113_same_partial",
    "Verif.Rad.C113_steps_violated"
   ],
   "note": "Proved for magnets with one radiation step. Violated with several: the shared record holds only the last step of the first particle."
  },
  {
   "property": "C114",
   "status": "partial",
   "theorems": [
    "Verif.Tables.C114_csv",
    "Verif.Tables.C114_dict_partial",
    "Verif.Tables.C114_empty_violated",
    "Verif.Tables.C114_meta_violated"
   ],
   "note": "Violated: an empty include list, or one with only metadata names, saves everything; include_meta=True has no effect when a selection is given."
  },
  {
   "property": "C115",
   "status": "partial",
   "theorems": [
    "Verif.Tables.C115_csv_partial",
    "Verif.Tables.C115_comment_violated",
    "Verif.Tables.C115_blank_violated",
    "Verif.Tables.C115_object_violated",
    "Verif.Tables.C115_integer_violated"
   ],
   "note": "Violated: rows which begin with a comment sign or are blank are lost, objects come back as texts, large integers lose digits. The laws assumed of number texts are shown satisfiable."
  },
  {
   "property": "C116",
   "status": "partial",
   "theorems": [
    "Verif.Tables.C116_json",
    "Verif.Tables.C116_columns_partial",
    "Verif.Tables.C116_complex_violated",
    "Verif.Tables.C116_gz_violated",
    "Verif.Tables.C116_twice_violated"
   ],
   "note": "Violated for tables: complex columns, compressed files, and reading the same dictionary twice."
  },
  {
   "property": "C117",
   "status": "partial",
   "theorems": [
    "Verif.Tables.C117_header_partial",
    "Verif.Tables.C117_complex_violated",
    "Verif.Tables.C117_text_violated",
    "Verif.Tables.C117_float_violated"
   ],
   "note": "Violated: complex attributes come back as texts; empty texts, `null` and quoted texts change; floats are written with 16 digits."
  },
  {
   "property": "C118",
   "status": "partial",
   "theorems": [
    "Verif.Taper.C118_given",
    "Verif.Taper.C118_compensate",
    "Verif.Taper.C118_slope_partial",
    "Verif.Taper.C118_below_transition_violated",
    "Verif.Taper.C118_exception_violated",
    "Verif.Taper.C118_no_loss_violated"
   ],
   "note": "Proved for thin cavities and relative time. Violated: wrong slope below transition; an exception leaves all cavities without frequency; with the default settings a line without losses raises an exception on a variable without value."
  },
  {
   "property": "C119",
   "status": "partial",
   "theorems": [
    "Verif.Pdg.C119_names",
    "Verif.Pdg.C119_ions",
    "Verif.Pdg.C119_table",
    "Verif.Pdg.C119_is_ion_partial",
    "Verif.Pdg.C119_anti_ion_violated",
    "Verif.Pdg.C119_overflow_violated",
    "Verif.Pdg.C119_is_ion_violated"
   ],
   "note": "Proved for all ions below 1000 nucleons and all particles in the table. Violated: names given for anti-ions can not be read; 1000 nucleons and more run into the number of protons; ions without neutrons are not ions for is_ion."
  },
  {
   "property": "C120",
   "status": "partial",
   "theorems": [
    "Verif.EdwTeng.C120_turn",
    "Verif.EdwTeng.C120_partial",
    "Verif.EdwTeng.C120_tunes",
    "Verif.EdwTeng.C120_equal_traces_violated"
   ],
   "note": "Proved when the traces of the two planes differ and coupling below the threshold 1e-10 of the code is zero. Violated for equal traces (for example a roll by 45 degrees): the sign of the difference is 0 and the code divides by zero, although a decoupling exists."
  },
  {
   "property": "C121",
   "status": "partial",
   "theorems": [
    "Verif.Chrom.C121_start",
    "Verif.Chrom.C121_rows",
    "Verif.Chrom.C121_chroma_partial",
    "Verif.Chrom.C121_ddq_violated",
    "Verif.Chrom.C121_reverse_violated"
   ],
   "note": "Second order chromaticity proved for ranges which start at s = 0; violated otherwise: the mean momentum is divided by the position of the end instead of the length, ddqx is too large by (s1/(s1-s0))^2. Violated in the reversed frame when the reversal is asked for in the call and not by the default of the line: the phases beside the central momentum have the wrong sign."
  },
  {
   "property": "C122",
   "status": "partial",
   "theorems": [
    "Verif.EdwTeng.C122_functions",
    "Verif.EdwTeng.C122_same_partial",
    "Verif.EdwTeng.C122_same_violated",
    "Verif.EdwTeng.C122_rdt",
    "Verif.EdwTeng.C122_propagate",
    "Verif.EdwTeng.C122_moduli"
   ],
   "note": "Functions and driving terms proved whenever the first mode has a positive determinant in the horizontal plane. That the same decomposition is given by the reported coupling matrix is proved for g^2 > 1/2; violated for g^2 < 1/2: the two files choose different branches of the decomposition."
  },
  {
   "property": "C123",
   "status": "partial",
   "theorems": [
    "Verif.Attr.C123_strengths",
    "Verif.Attr.C123_totals",
    "Verif.Attr.C123_replica",
    "Verif.Attr.C123_slices",
    "Verif.Attr.C123_sliced_thin",
    "Verif.Attr.C123_length",
    "Verif.Attr.C123_angle",
    "Verif.Attr.C123_replica_violated",
    "Verif.Attr.C123_order_violated"
   ],
   "note": "Proved for magnets, slices and replicas of magnets, with a main component of order at most 5. Violated for replicas of slices (line.replicate of a sliced line): the reported strength is zero while the particles are kicked. Violated for multipoles whose main component has an order above 5: relative components are reported as zero. Tapering is not modelled here."
  },
  {
   "property": "C124",
   "status": "partial",
   "theorems": [
    "Verif.LossRef.C124_location",
    "Verif.LossRef.C124_all_partial",
    "Verif.LossRef.C124_others",
    "Verif.LossRef.C124_skip_violated",
    "Verif.LossRef.C124_twice_violated"
   ],
   "note": "Location proved for every part of a line and every motion; all particles when no part with losses asks to be skipped. Violated: a loss behind a collimator which asks to be skipped ends the whole refinement (return instead of continue), later apertures are not refined; a second call moves refined particles upstream again, to places where they are inside of the aperture."
  },
  {
   "property": "C125",
   "status": "partial",
   "theorems": [
    "Verif.Match.C125_values",
    "Verif.Match.C125_left",
    "Verif.Match.C125_matched_partial",
    "Verif.Match.C125_new",
    "Verif.Match.C125_again",
    "Verif.Match.C125_superpose",
    "Verif.Match.C125_fewer_violated",
    "Verif.Match.C125_limits_violated"
   ],
   "note": "Proved when nothing else depends on the knob. Violated: a knob which is matched again with fewer variables keeps the old terms of the others, so that the line at the end value is not the matched one; the limits of a variable are given to its change instead of the variable."
  },
  {
   "property": "C126",
   "status": "partial",
   "theorems": [
    "Verif.Match.C126_step",
    "Verif.Match.C126_smooth_partial",
    "Verif.Match.C126_derivative",
    "Verif.Match.C126_zero_violated",
    "Verif.Match.C126_luminosity"
   ],
   "note": "Proved for positive widths. Violated in smooth mode with the default relative width and a bound of zero: the width is zero and the reported value is not a number."
  },
  {
   "property": "C127",
   "status": "partial",
   "theorems": [
    "Verif.Lumi.C127_factor",
    "Verif.Lumi.C127_partial",
    "Verif.Lumi.C127_slow",
    "Verif.Lumi.C127_slow_violated"
   ],
   "note": "The reported value is exact in the limit of high energies, and between the smaller and the larger relativistic beta times the rate otherwise. Violated for slow beams: the longitudinal normalization misses the velocities, the result is too small by the relativistic beta."
  },
  {
   "property": "C128",
   "status": "partial",
   "theorems": [
    "Verif.Steer.C128_limits_partial",
    "Verif.Steer.C128_quiet_violated",
    "Verif.Steer.C128_again_violated",
    "Verif.Steer.C128_ends_partial",
    "Verif.Steer.C128_ends_violated",
    "Verif.Steer.C128_rms_violated"
   ],
   "note": "Limits hold for a first call with verbose=True, and one plane always ends. Violated: limits with verbose=False and in a second call, end with two coupled planes, and the tolerance, which is compared with the standard deviation around the mean."
  },
  {
   "property": "C129",
   "status": "proved",
   "theorems": [
    "Verif.Steer.C129_open",
    "Verif.Steer.C129_closed"
   ],
   "note": "Linear uncoupled motion between thin kicks."
  },
  {
   "property": "C130",
   "status": "partial",
   "theorems": [
    "Verif.Steer.C130_best",
    "Verif.Steer.C130_smallest",
    "Verif.Steer.C130_exact",
    "Verif.Steer.C130_all",
    "Verif.Steer.C130_truncated",
    "Verif.Steer.C130_largest",
    "Verif.Steer.C130_micado_partial",
    "Verif.Steer.C130_micado_violated"
   ],
   "note": "The correction with singular values is the best and the smallest one. Violated for the choice of the best correctors on open lines with a corrector at or after the last monitor: IndexError."
  },
  {
   "property": "C131",
   "status": "partial",
   "theorems": [
    "Verif.Polar.C131_positive_partial",
    "Verif.Polar.C131_bound",
    "Verif.Polar.C131_bound_reported",
    "Verif.Polar.C131_rates",
    "Verif.Polar.C131_charge_violated",
    "Verif.Polar.C131_above_violated"
   ],
   "note": "Exact for positive charges without longitudinal fields. Violated: negative charges give the opposite sign, and with longitudinal fields the reported polarization can be above one."
  },
  {
   "property": "C132",
   "status": "partial",
   "theorems": [
    "Verif.Equil.C132_partition",
    "Verif.Equil.C132_rates",
    "Verif.Equil.C132_determinant",
    "Verif.Equil.C132_curly",
    "Verif.Equil.C132_power",
    "Verif.Equil.C132_emittance",
    "Verif.Equil.C132_loss_partial",
    "Verif.Equil.C132_loss_violated"
   ],
   "note": "Violated for decelerating cavities: what they take counts as radiated."
  },
  {
   "property": "C133",
   "status": "partial",
   "theorems": [
    "Verif.Equil.C133_covariance_partial",
    "Verif.Equil.C133_emittance",
    "Verif.Equil.C133_order_violated",
    "Verif.Equil.C133_period_violated",
    "Verif.Equil.C133_real_violated",
    "Verif.Equil.C133_slopes_violated"
   ],
   "note": "Violated: kicks of a turn are added after it, the covariance matrix is not the same at both ends of the ring, imaginary parts of the diffusion are dropped, and slopes are taken for momenta."
  },
  {
   "property": "C134",
   "status": "partial",
   "theorems": [
    "Verif.Footprint.C134_every",
    "Verif.Footprint.C134_polar",
    "Verif.Footprint.C134_actions",
    "Verif.Footprint.C134_strongest",
    "Verif.Footprint.C134_orbit",
    "Verif.Footprint.C134_exact_partial",
    "Verif.Footprint.C134_half_violated",
    "Verif.Footprint.C134_chunk_violated"
   ],
   "note": "Exact for tunes on the grid of frequencies below one half, with as many turns as frequencies. Violated: tunes above one half are reported as 1 - q; a chunk size of zero never ends."
  },
  {
   "property": "C135",
   "status": "partial",
   "theorems": [
    "Verif.Footprint.C135_horizontal",
    "Verif.Footprint.C135_vertical_partial",
    "Verif.Footprint.C135_vertical_violated",
    "Verif.Footprint.C135_sign",
    "Verif.Footprint.C135_adaptive",
    "Verif.Footprint.C135_above"
   ],
   "note": "The vertical integral uses the grids on the wrong axes: harmless for equal numbers of points, an error for different ones without interpolation."
  },
  {
   "property": "C136",
   "status": "proved",
   "theorems": [
    "Verif.Footprint.C136_linear",
    "Verif.Footprint.C136_error"
   ],
   "note": ""
  },
  {
   "property": "C137",
   "status": "partial",
   "theorems": [
    "Verif.Saved.C137_plain",
    "Verif.Saved.C137_strengths",
    "Verif.Saved.C137_strengths_exact",
    "Verif.Saved.C137_slots",
    "Verif.Saved.C137_slots_partial",
    "Verif.Saved.C137_edge_partial",
    "Verif.Saved.C137_magnet_edge_partial",
    "Verif.Saved.C137_exciter_partial",
    "Verif.Saved.C137_segment_partial",
    "Verif.Saved.C137_rotation",
    "Verif.Saved.C137_sequences",
    "Verif.Saved.C137_twice_violated",
    "Verif.Saved.C137_slots_violated",
    "Verif.Saved.C137_edge_violated",
    "Verif.Saved.C137_magnet_edge_violated",
    "Verif.Saved.C137_exciter_violated",
    "Verif.Saved.C137_acdipole_violated",
    "Verif.Saved.C137_segment_violated"
   ],
   "note": "Proved for elements whose constructor takes the fields, for multipolar strengths and for rotations. Violated: dipole edges lose position, taper and attributes; magnet edges with zero arrays raise an error; exciters lose their duration, AC dipoles their tune and beta function, segment maps their chromaticity and damping; orders below 5 become 5; reading removes the associated aperture from the dictionary."
  },
  {
   "property": "C138",
   "status": "partial",
   "theorems": [
    "Verif.Saved.C138_composer_partial",
    "Verif.Saved.C138_reload_partial",
    "Verif.Saved.C138_copy_partial",
    "Verif.Saved.C138_shallow",
    "Verif.Saved.C138_env_partial",
    "Verif.Saved.C138_nested_violated",
    "Verif.Saved.C138_copy_violated",
    "Verif.Saved.C138_slicing_violated",
    "Verif.Saved.C138_version_violated",
    "Verif.Saved.C138_order_violated"
   ],
   "note": "Proved for lines made of names and places, copies in normal mode and environments in which lines only use earlier lines. Violated: lines with lines as components can not be written; the deep copy of a line in compose mode has elements named by the characters of __COMPOSE__; names before slicing are lost in copies; include_version=False is ignored; lines in compose mode which use later lines keep their names as elements."
  },
  {
   "property": "C139",
   "status": "partial",
   "theorems": [
    "Verif.Saved.C139_same",
    "Verif.Saved.C139_assign_partial",
    "Verif.Saved.C139_twiss_default_violated",
    "Verif.Saved.C139_metadata_violated"
   ],
   "note": "Proved for assignments. Violated: twiss_default and other containers in the configuration and in the metadata are shared between a line and its copy."
  },
  {
   "property": "C140",
   "status": "partial",
   "theorems": [
    "Verif.EProg.C140_turns",
    "Verif.EProg.C140_samples",
    "Verif.EProg.C140_constant",
    "Verif.EProg.C140_follows_partial",
    "Verif.EProg.C140_integer_violated",
    "Verif.EProg.C140_copy_violated",
    "Verif.EProg.C140_reload_violated"
   ],
   "note": "Proved for the line to which the program is attached. Violated: a shallow copy takes the program over, so that the line itself does not accelerate any more; after reading an environment only the last line accelerates; integer times give truncated turn numbers."
  },
  {
   "property": "C141",
   "status": "partial",
   "theorems": [
    "Verif.Proto.C141_partial",
    "Verif.Proto.C141_refused",
    "Verif.Proto.C141_override_violated",
    "Verif.Proto.C141_force_violated"
   ],
   "note": "Proved for all histories in which no element is overwritten with force=True and no attribute controlled by an expression in the prototype is given as a number. Both fail: the expression stays registered and overwrites the number when its variable changes."
  },
  {
   "property": "C142",
   "status": "partial",
   "theorems": [
    "Verif.Mad.C142_partial",
    "Verif.Mad.C142_names",
    "Verif.Mad.C142_precedence",
    "Verif.Mad.C142_exp_violated",
    "Verif.Mad.C142_round_violated",
    "Verif.Mad.C142_case_violated",
    "Verif.Mad.C142_sign_violated"
   ],
   "note": "Proved for lower case names and expressions whose outermost operation is not exp, erf, erfc or round. Violated: exp(x) is written as x, round(x) as ound(x), names which differ in case are merged, and -x^2 is read as (-x)^2."
  },
  {
   "property": "C143",
   "status": "partial",
   "theorems": [
    "Verif.Mad.Lines.C143_partial",
    "Verif.Mad.Lines.C143_apertures_partial",
    "Verif.Mad.Lines.C143_bare",
    "Verif.Mad.Lines.C143_reflection_violated",
    "Verif.Mad.Lines.C143_apertures_violated"
   ],
   "note": "Order proved unless a line is named inside a parenthesis with a sign; apertures proved without signs. Both fail otherwise."
  },
  {
   "property": "C144",
   "status": "partial",
   "theorems": [
    "Verif.LineAlg.C144_neg",
    "Verif.LineAlg.C144_neg_neg",
    "Verif.LineAlg.C144_add",
    "Verif.LineAlg.C144_sub",
    "Verif.LineAlg.C144_mul_partial",
    "Verif.LineAlg.C144_mul_zero",
    "Verif.LineAlg.C144_mirror_violated",
    "Verif.LineAlg.C144_length_violated"
   ],
   "note": "Violated: 2*(-line) in compose mode is reflected twice, and 2*line cannot be built if the line has a requested length."
  },
  {
   "property": "C145",
   "status": "partial",
   "theorems": [
    "Verif.Mad.C145_partial",
    "Verif.Mad.C145_renamed",
    "Verif.Mad.C145_k0",
    "Verif.Mad.C145_fint_partial",
    "Verif.Mad.C145_multipole_partial",
    "Verif.Mad.C145_zero_violated",
    "Verif.Mad.C145_fint_violated",
    "Verif.Mad.C145_multipole_violated"
   ],
   "note": "Proved unless a literal zero follows another value (it is ignored), fint is given alone after fintx, or several keys such as k0l, k1l are given (only the last is kept). The failures are proved."
  },
  {
   "property": "C146",
   "status": "partial",
   "theorems": [
    "Verif.Mad.Round.C146_straight_partial",
    "Verif.Mad.Round.C146_bend_partial",
    "Verif.Mad.Round.C146_cavity",
    "Verif.Mad.Round.C146_crab_partial",
    "Verif.Mad.Round.C146_multipole_partial",
    "Verif.Mad.Round.C146_slices_partial",
    "Verif.Mad.Round.C146_places_partial",
    "Verif.Mad.Round.C146_slices_violated",
    "Verif.Mad.Round.C146_shift_violated",
    "Verif.Mad.Round.C146_k0_violated",
    "Verif.Mad.Round.C146_hgap_violated",
    "Verif.Mad.Round.C146_crab_violated",
    "Verif.Mad.Round.C146_hxl_violated",
    "Verif.Mad.Round.C146_repeated_violated"
   ],
   "note": "Violated: slices are written with the multipole arrays of the whole magnet, displacements are not read, k0=0 comes back as the field of the angle, the exit gap becomes that of the entry, the phase of crab cavities is lost, thin kicks of multipoles become curvatures, lines with repeated elements cannot be written. Proved otherwise; rectangular bends and thick multipoles are not covered."
  },
  {
   "property": "C147",
   "status": "partial",
   "theorems": [
    "Verif.Mad.Order.C147_partial",
    "Verif.Mad.Order.C147_type_violated",
    "Verif.Mad.Order.C147_assign_violated",
    "Verif.Mad.Order.C147_exception_violated"
   ],
   "note": "Violated: dimensions given in a definition without the type give a circle whatever the class has, any assignment without aperture removes the association, a first aperture assigned without type and a type without dimensions are exceptions. Polygons and offsets are not modelled."
  },
  {
   "property": "C148",
   "status": "partial",
   "theorems": [
    "Verif.Mad.Order.C148_partial",
    "Verif.Mad.Order.C148_vars_partial",
    "Verif.Mad.Order.C148_beam_partial",
    "Verif.Mad.Order.C148_assign_violated",
    "Verif.Mad.Order.C148_again_violated",
    "Verif.Mad.Order.C148_arrow_violated",
    "Verif.Mad.Order.C148_beam_violated"
   ],
   "note": "Proved for files in which no class is changed before definitions derived from it and no name is defined twice. Violated otherwise; also the length of an element in an assignment with = is always 999, and a default beam replaces the beams of sequences given before it."
  },
  {
   "property": "C149",
   "status": "partial",
   "theorems": [
    "Verif.AperModel.Search.C149_bounds_partial",
    "Verif.AperModel.Search.C149_poses_partial",
    "Verif.AperModel.Search.C149_violated",
    "Verif.AperModel.Search.C149_poses_violated"
   ],
   "note": "Proved for positions in order; violated otherwise: the search never goes back, so a smaller position gets the profile and the segment of a larger one before it."
  },
  {
   "property": "C150",
   "status": "partial",
   "theorems": [
    "Verif.AperModel.Search.C150_ring",
    "Verif.AperModel.Search.C150_line_partial",
    "Verif.AperModel.Search.C150_found",
    "Verif.AperModel.Search.C150_line_violated",
    "Verif.AperModel.Search.C150_end_violated"
   ],
   "note": "Proved on rings, and on lines unless the reference is in the last segment; violated there (only the last segment is looked at) and for references at the end point."
  },
  {
   "property": "C151",
   "status": "partial",
   "theorems": [
    "Verif.AperModel.Search.C151_ends_partial",
    "Verif.AperModel.Search.C151_violated"
   ],
   "note": "The ends are included when there are at least two cuts; the distance between cuts exceeds the resolution, and with fewer than two cuts ends are missing."
  },
  {
   "property": "C152",
   "status": "partial",
   "theorems": [
    "Verif.AperModel.Intervals.C152_shortest",
    "Verif.AperModel.Intervals.C152_split_partial",
    "Verif.AperModel.Intervals.C152_line",
    "Verif.AperModel.Intervals.C152_around",
    "Verif.AperModel.Intervals.C152_both_sides",
    "Verif.AperModel.Intervals.C152_whole_violated"
   ],
   "note": "The shortest interval is proved in full. Cutting is proved except when the end, reduced to the ring, coincides with or comes just before the start; there it is violated: the whole ring becomes a single point."
  },
  {
   "property": "C153",
   "status": "proved",
   "theorems": [
    "Verif.AperModel.Intervals.C153_nearest"
   ],
   "note": ""
  },
  {
   "property": "C154",
   "status": "proved",
   "theorems": [
    "Verif.AperModel.Polygon.C154_interior",
    "Verif.AperModel.Polygon.C154_exterior",
    "Verif.AperModel.Polygon.C154_beam",
    "Verif.AperModel.Polygon.C154_box",
    "Verif.AperModel.Polygon.C154_shift",
    "Verif.AperModel.Polygon.C154_subdivide",
    "Verif.AperModel.Polygon.C154_boundary"
   ],
   "note": "Corners in strictly convex position; further points on sides by subdivision. On the boundary the left and lower sides count as inside."
  },
  {
   "property": "C155",
   "status": "partial",
   "theorems": [
    "Verif.AperModel.Beam.C155_shape",
    "Verif.AperModel.Beam.C155_scale",
    "Verif.AperModel.Beam.C155_sum_partial",
    "Verif.AperModel.Beam.C155_shape_violated",
    "Verif.AperModel.Beam.C155_sum_violated"
   ],
   "note": "Violated: a radial halo below the others gives another shape or no number without report; the sum with the tolerances is smaller than the set of sums when the corners have different proportions."
  },
  {
   "property": "C156",
   "status": "partial",
   "theorems": [
    "Verif.AperModel.Beam.C156_radius",
    "Verif.AperModel.Beam.C156_symmetric",
    "Verif.AperModel.Beam.C156_symmetric'",
    "Verif.AperModel.Beam.C156_secant_partial"
   ],
   "note": "The radius is proved in full. The number of sigmas is exact where the envelope grows linearly; in the corners two steps of a secant method are an approximation, not bounded here."
  },
  {
   "property": "C157",
   "status": "proved",
   "theorems": [
    "Verif.AperModel.Beam.C157_bisect",
    "Verif.AperModel.Beam.C157_ends",
    "Verif.AperModel.Beam.C157_nothing"
   ],
   "note": "That smaller beams fit is a hypothesis on the aperture."
  },
  {
   "property": "C158",
   "status": "partial",
   "theorems": [
    "Verif.AperModel.Rays.C158_distance_partial",
    "Verif.AperModel.Rays.C158_convex",
    "Verif.AperModel.Rays.C158_recognised_partial",
    "Verif.AperModel.Rays.C158_behind_violated",
    "Verif.AperModel.Rays.C158_outside_violated",
    "Verif.AperModel.Rays.C158_star_violated"
   ],
   "note": "Proved when no edge lies along the ray and for convex polygons from the interior. Violated: an edge along the ray behind the origin counts as in front, a beam outside gets positive distances, a star is taken for convex."
  },
  {
   "property": "C159",
   "status": "proved",
   "theorems": [
    "Verif.AperModel.Rays.C159_extents"
   ],
   "note": "Horizontal axis; the code for the vertical one is the same with the coordinates exchanged."
  },
  {
   "property": "C160",
   "status": "partial",
   "theorems": [
    "Verif.AperModel.Poses.C160_rigid",
    "Verif.AperModel.Poses.C160_inverse",
    "Verif.AperModel.Poses.C160_distance",
    "Verif.AperModel.Poses.C160_read",
    "Verif.AperModel.Poses.C160_write",
    "Verif.AperModel.Poses.C160_flat_violated"
   ],
   "note": "Violated for poses whose third axis points up or down: the turn about the vertical is lost when angles are read from the matrix."
  },
  {
   "property": "C161",
   "status": "partial",
   "theorems": [
    "Verif.AperModel.Poses.C161_rigid",
    "Verif.AperModel.Poses.C161_together",
    "Verif.AperModel.Poses.C161_pipe",
    "Verif.AperModel.Poses.C161_interpolate",
    "Verif.AperModel.Poses.C161_on_curve",
    "Verif.AperModel.Poses.C161_weak_violated"
   ],
   "note": "Exact unless an angle is below the limit for straight segments. Violated for long weak bends: one limit is for the angle and the other for the curvature. The bodies of straight magnets in bent frames are not modelled."
  },
  {
   "property": "C162",
   "status": "proved",
   "theorems": [
    "Verif.AperModel.Segments.C162_line_on_plane",
    "Verif.AperModel.Segments.C162_line_exact",
    "Verif.AperModel.Segments.C162_line_crossing",
    "Verif.AperModel.Segments.C162_arc",
    "Verif.AperModel.Segments.C162_straight"
   ],
   "note": "Bends with a curvature and planes with a slope over the precision of the code. The search over the segments is C150."
  },
  {
   "property": "C163",
   "status": "partial",
   "theorems": [
    "Verif.AperModel.Segments.C163_line",
    "Verif.AperModel.Segments.C163_arc",
    "Verif.AperModel.Segments.C163_short_violated"
   ],
   "note": "Violated on straight segments between a micrometre and a millimetre: the square of the length is compared with the limit."
  },
  {
   "property": "C164",
   "status": "partial",
   "theorems": [
    "Verif.AperModel.Curvilinear.C164_back",
    "Verif.AperModel.Curvilinear.C164_forth",
    "Verif.AperModel.Curvilinear.C164_across",
    "Verif.AperModel.Curvilinear.C164_oblique_violated"
   ],
   "note": "The cut is exact for planes across the axis; oblique planes are cut elsewhere (the comment in the code calls it a hack)."
  },
  {
   "property": "C165",
   "status": "proved",
   "theorems": [
    "Verif.AperModel.Bounds.C165_near",
    "Verif.AperModel.Bounds.C165_between",
    "Verif.AperModel.Bounds.C165_linear"
   ],
   "note": "Rationals instead of floating point numbers. Linear change is stated on a line, positions more than the precision of the code away from the profiles."
  },
  {
   "property": "C166",
   "status": "proved",
   "theorems": [
    "Verif.AperModel.Bounds.C166_sort",
    "Verif.AperModel.Bounds.C166_reorder",
    "Verif.AperModel.Bounds.C166_together"
   ],
   "note": "Pipes which wrap around the end of the ring are never moved by the code, and so in the model."
  },
  {
   "property": "C167",
   "status": "proved",
   "theorems": [
    "Verif.AperModel.Bounds.C167_valid"
   ],
   "note": "The pieces of pipes which wrap are those of C152."
  },
  {
   "property": "C168",
   "status": "partial",
   "theorems": [
    "Verif.AperModel.Shapes.C168_uniform",
    "Verif.AperModel.Shapes.C168_boundary",
    "Verif.AperModel.Shapes.C168_closed",
    "Verif.AperModel.Shapes.C168_written",
    "Verif.AperModel.Shapes.C168_length",
    "Verif.AperModel.Shapes.C168_angle",
    "Verif.AperModel.Shapes.C168_octagon_violated"
   ],
   "note": "Distances along elliptic arcs are proved for the elliptic integral; its numerical computation is not modelled. Violated for octagons whose cut corners do not meet the rectangle, which go beyond the width and height given."
  },
  {
   "property": "C169",
   "status": "partial",
   "theorems": [
    "Verif.AperModel.Limits.C169_limits_partial",
    "Verif.AperModel.Limits.C169_tilt_violated",
    "Verif.AperModel.Limits.C169_centre_violated"
   ],
   "note": "Violated: a rotation with rot_s_rad (aper_tilt of MAD-X) is ignored by the aperture model; the centre of an asymmetric aperture is not rotated. Rotations around x and y, shifts along s and polygons are not covered."
  },
  {
   "property": "C170",
   "status": "partial",
   "theorems": [
    "Verif.AperModel.Limits.C170_first",
    "Verif.AperModel.Limits.C170_same_partial",
    "Verif.AperModel.Limits.C170_shared_violated"
   ],
   "note": "Violated when elements of different length share an aperture: all get the pipe of the first one."
  },
  {
   "property": "C171",
   "status": "partial",
   "theorems": [
    "Verif.AperModel.Limits.C171_madx_partial",
    "Verif.AperModel.Limits.C171_octagon",
    "Verif.AperModel.Limits.C171_octagon_violated",
    "Verif.AperModel.Limits.C171_extra_violated",
    "Verif.AperModel.Limits.C171_zero_violated"
   ],
   "note": "Violated: the second angle of an octagon is ignored; extra parameters are never reported and apertures of zeros never ignored by the converter."
  },
  {
   "property": "C172",
   "status": "partial",
   "theorems": [
    "Verif.BeamStats.C172_slice",
    "Verif.BeamStats.C172_slice_partial",
    "Verif.BeamStats.C172_wide_violated",
    "Verif.BeamStats.C172_bunch",
    "Verif.BeamStats.C172_beam",
    "Verif.BeamStats.C172_slots",
    "Verif.BeamStats.C172_order",
    "Verif.BeamStats.C172_later",
    "Verif.BeamStats.C172_inside"
   ],
   "note": "Violated if zeta_range is longer than the bunch spacing: particles inside the range of a bunch but nearer to a neighbouring slot are silently not counted. Exact arithmetic; one thread of particles."
  },
  {
   "property": "C173",
   "status": "proved",
   "theorems": [
    "Verif.BeamStats.C173_coasting",
    "Verif.BeamStats.C173_complete"
   ],
   "note": "Exact arithmetic."
  },
  {
   "property": "C174",
   "status": "partial",
   "theorems": [
    "Verif.BeamStats.C174_bunch_partial",
    "Verif.BeamStats.C174_beam_partial",
    "Verif.BeamStats.C174_bunches",
    "Verif.BeamStats.C174_coasting"
   ],
   "note": "From slices it holds for the particles inside the range of the slices (the statistics of a bunch in slice mode leave out the others)."
  },
  {
   "property": "C175",
   "status": "proved",
   "theorems": [
    "Verif.BeamStats.C175_coasting",
    "Verif.BeamStats.C175_coasting_centre",
    "Verif.BeamStats.C175_slice",
    "Verif.BeamStats.C175_centre",
    "Verif.BeamStats.C175_record"
   ],
   "note": ""
  },
  {
   "property": "C176",
   "status": "proved",
   "theorems": [
    "Verif.BeamStats.C176_mean",
    "Verif.BeamStats.C176_cov",
    "Verif.BeamStats.C176_sigma",
    "Verif.BeamStats.C176_emittance",
    "Verif.BeamStats.C176_empty",
    "Verif.BeamStats.C176_invariant",
    "Verif.BeamStats.C176_entry"
   ],
   "note": "Real arithmetic; the statistics which need the covariance optics are not covered."
  },
  {
   "property": "C177",
   "status": "proved",
   "theorems": [
    "Verif.BeamStats.C177_stored",
    "Verif.BeamStats.C177_accepted"
   ],
   "note": "Names of statistics are a data type."
  },
  {
   "property": "C178",
   "status": "proved",
   "theorems": [
    "Verif.BeamStats.C178_bins",
    "Verif.BeamStats.C178_edges",
    "Verif.BeamStats.C178_sum"
   ],
   "note": "Exact arithmetic."
  },
  {
   "property": "C179",
   "status": "partial",
   "theorems": [
    "Verif.BeamStats.C179_increasing",
    "Verif.BeamStats.C179_again",
    "Verif.BeamStats.C179_appends",
    "Verif.BeamStats.C179_complete_partial",
    "Verif.BeamStats.C179_consistent",
    "Verif.BeamStats.C179_update_violated",
    "Verif.BeamStats.C179_slices_violated",
    "Verif.BeamStats.C179_torn_violated"
   ],
   "note": "Violated: records which get more particles after a save are never updated in the file; a monitor with other slices appends to the file of the first; one with another number of slices leaves a file with more turns than rows."
  },
  {
   "property": "C180",
   "status": "partial",
   "theorems": [
    "Verif.ClosedOrbit.C180_closed_6d",
    "Verif.ClosedOrbit.C180_closed_4d",
    "Verif.ClosedOrbit.C180_zeta0_partial",
    "Verif.ClosedOrbit.C180_zeta0_violated",
    "Verif.ClosedOrbit.C180_guess",
    "Verif.ClosedOrbit.C180_error",
    "Verif.ClosedOrbit.C180_t_rev",
    "Verif.ClosedOrbit.C180_t_rev_violated"
   ],
   "note": "The optimizer of xdeps is assumed to report success only within its tolerances. Violated: with zeta0 and zeta_shift the zeta of the particle is off by the shift; the search for the revolution time with one turn accepts every particle."
  },
  {
   "property": "C181",
   "status": "partial",
   "theorems": [
    "Verif.ClosedOrbit.C181_elsewhere",
    "Verif.ClosedOrbit.C181_exact",
    "Verif.ClosedOrbit.C181_spin_partial",
    "Verif.ClosedOrbit.C181_spin_violated"
   ],
   "note": "Violated for spin: the spin at the place of the search is found with a turn which begins at the start of the line."
  },
  {
   "property": "C182",
   "status": "proved",
   "theorems": [
    "Verif.Boris.C182_backtrack"
   ],
   "note": "Real numbers, without radiation and spin."
  },
  {
   "property": "C183",
   "status": "proved",
   "theorems": [
    "Verif.Boris.C183_ends",
    "Verif.Boris.C183_mean"
   ],
   "note": ""
  },
  {
   "property": "C184",
   "status": "partial",
   "theorems": [
    "Verif.Boris.C184_drift_partial",
    "Verif.Boris.C184_drift_violated",
    "Verif.Boris.C184_bend_partial",
    "Verif.Boris.C184_bend_violated",
    "Verif.Boris.C184_stopped_violated"
   ],
   "note": "Violated for particles of another species: the kick uses the charge of the reference particle instead of chi, and the time of flight is multiplied by the ratio of masses. Violated for particles which are turned round: they come out at the end of the element alive and unchanged."
  },
  {
   "property": "C185",
   "status": "proved",
   "theorems": [
    "Verif.Boris.C185_maxwell",
    "Verif.Boris.C185_element",
    "Verif.Boris.C185_midplane",
    "Verif.Boris.C185_ends"
   ],
   "note": "All seven cases of the generated code, translated term by term."
  },
  {
   "property": "C186",
   "status": "partial",
   "theorems": [
    "Verif.Cooler.C186_friction_partial",
    "Verif.Cooler.C186_outside",
    "Verif.Cooler.C186_equilibrium_partial",
    "Verif.Cooler.C186_momentum_partial",
    "Verif.Cooler.C186_record",
    "Verif.Cooler.C186_species_violated",
    "Verif.Cooler.C186_cold_violated",
    "Verif.Cooler.C186_negative_violated"
   ],
   "note": "Proved for positive reference charge and electrons with longitudinal temperature. Violated: the charge of the particle is not used, only that of the reference particle; without longitudinal temperature a particle moving with the electrons becomes not a number; with a negative reference charge (antiprotons) the smallest impact parameter is negative and the logarithm can be not a number."
  },
  {
   "property": "C187",
   "status": "partial",
   "theorems": [
    "Verif.Session.C187_hidden_partial",
    "Verif.Session.C187_hidden_violated",
    "Verif.Session.C187_context_partial",
    "Verif.Session.C187_cpu",
    "Verif.Session.C187_context_violated",
    "Verif.Session.C187_records_partial",
    "Verif.Session.C187_records_violated"
   ],
   "note": "Violated: a part before the first element which needs lost particles hidden leaves them hidden, although it is not tracked; tracking which stops at an element needing the CPU leaves particles from a GPU there; after a hold the monitor at several elements is forgotten. Proved in all other cases."
  },
  {
   "property": "C188",
   "status": "partial",
   "theorems": [
    "Verif.Reread.C188_functions_first",
    "Verif.Reread.C188_functions_violated",
    "Verif.Reread.C188_table_first",
    "Verif.Reread.C188_table_partial",
    "Verif.Reread.C188_table_violated",
    "Verif.Reread.C188_elements",
    "Verif.Reread.C188_elements_read",
    "Verif.Reread.C188_ancient",
    "Verif.Reread.C188_ancient_read",
    "Verif.Reread.C188_metadata_partial",
    "Verif.Reread.C188_metadata_violated"
   ],
   "note": "Proved for elements, ancient lines and tables without particles. Violated: functions of an environment cannot be read a second time (KeyError); the closed orbit of a table is read as a mere dictionary the second time; objects read from the same dictionary share its metadata."
  },
  {
   "property": "C189",
   "status": "partial",
   "theorems": [
    "Verif.Hdf.C189_group_partial",
    "Verif.Hdf.C189_single_partial",
    "Verif.Hdf.C189_others",
    "Verif.Hdf.C189_path_replaces",
    "Verif.Hdf.C189_default_violated",
    "Verif.Hdf.C189_handle_violated",
    "Verif.Hdf.C189_none_violated",
    "Verif.Hdf.C189_attribute_violated"
   ],
   "note": "Proved for tables written to a group. Violated: what is written with the defaults of Table.to_hdf5 cannot be read with the defaults of Table.from_hdf5 nor by xt.load, as the root of the file then has more than one group; without a group nothing can be read from an open file; None in a column of texts becomes the text null; texts which are not ASCII and arrays of texts cannot be attributes, and the attempt destroys the file."
  },
  {
   "property": "C190",
   "status": "partial",
   "theorems": [
    "Verif.Calls.C190_definitions_partial",
    "Verif.Calls.C190_definitions_violated",
    "Verif.Calls.C190_afterwards_partial",
    "Verif.Calls.C190_afterwards_violated"
   ],
   "note": "Proved if no file asks for the environment after it has called another file. Violated: the inner call forgets the environment of the outer one, so that the outer file then gets a new environment, which is lost; after a KeyboardInterrupt the environment stays in place."
  },
  {
   "property": "C191",
   "status": "partial",
   "theorems": [
    "Verif.Load.C191_guess",
    "Verif.Load.C191_sources_partial",
    "Verif.Load.C191_compressed_partial",
    "Verif.Load.C191_list",
    "Verif.Load.C191_mixed",
    "Verif.Load.C191_python_violated",
    "Verif.Load.C191_capitals_violated",
    "Verif.Load.C191_urls_violated",
    "Verif.Load.C191_options_violated"
   ],
   "note": "Violated: Python files cannot be loaded from the net; compressed files with capital letters in their ending are not decompressed although their format is known; lists of URLs are looked for on the disk; options for HDF5 (the group) are dropped."
  },
  {
   "property": "C192",
   "status": "partial",
   "theorems": [
    "Verif.Rename.C192_values_partial",
    "Verif.Rename.C192_later_partial",
    "Verif.Rename.C192_taken_violated",
    "Verif.Rename.C192_itself_violated"
   ],
   "note": "Holds if the new name is not in use. Violated: an existing variable of the new name is overwritten without an error; a variable renamed to its own name is removed."
  },
  {
   "property": "C193",
   "status": "partial",
   "theorems": [
    "Verif.FromSeq.C193_positions_partial",
    "Verif.FromSeq.C193_each_partial",
    "Verif.FromSeq.C193_accepts",
    "Verif.FromSeq.C193_nodes",
    "Verif.FromSeq.C193_names_partial",
    "Verif.FromSeq.C193_reorder_partial",
    "Verif.FromSeq.C193_drift_violated",
    "Verif.FromSeq.C193_nested_violated",
    "Verif.FromSeq.C193_reorder_violated"
   ],
   "note": "Positions and length hold if the names of the line are different. Violated: an element called drift replaces the drift in front of it; names of nested sequences can be those of other elements, which are then lost; with auto_reorder a marker at the entrance of a thick element must still be given before it."
  },
  {
   "property": "C194",
   "status": "partial",
   "theorems": [
    "Verif.RelErr.C194_once_partial",
    "Verif.RelErr.C194_accepts",
    "Verif.RelErr.C194_others",
    "Verif.RelErr.C194_again_violated",
    "Verif.RelErr.C194_expression_violated"
   ],
   "note": "Holds for errors set once on components which are numbers. Violated: errors set a second time count twice (for all elements and errors other than zero); errors of components with expressions are dropped without notice."
  },
  {
   "property": "C195",
   "status": "partial",
   "theorems": [
    "Verif.VarLoad.C195_loaded_partial",
    "Verif.VarLoad.C195_order_partial",
    "Verif.VarLoad.C195_setting",
    "Verif.VarLoad.C195_setting_partial",
    "Verif.VarLoad.C195_json_violated",
    "Verif.VarLoad.C195_madx_violated"
   ],
   "note": "Holds for JSON files none of whose names is that of an element, and for the setting after update and load of JSON. Violated: after an error in a MAD-X file (all environments) or in load_json missing variables are zero from then on, and misspelled names are no errors any more."
  },
  {
   "property": "C196",
   "status": "partial",
   "theorems": [
    "Verif.RevElem.C196_field",
    "Verif.RevElem.C196_twice",
    "Verif.RevElem.C196_line_partial",
    "Verif.RevElem.C196_others",
    "Verif.RevElem.C196_repeated_violated",
    "Verif.RevElem.C196_aperture_partial",
    "Verif.RevElem.C196_offset_violated"
   ],
   "note": "The field of each reversed element is right for all multipoles. Violated: an element which occurs an even number of times in the line is not reversed at all (each occurrence reverses it again); the horizontal offset of apertures is not reversed."
  },
  {
   "property": "C197",
   "status": "partial",
   "theorems": [
    "Verif.Cleanup.C197_tracking_partial",
    "Verif.Cleanup.C197_ions_violated",
    "Verif.Cleanup.C197_multipoles_violated"
   ],
   "note": "Proved for lines without slices and repeated names, with aligned multipoles and one drift model, and for particles with the charge-to-mass ratio of the reference particle; the removal of apertures is a parameter (C43). Violated: for other particles the simple bends change zeta differently from the multipoles which they replace; multipoles with a drift of length zero in between are left unmerged, since such drifts are removed only afterwards."
  },
  {
   "property": "C198",
   "status": "partial",
   "theorems": [
    "Verif.Extend.C198_order",
    "Verif.Extend.C198_strengths_partial",
    "Verif.Extend.C198_list_partial",
    "Verif.Extend.C198_line_partial",
    "Verif.Extend.C198_all_violated",
    "Verif.Extend.C198_tiny_violated"
   ],
   "note": "Proved for magnets whose strengths are zero or not all below 1e-16. Violated: without names the method of the environment raises, although documented to extend all elements; a magnet which has the order already and strengths below 1e-16 only loses them, since it is made again from its dictionary."
  }
 ]
}