{
 "claims": [
  {
   "property": "C01",
   "status": "proved",
   "theorems": [
    "Verif.StringPattern.match_sound"
   ],
   "note": "Every '|'-free pattern; OR patterns through match_or_sound (C03)."
  },
  {
   "property": "C02",
   "status": "partial",
   "theorems": [
    "Verif.StringPattern.match_complete_partial",
    "Verif.StringPattern.match_complete_unique_partial",
    "Verif.StringPattern.match_iff_glob_of_trailing_star",
    "Verif.StringPattern.match_complete_violated"
   ],
   "note": "False as stated: \"*a\" does not match \"aa\" (match_complete_violated). Proved for patterns without wildcard, patterns ending in a wildcard, and when the last literal occurs only at the end of the subject."
  },
  {
   "property": "C03",
   "status": "proved",
   "theorems": [
    "Verif.StringPattern.match_or",
    "Verif.StringPattern.match_or_sound",
    "Verif.StringPattern.match_or_empty_alternative"
   ],
   "note": "At least two non-empty alternatives; with an empty alternative the text is read as a literal (match_or_empty_alternative)."
  },
  {
   "property": "C04",
   "status": "partial",
   "theorems": [
    "Verif.StringPattern.print_equivalent",
    "Verif.StringPattern.print_or_violated",
    "Verif.StringPattern.print_not_original"
   ],
   "note": "Equivalent pattern printed for '|'-free patterns; false for OR patterns and the literal text is not always reproduced."
  },
  {
   "property": "C05",
   "status": "proved",
   "theorems": [
    "Verif.DataTable.table_rectangular",
    "Verif.DataTable.header_consistent"
   ],
   "note": "For every history of calls, failing ones included; the header analogue as well."
  },
  {
   "property": "C06",
   "status": "proved",
   "theorems": [
    "Verif.DataTable.set_changes_one_cell",
    "Verif.DataTable.setWithStr_changes_one_cell"
   ],
   "note": "For every reachable table; exceptions of the getters are compared too."
  },
  {
   "property": "C07",
   "status": "partial",
   "theorems": [
    "Verif.DataTable.failed_call_unchanged_partial",
    "Verif.DataTable.failed_addRow_violated",
    "Verif.DataTable.addRow_values_frame",
    "Verif.DataTable.apertureFromRow_frame",
    "Verif.DataTable.getD_reason",
    "Verif.DataTable.getI_reason",
    "Verif.DataTable.getS_reason",
    "Verif.DataTable.set_reason",
    "Verif.DataTable.addColumn_reason"
   ],
   "note": "Reasons proved. State: false for AddRow(values...) and ApertureFromRow, which leave an extra row behind (failed_addRow_violated); proved for every other call, and earlier rows are always intact."
  },
  {
   "property": "C08",
   "status": "proved",
   "theorems": [
    "Verif.TFS.tfs_round_trip",
    "Verif.TFS.rows_without_columns_lost",
    "Verif.TFS.empty_string_unreadable"
   ],
   "note": "Round trip for every table reachable by public calls with word names and quotable strings. A table with rows but no columns loses its rows (shown); empty strings cannot be read back (shown). Number formatting and stod are parameters with stated assumptions."
  },
  {
   "property": "C09",
   "status": "proved",
   "theorems": [
    "Verif.TFS.split_exact"
   ],
   "note": ""
  },
  {
   "property": "C10",
   "status": "partial",
   "theorems": [
    "Verif.TFS.read_accepts",
    "Verif.TFS.read_total_violated",
    "Verif.TFS.read_total_partial"
   ],
   "note": "Acceptance fully characterised. The claim fails for empty files and files cut after the * line (words[0] of an empty vector); proved that the three truncated shapes are the only such texts."
  },
  {
   "property": "C100",
   "status": "partial",
   "theorems": [
    "Verif.Bunch.generate_spec",
    "Verif.Bunch.generate_ends",
    "Verif.Bunch.generate_endless",
    "Verif.Bunch.generate_zero_violated",
    "Verif.Bunch.generate_filter_violated"
   ],
   "note": "np = 0 gives one particle; the centroid is not filtered; endless if the filter accepts nothing."
  },
  {
   "property": "C101",
   "status": "partial",
   "theorems": [
    "Verif.Bunch.input_output_partial",
    "Verif.Bunch.input_ids_violated"
   ],
   "note": "Ids are lost."
  },
  {
   "property": "C102",
   "status": "partial",
   "theorems": [
    "Verif.Bunch.read_write_partial",
    "Verif.Bunch.read_write_violated"
   ],
   "note": "Violated for every id that is not negative."
  },
  {
   "property": "C103",
   "status": "partial",
   "theorems": [
    "Verif.Bunch.swap_partial",
    "Verif.Bunch.swap_violated"
   ],
   "note": "Violated: the argument is passed by value."
  },
  {
   "property": "C104",
   "status": "proved",
   "theorems": [
    "Verif.Bunch.fromArray_spec",
    "Verif.Bunch.charge_lost"
   ],
   "note": ""
  },
  {
   "property": "C105",
   "status": "partial",
   "theorems": [
    "Verif.Beam.coupling_symplectic",
    "Verif.Beam.coupling_inverse",
    "Verif.Beam.coupling_singular_violated"
   ],
   "note": "Symplecticity and inverse proved for all parameters. That nonzero parameters couple is violated: a zero determinant gives the identity."
  },
  {
   "property": "C106",
   "status": "proved",
   "theorems": [
    "Verif.Beam.normal_symplectic",
    "Verif.Beam.inverse_beta",
    "Verif.Beam.beam_moments",
    "Verif.Beam.beam_moments_coupled"
   ],
   "note": "Doubles are exact reals; square roots are real square roots."
  },
  {
   "property": "C107",
   "status": "partial",
   "theorems": [
    "Verif.Beam.beam_round_trip_partial",
    "Verif.Beam.beam_round_violated",
    "Verif.Beam.beam_centre_violated",
    "Verif.Beam.coupling_recovery_partial",
    "Verif.Beam.coupling_recovery_violated"
   ],
   "note": "Proved for uncoupled beams with different emittances, apart from ct0 and p0. Violated: equal emittances divide by zero, ct0 and p0 are lost, signs of two coupling parameters and the factor for rotations are wrong. Convergence of the decoupling loop for coupled beams is not proved."
  },
  {
   "property": "C108",
   "status": "partial",
   "theorems": [
    "Verif.Beam.generated_mean",
    "Verif.Beam.generated_covariance",
    "Verif.Beam.generated_spread_partial",
    "Verif.Beam.generated_spread_violated"
   ],
   "note": "Means are right. Covariances are those of a beam with the square roots of the given length and energy spread, which is the wrong beam unless they are 0 or 1. The centroid particle added first and the filter are covered by C100."
  },
  {
   "property": "C109",
   "status": "partial",
   "theorems": [
    "Verif.LossMap.temperature_spec",
    "Verif.LossMap.temperature_place_partial",
    "Verif.LossMap.temperature_place_violated"
   ],
   "note": "The code compares where the component begins, not where the loss is."
  },
  {
   "property": "C11",
   "status": "proved",
   "theorems": [
    "Verif.Ring.inc_dec_inverse",
    "Verif.Ring.walk_inc",
    "Verif.Ring.full_turn",
    "Verif.Ring.full_turn_back",
    "Verif.Ring.period_exact",
    "Verif.Ring.empty_ring_undefined"
   ],
   "note": ""
  },
  {
   "property": "C110",
   "status": "partial",
   "theorems": [
    "Verif.LossMap.detailed_filter",
    "Verif.LossMap.detailed_columns_violated"
   ],
   "note": "Recording proved; the headings do not fit the columns. Matching of patterns is the subject of C01-C04."
  },
  {
   "property": "C111",
   "status": "partial",
   "theorems": [
    "Verif.Collimation.each_loss_recorded_partial",
    "Verif.Collimation.last_step_violated",
    "Verif.Collimation.zero_length_violated",
    "Verif.Collimation.absorbed_unrecorded_violated"
   ],
   "note": "Recorded once if outside at one of the steps before the exit. Losses in the last step, in components without length, and absorption at low energy are not recorded."
  },
  {
   "property": "C112",
   "status": "partial",
   "theorems": [
    "Verif.Collimation.turns",
    "Verif.Collimation.ring_turns",
    "Verif.Collimation.second_run_violated"
   ],
   "note": "Right for the first run; not reset for a second run."
  },
  {
   "property": "C113",
   "status": "proved",
   "theorems": [
    "Verif.Collimation.collimation_points"
   ],
   "note": "Steps add up to the length; fequal is equality."
  },
  {
   "property": "C114",
   "status": "partial",
   "theorems": [
    "Verif.Collimation.transparent_straight_partial",
    "Verif.Collimation.escape_violated",
    "Verif.Collimation.last_bin_violated"
   ],
   "note": "Straight while the particle stays in the jaw. A particle that comes out is moved too far; in a shorter last bin particles jump."
  },
  {
   "property": "C115",
   "status": "partial",
   "theorems": [
    "Verif.Collimation.stopped_position_partial",
    "Verif.Collimation.absorbed_position_violated"
   ],
   "note": "Right for particles that lose all their energy; one step too far for particles lost in an interaction."
  },
  {
   "property": "C116",
   "status": "partial",
   "theorems": [
    "Verif.Collimation.own_lists_partial",
    "Verif.Collimation.user_list_violated",
    "Verif.Collimation.leak_violated"
   ],
   "note": "Right without lists given by the user; those are deleted by the process."
  },
  {
   "property": "C117",
   "status": "partial",
   "theorems": [
    "Verif.MatrixMap.moments_of_particles",
    "Verif.MatrixMap.moments_block_partial",
    "Verif.MatrixMap.lost_moments_violated"
   ],
   "note": "Right in three degrees of freedom; with fewer the moments of the other coordinates are set to zero."
  },
  {
   "property": "C118",
   "status": "partial",
   "theorems": [
    "Verif.MatrixMap.reference_momentum_partial",
    "Verif.MatrixMap.reference_momentum_violated",
    "Verif.MatrixMap.rescale_partial",
    "Verif.MatrixMap.rescale_violated",
    "Verif.MatrixMap.moments_reference_partial",
    "Verif.MatrixMap.moments_reference_violated"
   ],
   "note": "Particles: right unless the matrix changes the momentum. Moments: the correlation of ct and dp is not rescaled."
  },
  {
   "property": "C119",
   "status": "partial",
   "theorems": [
    "Verif.MatrixMap.composition",
    "Verif.MatrixMap.composition_moments",
    "Verif.MatrixMap.composition_reference_partial",
    "Verif.MatrixMap.composition_momentum_violated"
   ],
   "note": "Right for energy-independent maps and, below three degrees of freedom, for equal reference momenta; the reference momentum of the factor is ignored."
  },
  {
   "property": "C12",
   "status": "proved",
   "theorems": [
    "Verif.Range.range_closed_interval",
    "Verif.Range.check_side",
    "Verif.Range.unbounded_accepts",
    "Verif.Range.fixed_accepts",
    "Verif.Range.eq_ne",
    "Verif.Range.sentinel_collision"
   ],
   "note": "For tolerance eps < 1. The sentinel (1,-1) can only be reached by writing the public members (sentinel_collision)."
  },
  {
   "property": "C120",
   "status": "partial",
   "theorems": [
    "Verif.MatrixMap.chromatic_particle",
    "Verif.MatrixMap.chromatic_linear",
    "Verif.MatrixMap.chromatic_moments_partial",
    "Verif.MatrixMap.chromatic_moments_violated"
   ],
   "note": "Moments only without momentum spread."
  },
  {
   "property": "C121",
   "status": "partial",
   "theorems": [
    "Verif.Support.simple_mount",
    "Verif.Support.girder_partial",
    "Verif.Support.girder_violated",
    "Verif.Support.copy_violated",
    "Verif.Support.copy_girder"
   ],
   "note": "Proved for simple mounts and for girders whose supports are moved together between queries. Violated: moving one support of a girder has no effect; the copy of a simple mount follows an uninitialised pointer."
  },
  {
   "property": "C122",
   "status": "partial",
   "theorems": [
    "Verif.Support.girder_entrance",
    "Verif.Support.girder_exit",
    "Verif.Support.girder_common_partial",
    "Verif.Support.girder_common_violated"
   ],
   "note": "Entrance exact for all frames, exit to first order for straight girders. Violated: equal offsets on a girder whose entrance frame is turned are applied in the wrong frame."
  },
  {
   "property": "C123",
   "status": "proved",
   "theorems": [
    "Verif.Spin.precession_bmt",
    "Verif.Spin.rotateSpin_motion",
    "Verif.Spin.rotateSpin_steps",
    "Verif.Spin.rotateSpin_len2",
    "Verif.Spin.rotateSpin_back",
    "Verif.Spin.turn_axis",
    "Verif.Spin.process_len2"
   ],
   "note": "Over the reals, positive constants and positive momenta."
  },
  {
   "property": "C124",
   "status": "partial",
   "theorems": [
    "Verif.Spin.scaling_partial",
    "Verif.Spin.scaling_solenoid_violated"
   ],
   "note": "Proved for bends and all magnets without fringe code. Violated: solenoid fringe fields are not divided by the momentum."
  },
  {
   "property": "C125",
   "status": "partial",
   "theorems": [
    "Verif.Spin.spins_follow_partial",
    "Verif.Spin.sort_violated",
    "Verif.Spin.clear_violated",
    "Verif.Spin.swap_violated",
    "Verif.Spin.transform_spin",
    "Verif.Spin.polarisation_le_one",
    "Verif.Spin.average_turns"
   ],
   "note": "Proved for adding, erasing and transforming. Violated by sorting (known to the authors), clearing and exchanging, which touch particles only."
  },
  {
   "property": "C126",
   "status": "partial",
   "theorems": [
    "Verif.Slices.moments_of_charge",
    "Verif.Slices.moments_accumulate",
    "Verif.Slices.moments_repeat_violated",
    "Verif.Slices.centroid_eq_mean",
    "Verif.Slices.projected_of_charge",
    "Verif.Slices.projected_repeat_violated",
    "Verif.Slices.addParticle_charge"
   ],
   "note": "Proved for a result object without earlier second moments; with a reused object the code adds to what was there (sigma.zero() clears the means only), shown by witnesses."
  },
  {
   "property": "C127",
   "status": "partial",
   "theorems": [
    "Verif.Slices.refMomentum_partial",
    "Verif.Slices.refMomentum_momenta",
    "Verif.Slices.refMomentum_violated",
    "Verif.Slices.refTime_partial",
    "Verif.Slices.refTime_violated",
    "Verif.Slices.adjustCentroid_centroid"
   ],
   "note": "The code divides dp by 1+mean instead of also subtracting the mean, and does not shift ct; the negations are proved with witnesses and what does hold is proved in general."
  },
  {
   "property": "C128",
   "status": "partial",
   "theorems": [
    "Verif.Slices.transform_partial",
    "Verif.Slices.apply_represents",
    "Verif.Slices.noRot_represents",
    "Verif.Slices.tilted_centroid_partial",
    "Verif.Slices.smallRotation_violated",
    "Verif.Slices.drift_violated",
    "Verif.Slices.transform_report_violated"
   ],
   "note": "Exact for transverse displacements and rotations about the axis with |cos-1|>1e-6; smaller rotations and longitudinal displacements are ignored by the code (witnesses); rotations about transverse axes only characterised for the centroid."
  },
  {
   "property": "C129",
   "status": "proved",
   "theorems": [
    "Verif.Slices.read_write",
    "Verif.Slices.file_roundtrip",
    "Verif.Slices.file_accepted"
   ],
   "note": "Numbers are written exactly in the model; the program rounds to seven digits."
  },
  {
   "property": "C13",
   "status": "proved",
   "theorems": [
    "Verif.Lattice.slice_exact",
    "Verif.Lattice.slice_bad_range",
    "Verif.Lattice.whole_beamline",
    "Verif.Lattice.slice_lower_unchecked"
   ],
   "note": "The lower index is not checked (slice_lower_unchecked)."
  },
  {
   "property": "C130",
   "status": "partial",
   "theorems": [
    "Verif.Slices.construct_charge",
    "Verif.Slices.construct_charge_violated",
    "Verif.Slices.construct_centroid_partial"
   ],
   "note": "Charge is that within the ranges, proved to be less than that of the beam for any function like erfc; centroid and dispersion proved."
  },
  {
   "property": "C131",
   "status": "partial",
   "theorems": [
    "Verif.Slices.from_charge",
    "Verif.Slices.from_charge_partial",
    "Verif.Slices.bin_place",
    "Verif.Slices.from_charge_violated",
    "Verif.Slices.from_centroid_violated",
    "Verif.Slices.from_truncation_violated",
    "Verif.Slices.from_time_violated",
    "Verif.Slices.from_monochromatic_ub"
   ],
   "note": "Charge is kept when the ranges are the extreme values; other parts are violated, with witnesses; bound on the misplacement proved."
  },
  {
   "property": "C132",
   "status": "partial",
   "theorems": [
    "Verif.Slices.toParticles_partial",
    "Verif.Slices.toParticles_ub"
   ],
   "note": "Holds whenever the conversion returns; it is undefined for every bunch with slices of different ct or dp."
  },
  {
   "property": "C133",
   "status": "partial",
   "theorems": [
    "Verif.MultiNormal.cholesky_product",
    "Verif.MultiNormal.randVec_moments",
    "Verif.MultiNormal.accepted_semidef",
    "Verif.MultiNormal.posDef_accepted",
    "Verif.MultiNormal.ofCov_accepted",
    "Verif.MultiNormal.noSpread_violated",
    "Verif.MultiNormal.dimension_refused"
   ],
   "note": "Moments, acceptance of positive definite matrices and refusal of others are proved for exact arithmetic. A semidefinite matrix without spread in the first coordinate (a beam of zero size in it) divides by zero: proved as a violation. The normal shape of the numbers drawn is outside of the model."
  },
  {
   "property": "C134",
   "status": "partial",
   "theorems": [
    "Verif.Wake.binList_slices",
    "Verif.Wake.binList_normalised",
    "Verif.Wake.filter_violated",
    "Verif.Wake.rounding_violated"
   ],
   "note": "Proved for exact arithmetic without a filter of the derivative. With a filter and four or more bins the loops read beyond the histogram or the filter (proved for all inputs); with rounded boundaries the program can stop on particles inside of the range."
  },
  {
   "property": "C135",
   "status": "partial",
   "theorems": [
    "Verif.Wake.init_ready",
    "Verif.Wake.kicks_spec",
    "Verif.Wake.impulse_spec",
    "Verif.Wake.wake_ahead",
    "Verif.Wake.cutTwice_violated"
   ],
   "note": "Momenta, directions, charge, causality and the reference momentum are proved in exact arithmetic for a process whose filter is left out (see C134; the process always has one). Cutting off exactly the tails is violated: after a first cut the deviation is computed again and the bunch cut a second time."
  },
  {
   "property": "C136",
   "status": "partial",
   "theorems": [
    "Verif.Wake.csr_violated"
   ],
   "note": "Violated: the distance is a difference of unsigned numbers that wraps around, so the potential is only asked for distances of about 2^64 widths in front. Nothing positive is left to prove."
  },
  {
   "property": "C137",
   "status": "partial",
   "theorems": [
    "Verif.Distribution.distribution_partial",
    "Verif.Distribution.distribution_normalised",
    "Verif.Distribution.end_violated",
    "Verif.Distribution.first_violated"
   ],
   "note": "Proved if no particle lies beyond the last whole bin and the first particle is not removed. A particle at the upper end of the range fails an assertion; removing the first particle moves an iterator before the begin."
  },
  {
   "property": "C138",
   "status": "partial",
   "theorems": [
    "Verif.SliceWake.slices_partial",
    "Verif.SliceWake.slices_width",
    "Verif.SliceWake.charge_violated",
    "Verif.SliceWake.single_violated"
   ],
   "note": "All but the sums of the first slice; the code counts the first macro-particle twice, which is proved for every bunch (charge_violated)."
  },
  {
   "property": "C139",
   "status": "partial",
   "theorems": [
    "Verif.SliceWake.kicks_spec",
    "Verif.SliceWake.awk_kicked",
    "Verif.SliceWake.wakeZ_eq",
    "Verif.SliceWake.kick_eq",
    "Verif.SliceWake.moments_partial",
    "Verif.SliceWake.moments_left",
    "Verif.SliceWake.moments_violated"
   ],
   "note": "Momenta proved in full; of the second moments all but <x' y>, which the code forgets to scale (moments_violated)."
  },
  {
   "property": "C14",
   "status": "partial",
   "theorems": [
    "Verif.Lattice.pattern_beamline_characterised",
    "Verif.Lattice.pattern_beamline_partial",
    "Verif.Lattice.pattern_beamline_bad_range",
    "Verif.Lattice.pattern_beamline_violated",
    "Verif.Lattice.pattern_beamline_reversed"
   ],
   "note": "Violated when the start element also matches the second pattern, and an end before the start is not rejected; proved otherwise."
  },
  {
   "property": "C140",
   "status": "partial",
   "theorems": [
    "Verif.SliceWake.beamloading_partial",
    "Verif.SliceWake.beamloading_violated"
   ],
   "note": "Proved for slices with the charges of their macro-particles; violated for the slices which PrepSlices makes."
  },
  {
   "property": "C141",
   "status": "proved",
   "theorems": [
    "Verif.ModeWake.kick_force",
    "Verif.ModeWake.kick_gradient",
    "Verif.ModeWake.transverse_spec",
    "Verif.ModeWake.transverse_turn",
    "Verif.ModeWake.conv_eq",
    "Verif.ModeWake.moments_eq"
   ],
   "note": "For wakes without longitudinal part; with one the slopes are divided by 1 + ddp as well."
  },
  {
   "property": "C142",
   "status": "partial",
   "theorems": [
    "Verif.ModeWake.longitudinal_partial",
    "Verif.ModeWake.kick_dp",
    "Verif.ModeWake.loss_turn",
    "Verif.ModeWake.longitudinal_violated"
   ],
   "note": "Holds where the moments are real; the sign of the sine term is wrong, so that a bunch above the axis gains what it would lose beside it (longitudinal_violated)."
  },
  {
   "property": "C143",
   "status": "partial",
   "theorems": [
    "Verif.Radiation.symp_braked",
    "Verif.Radiation.angles_partial",
    "Verif.Radiation.angles_violated",
    "Verif.Radiation.loss_classic",
    "Verif.Radiation.loss_photons",
    "Verif.Radiation.emit_momentum"
   ],
   "note": "Holds for canonical momenta. For angles the code divides them by 1 + u/P0, so that every loss changes the direction."
  },
  {
   "property": "C144",
   "status": "partial",
   "theorems": [
    "Verif.Radiation.radiate_partial",
    "Verif.Radiation.radiate_fixed",
    "Verif.Radiation.applySR_eq",
    "Verif.Radiation.empty_violated",
    "Verif.Radiation.canonical_violated"
   ],
   "note": "Holds for bunches with particles and angles as coordinates. An empty bunch makes the reference momentum NaN; canonical transverse momenta are not rescaled to the new reference."
  },
  {
   "property": "C145",
   "status": "partial",
   "theorems": [
    "Verif.Radiation.schedule_spec",
    "Verif.Radiation.track_from",
    "Verif.Radiation.schedule_enter",
    "Verif.Radiation.steps_short",
    "Verif.Radiation.schedule_violated"
   ],
   "note": "Holds when the number of steps is set. With a maximal step size the process switches itself off when another process makes the first step shorter."
  },
  {
   "property": "C146",
   "status": "proved",
   "theorems": [
    "Verif.Survey.limit_spec",
    "Verif.Survey.limit_open",
    "Verif.Survey.checkAperture_spec",
    "Verif.Survey.scan_ends",
    "Verif.Survey.scan_spec"
   ],
   "note": "All four directions; apertures of more than one metre are reported as one metre to half a micrometre."
  },
  {
   "property": "C147",
   "status": "partial",
   "theorems": [
    "Verif.Survey.points_spec",
    "Verif.Survey.points_ends",
    "Verif.Survey.distance_partial",
    "Verif.Survey.distance_violated",
    "Verif.Survey.abs_spec",
    "Verif.Survey.abs_within",
    "Verif.Survey.survey_ok",
    "Verif.Survey.survey_rows"
   ],
   "note": "With a distance which divides the length of an element its exit is sampled twice; everything else holds."
  },
  {
   "property": "C148",
   "status": "partial",
   "theorems": [
    "Verif.RFMaps.lcav_momentum",
    "Verif.RFMaps.lcav_step",
    "Verif.RFMaps.lcav_area",
    "Verif.RFMaps.lcav_split_partial",
    "Verif.RFMaps.lcav_split_violated",
    "Verif.RFMaps.rf_momentum",
    "Verif.RFMaps.rf_step",
    "Verif.RFMaps.rf_violated",
    "Verif.RFMaps.ends_cancel",
    "Verif.RFMaps.ends_momentum",
    "Verif.RFMaps.lcav_zero"
   ],
   "note": "Energy, slopes, area and reference hold. Places depend on the number of steps because of an expansion of the logarithm; without acceleration of the reference the slopes are not reduced."
  },
  {
   "property": "C149",
   "status": "partial",
   "theorems": [
    "Verif.RFMaps.trf_partial",
    "Verif.RFMaps.trf_place",
    "Verif.RFMaps.trf_violated",
    "Verif.RFMaps.trf_split_violated",
    "Verif.RFMaps.trf_off",
    "Verif.RFMaps.trf_time_violated"
   ],
   "note": "Kicks hold. The displacement is three times that of a constant force, and the path length only counts without field."
  },
  {
   "property": "C15",
   "status": "proved",
   "theorems": [
    "Verif.Lattice.ring_full_turn",
    "Verif.Lattice.ring_outside"
   ],
   "note": ""
  },
  {
   "property": "C150",
   "status": "proved",
   "theorems": [
    "Verif.LinAlg.inverse_spec",
    "Verif.LinAlg.inverse_singular",
    "Verif.LinAlg.inverse_eq"
   ],
   "note": "Exact arithmetic over any field with a modulus; rounding is outside of the model."
  },
  {
   "property": "C151",
   "status": "partial",
   "theorems": [
    "Verif.LinAlg.symplectify_symplectic",
    "Verif.LinAlg.symplectify_fixed_partial",
    "Verif.LinAlg.symplectify_violated"
   ],
   "note": "Every result is symplectic; symplectic matrices are kept unless they have the eigenvalue -1, for which SingularMatrix is thrown."
  },
  {
   "property": "C152",
   "status": "partial",
   "theorems": [
    "Verif.LinAlg.finish_spec",
    "Verif.LinAlg.iter_eigen",
    "Verif.LinAlg.guess_violated",
    "Verif.LinAlg.identity_violated",
    "Verif.LinAlg.uncoupled_violated"
   ],
   "note": "Eigenvectors are normalised and stay eigenvectors, and one iteration finds the eigenvalue of an eigenvector. Convergence is not shown. An exact first guess gives no numbers, and the exact first eigenvalue of planes without coupling makes the inversion throw in exact arithmetic."
  },
  {
   "property": "C153",
   "status": "partial",
   "theorems": [
    "Verif.LU.lu_solves",
    "Verif.LU.lu_det",
    "Verif.LU.lu_singular",
    "Verif.LU.lu_singular_violated"
   ],
   "note": "Factorisation, solution and determinant are proved for all regular matrices; the part on SingularMatrix is false: it is thrown exactly for a row of zeros, other singular matrices get a pivot of epsilon and a determinant which is not zero."
  },
  {
   "property": "C154",
   "status": "partial",
   "theorems": [
    "Verif.LU.lu_needs_pivots",
    "Verif.LU.luMatrix_violated",
    "Verif.LU.savgol_violated",
    "Verif.LU.savgol_exact_partial"
   ],
   "note": "LUMatrix and savgol pass an empty pivot vector, so they work for no input; with a vector of sufficient size the filter is proved to reproduce every polynomial of its order."
  },
  {
   "property": "C155",
   "status": "partial",
   "theorems": [
    "Verif.LU.svd_normal",
    "Verif.LU.svd_least_squares",
    "Verif.LU.svd_shortest",
    "Verif.LU.svd_clip",
    "Verif.LU.svd_sizes",
    "Verif.LU.svd_sizes_violated"
   ],
   "note": "The iteration which finds the factors is not modelled: their orthonormality is a hypothesis. Only square matrices are accepted."
  },
  {
   "property": "C156",
   "status": "partial",
   "theorems": [
    "Verif.ATL.simple_law",
    "Verif.ATL.simple_reset",
    "Verif.ATL.standard_exists",
    "Verif.ATL.negative_arc_violated"
   ],
   "note": "Proved for supports at arc positions which are not negative; otherwise the step takes the square root of a negative number (negative_arc_violated). The generator is a stream of independent standard numbers."
  },
  {
   "property": "C157",
   "status": "partial",
   "theorems": [
    "Verif.ATL.two_increment_partial",
    "Verif.ATL.two_absolute_partial",
    "Verif.ATL.absolute_violated"
   ],
   "note": "Increment mode is proved given the eigensystem (the iteration which finds it is not modelled) ; in absolute mode the variance is the one for the time before the step, so that a first step does not move anything."
  },
  {
   "property": "C158",
   "status": "partial",
   "theorems": [
    "Verif.ATL.two_settings",
    "Verif.ATL.two_mode_violated",
    "Verif.ATL.record_partial",
    "Verif.ATL.record_violated"
   ],
   "note": "Refused calls change nothing; increment mode can be entered with a vibration; the file keeps only the upper triangle of the eigenvectors, so that the round trip holds exactly for symmetric matrices."
  },
  {
   "property": "C159",
   "status": "partial",
   "theorems": [
    "Verif.Errors.shifts_selected",
    "Verif.Errors.rotations_selected",
    "Verif.Errors.log_selected",
    "Verif.Errors.named_selected",
    "Verif.Errors.named_only_partial",
    "Verif.Errors.named_violated",
    "Verif.Errors.alternative_violated"
   ],
   "note": "Which elements move and how is proved for all beamlines. A literal name also selects elements whose name ends in a point and that name, and the second alternative of an OR pattern selects nothing: both proved."
  },
  {
   "property": "C16",
   "status": "partial",
   "theorems": [
    "Verif.Lattice.reversed_beamline_violated",
    "Verif.Lattice.reversed_beamline_partial"
   ],
   "note": "Violated for two or more frames; true for one."
  },
  {
   "property": "C160",
   "status": "partial",
   "theorems": [
    "Verif.Errors.errors_distribution_partial",
    "Verif.Errors.small_rms_violated",
    "Verif.Errors.numbers_used"
   ],
   "note": "Moments proved for axes with rms squared above the rounding error; below it no error at all is applied (proved)."
  },
  {
   "property": "C161",
   "status": "partial",
   "theorems": [
    "Verif.NANCheck.reports_exactly",
    "Verif.NANCheck.check_defined",
    "Verif.NANCheck.halts_iff",
    "Verif.NANCheck.index_right_partial",
    "Verif.NANCheck.index_violated",
    "Verif.NANCheck.equal_ids_violated",
    "Verif.NANCheck.detailed_defined",
    "Verif.NANCheck.detailed_violated",
    "Verif.NANCheck.detailed_history"
   ],
   "note": "The index is wrong once a reported particle stays in the bunch; detailed mode reads past the end if the particle was not there at the start of the element."
  },
  {
   "property": "C162",
   "status": "partial",
   "theorems": [
    "Verif.NANCheck.valid_kept",
    "Verif.NANCheck.cull_iff",
    "Verif.NANCheck.run_clean_partial",
    "Verif.NANCheck.late_cull_violated"
   ],
   "note": "Invariant over runs proved for culling from the beginning and different ids; particles reported before culling is switched on stay."
  },
  {
   "property": "C163",
   "status": "partial",
   "theorems": [
    "Verif.NANCheck.vertical_halo",
    "Verif.NANCheck.horizontal_halo_partial",
    "Verif.NANCheck.horizontal_core",
    "Verif.NANCheck.horizontal_violated"
   ],
   "note": "The horizontal filter drops halo particles with x or xp exactly zero."
  },
  {
   "property": "C164",
   "status": "partial",
   "theorems": [
    "Verif.CollDB.read_all_partial",
    "Verif.CollDB.bad_number_violated",
    "Verif.CollDB.unknown_material_violated"
   ],
   "note": "Proper files are read as they stand. False for words that are not numbers (all later rows lost silently) and unknown materials (null pointer)."
  },
  {
   "property": "C165",
   "status": "partial",
   "theorems": [
    "Verif.CollDB.matched_envelope_partial",
    "Verif.CollDB.unnamed_untouched",
    "Verif.CollDB.same_name_violated",
    "Verif.CollDB.height_violated",
    "Verif.CollDB.last_row_violated",
    "Verif.CollDB.null_material_violated"
   ],
   "note": "Opening along the axis proved; across it the code uses the beam size along the axis. Second collimator of a name is not configured."
  },
  {
   "property": "C166",
   "status": "partial",
   "theorems": [
    "Verif.CollDB.flat_contains_partial",
    "Verif.CollDB.flat_tilt_violated",
    "Verif.CollDB.impact_sigma",
    "Verif.CollDB.impact_default_violated",
    "Verif.CollDB.errors_entrance",
    "Verif.CollDB.errors_exit_violated",
    "Verif.CollDB.jaw_rms_violated"
   ],
   "note": "Containment without tilt proved, false with tilt; impact parameter proved; exit opening with errors and rms are wrong."
  },
  {
   "property": "C167",
   "status": "partial",
   "theorems": [
    "Verif.CollDB.gaps_partial",
    "Verif.CollDB.gap_offsets_violated"
   ],
   "note": "Gaps, tilt and material proved; offsets, jaw angles and length are ignored."
  },
  {
   "property": "C168",
   "status": "partial",
   "theorems": [
    "Verif.Material.mixture_extensive",
    "Verif.Material.proportions_scale",
    "Verif.Material.make_mixture",
    "Verif.Material.by_weight",
    "Verif.Material.mixture_refused",
    "Verif.Material.weights_short_violated"
   ],
   "note": "All proved but the refusal of too short lists of weights, which are read behind the end."
  },
  {
   "property": "C169",
   "status": "partial",
   "theorems": [
    "Verif.Material.nucleus_partial",
    "Verif.Material.selected_unique",
    "Verif.Material.amounts_violated",
    "Verif.Material.nickel_violated"
   ],
   "note": "Choice by cross section proved; the amounts are ignored and unknown cross sections of -1 are used."
  },
  {
   "property": "C17",
   "status": "partial",
   "theorems": [
    "Verif.Lattice.install_partial",
    "Verif.Lattice.install_succeeds",
    "Verif.Lattice.install_violated",
    "Verif.Lattice.install_negative"
   ],
   "note": "Proved when the lattice vector has spare capacity; a full vector gives a dangling iterator, a negative position a drift of negative length."
  },
  {
   "property": "C170",
   "status": "partial",
   "theorems": [
    "Verif.Material.copy_update_partial",
    "Verif.Material.copy_violated",
    "Verif.Material.assign_violated",
    "Verif.Material.extra_round_trip",
    "Verif.Material.get_extra_violated",
    "Verif.Material.energy_scale_violated",
    "Verif.Material.standard_known",
    "Verif.Material.standard_violated",
    "Verif.Material.six_track_violated"
   ],
   "note": "Round trip of extra values proved; copies lose the mean free path; table has negative and uninitialised values; SixTrack values read out of bounds."
  },
  {
   "property": "C171",
   "status": "partial",
   "theorems": [
    "Verif.Scatter.path_law",
    "Verif.Scatter.transfer_law",
    "Verif.Scatter.rutherford_law",
    "Verif.Scatter.mass_law",
    "Verif.Scatter.slope_partial",
    "Verif.Scatter.joined_continuous",
    "Verif.Scatter.slope_violated"
   ],
   "note": "All laws proved; the slope of single diffraction has the divisor 26 instead of 36 and jumps."
  },
  {
   "property": "C172",
   "status": "partial",
   "theorems": [
    "Verif.Scatter.nucleus_kick",
    "Verif.Scatter.other_kicks",
    "Verif.Scatter.twice_violated"
   ],
   "note": "Kicks proved for the energy passed; the collimation process passes the energy of the particle as reference energy, so that the deviation enters twice."
  },
  {
   "property": "C173",
   "status": "partial",
   "theorems": [
    "Verif.Scatter.choose_law",
    "Verif.Scatter.tables_partial",
    "Verif.Scatter.tables_material",
    "Verif.Scatter.energy_violated",
    "Verif.Scatter.rate_violated",
    "Verif.Scatter.total_violated"
   ],
   "note": "Choice and tables for every sequence of materials proved; energy ignored on later visits; rates inconsistent with the mean free path; negative totals undefined."
  },
  {
   "property": "C174",
   "status": "partial",
   "theorems": [
    "Verif.Scatter.simple_loss",
    "Verif.Scatter.simple_violated",
    "Verif.Scatter.first_steps_violated",
    "Verif.Scatter.density_continuous",
    "Verif.Scatter.limit_violated",
    "Verif.Scatter.sign_violated",
    "Verif.Scatter.memo_law",
    "Verif.Scatter.memo_violated",
    "Verif.Scatter.straggle_moments"
   ],
   "note": "Multiple scattering and density correction proved; simple mode loses nothing with the standard table; full mode has the sign and the unit of the excitation energy wrong."
  },
  {
   "property": "C175",
   "status": "partial",
   "theorems": [
    "Verif.Orbit.linear_closed",
    "Verif.Orbit.stop_partial",
    "Verif.Orbit.lossy_violated",
    "Verif.Orbit.count_violated"
   ],
   "note": "Proved for every linear lattice with one or many closed orbits; in general the stopping rule bounds the gap before the last correction. Without a closed orbit w = 0 may still be reported, and iter is one too large."
  },
  {
   "property": "C176",
   "status": "partial",
   "theorems": [
    "Verif.Orbit.tm_linear",
    "Verif.Orbit.tm_quadratic",
    "Verif.Orbit.settings_partial",
    "Verif.Orbit.find_linear",
    "Verif.Orbit.unset_violated",
    "Verif.Orbit.delta_violated"
   ],
   "note": "Exactness proved; FindTM(M) without radiation reads radstepsize which was never set; SetDelta does not reach the closed orbit."
  },
  {
   "property": "C177",
   "status": "partial",
   "theorems": [
    "Verif.Orbit.dispersion_linear",
    "Verif.Orbit.rms_orbit",
    "Verif.Orbit.rms_orbit_constant",
    "Verif.Orbit.rms_dispersion_partial",
    "Verif.Orbit.rms_dispersion_violated",
    "Verif.Orbit.rows_partial",
    "Verif.Orbit.rows_violated"
   ],
   "note": "Dispersion and RMS orbit proved; the RMS dispersion starts from zero and the lines of the file pair the place before with the dispersion behind the component."
  },
  {
   "property": "C178",
   "status": "proved",
   "theorems": [
    "Verif.Twiss.value_place",
    "Verif.Twiss.value_orbit",
    "Verif.Twiss.value_twiss",
    "Verif.Twiss.value_phase",
    "Verif.Twiss.row_values",
    "Verif.Twiss.longitudinal_refused"
   ],
   "note": "Signed zeros of atan2 are not told apart; indices outside of the matrix are undefined."
  },
  {
   "property": "C179",
   "status": "partial",
   "theorems": [
    "Verif.Twiss.start_functions",
    "Verif.Twiss.table",
    "Verif.Twiss.twiss_carried",
    "Verif.Twiss.beta_gamma",
    "Verif.Twiss.gradient_affine",
    "Verif.Twiss.node_singular"
   ],
   "note": "Without Symplectify and with constant momentum (acceleration is C181); exact numbers."
  },
  {
   "property": "C18",
   "status": "proved",
   "theorems": [
    "Verif.Rotation.rotation_meaning",
    "Verif.Rotation.rotation_proper",
    "Verif.Rotation.rotation_group",
    "Verif.Rotation.getMatrix_action",
    "Verif.Rotation.tests_sound",
    "Verif.Rotation.isIdentity_incomplete"
   ],
   "note": "For exact arithmetic, cos/sin with cos\u00b2+sin\u00b2=1. isIdentity is sound but not complete."
  },
  {
   "property": "C180",
   "status": "proved",
   "theorems": [
    "Verif.Twiss.periodic",
    "Verif.Twiss.turn_phase"
   ],
   "note": "The eigenvectors are a hypothesis (LinAlg treats how they are found)."
  },
  {
   "property": "C181",
   "status": "partial",
   "theorems": [
    "Verif.Twiss.acceleration_partial",
    "Verif.Twiss.acceleration_violated"
   ],
   "note": "Holds for an orbit on the axis and six dimensional motion; violated for an orbit off the axis."
  },
  {
   "property": "C182",
   "status": "partial",
   "theorems": [
    "Verif.Twiss.orbitonly_spec",
    "Verif.Twiss.add_columns",
    "Verif.Twiss.missing_undefined",
    "Verif.Twiss.value_spec",
    "Verif.Twiss.sIndex_spec",
    "Verif.Twiss.orbit_rows",
    "Verif.Twiss.cut_all",
    "Verif.Twiss.cut_within",
    "Verif.Twiss.mean_linear",
    "Verif.Twiss.mean_bounds",
    "Verif.Twiss.mean_empty",
    "Verif.Twiss.derivative_spec",
    "Verif.Twiss.end_row_violated",
    "Verif.Twiss.symplectify_planes_violated",
    "Verif.Twiss.energy_derivative_violated"
   ],
   "note": "Violated: no row at the end of a table of the orbit, Symplectify with two planes always throws, the derivative by the energy divides by zero."
  },
  {
   "property": "C183",
   "status": "partial",
   "theorems": [
    "Verif.Twiss.total_phase_partial",
    "Verif.Twiss.between_partial",
    "Verif.Twiss.between_add",
    "Verif.Twiss.last_turn_violated",
    "Verif.Twiss.whole_turn_violated"
   ],
   "note": "The turn which ends between the row before and the row itself is not counted, nor one at an exact whole number; otherwise right."
  },
  {
   "property": "C184",
   "status": "partial",
   "theorems": [
    "Verif.Tunes.fft_dft",
    "Verif.Tunes.fft_not_power_violated"
   ],
   "note": "Proved for all lengths which are powers of two; for every other length the code leaves the bounds of the data, which is proved as violation."
  },
  {
   "property": "C185",
   "status": "partial",
   "theorems": [
    "Verif.Tunes.interpolation_exact",
    "Verif.Tunes.peak_first",
    "Verif.Tunes.find_tune_shifted_violated",
    "Verif.Tunes.peaked_exact",
    "Verif.Tunes.find_tune_bin_violated",
    "Verif.Tunes.find_tune_last_violated"
   ],
   "note": "The interpolation is exact, but FindTune applies it to the bins one above the peak (spectrum starts with bin 1), so the tune comes out 1/n too low; tones of the last two bins are read out of bounds. The case of a tune below the bin of its peak is left open."
  },
  {
   "property": "C186",
   "status": "partial",
   "theorems": [
    "Verif.Tunes.unstable_zero",
    "Verif.Tunes.no_diffusion_violated",
    "Verif.Tunes.turns_violated",
    "Verif.Tunes.regular_motion_violated"
   ],
   "note": "Zero for lost particles and no diffusion of regular motion are proved; the tunes are 1/n too low, without diffusion the change is the negative tune, and numbers of turns other than powers of two from four on are undefined behaviour."
  },
  {
   "property": "C187",
   "status": "partial",
   "theorems": [
    "Verif.Equilibrium.trapezium_rule",
    "Verif.Equilibrium.trapezium_error",
    "Verif.Equilibrium.shared_static_violated",
    "Verif.Equilibrium.romberg_violated"
   ],
   "note": "The refinement equals the trapezoidal rule with its error bound. The static value is shared between objects, and romberg is undefined for every function: it reads h[0] and s[0], and the array constructor of Interpolation keeps no data."
  },
  {
   "property": "C188",
   "status": "partial",
   "theorems": [
    "Verif.Equilibrium.root_sq",
    "Verif.Equilibrium.row_even",
    "Verif.Equilibrium.row_bend_partial",
    "Verif.Equilibrium.row_limit",
    "Verif.Equilibrium.weak_focusing_violated"
   ],
   "note": "The elements are those of the library's bend with the gradient reduced by h squared: the focusing of the bend itself is missing."
  },
  {
   "property": "C189",
   "status": "proved",
   "theorems": [
    "Verif.Equilibrium.tune_spec",
    "Verif.Equilibrium.damping_spec"
   ],
   "note": "For eigenvalues other than zero; the eigenvalues themselves are those of EigenSystem (C96 and following)."
  },
  {
   "property": "C19",
   "status": "proved",
   "theorems": [
    "Verif.Transform.transform_compose",
    "Verif.Transform.transform_inverse",
    "Verif.Transform.transform_rigid",
    "Verif.Transform.transform_byPI",
    "Verif.Transform.isIdentity3_sound",
    "Verif.Transform.eq_ne_overlap"
   ],
   "note": ""
  },
  {
   "property": "C190",
   "status": "partial",
   "theorems": [
    "Verif.Equilibrium.emittance_violated",
    "Verif.Equilibrium.emittance_field_free_partial"
   ],
   "note": "Violated for every ring with a bend which has a field, since romberg is undefined; the tracking of the eigenvector is an input of the model."
  },
  {
   "property": "C191",
   "status": "proved",
   "theorems": [
    "Verif.Equilibrium.repair_rows",
    "Verif.Equilibrium.repair_fixed"
   ],
   "note": "For matrices over any field with a regular vertical block."
  },
  {
   "property": "C192",
   "status": "partial",
   "theorems": [
    "Verif.Equilibrium.moments_positive",
    "Verif.Equilibrium.moments_matched",
    "Verif.Equilibrium.moments_emittance"
   ],
   "note": "For given eigenvectors; BeamMoment calls FindTM of a new TransferMatrix, whose step size of radiation has no value (C176), so the call itself is undefined."
  },
  {
   "property": "C193",
   "status": "proved",
   "theorems": [
    "Verif.Symplectic.drift_straight",
    "Verif.Symplectic.drift_additive",
    "Verif.Symplectic.drift_orbit"
   ],
   "note": "Real arithmetic; a particle at right angles to the axis is undefined."
  },
  {
   "property": "C194",
   "status": "proved",
   "theorems": [
    "Verif.Symplectic.combined_orbit",
    "Verif.Symplectic.sector_orbit",
    "Verif.Symplectic.quadrupole_orbit",
    "Verif.Symplectic.exact_orbit",
    "Verif.Symplectic.maps_additive"
   ],
   "note": "Zero curvature, gradient or focusing, where the formulas divide by zero, is undefined."
  },
  {
   "property": "C195",
   "status": "proved",
   "theorems": [
    "Verif.Symplectic.maps_symplectic",
    "Verif.Symplectic.bend_symplectic",
    "Verif.Symplectic.tw_symplectic"
   ],
   "note": "For upright bends and tilts above the tolerance; RectMultipoleCI is not part of this topic."
  },
  {
   "property": "C196",
   "status": "partial",
   "theorems": [
    "Verif.Symplectic.bend_orbit",
    "Verif.Symplectic.bend_orbit_exact",
    "Verif.Symplectic.bend_field_kept",
    "Verif.Symplectic.bend_flat_violated"
   ],
   "note": "Fails for a gradient which cancels the focusing of the curvature: ct is not a number."
  },
  {
   "property": "C197",
   "status": "partial",
   "theorems": [
    "Verif.Symplectic.tw_step",
    "Verif.Symplectic.sw_gain",
    "Verif.Symplectic.sw_area_iff",
    "Verif.Symplectic.sw_area_violated"
   ],
   "note": "The area is kept by standing wave cavities only at an eighth of a turn: an element of the matrix has the sine where the cosine belongs."
  },
  {
   "property": "C198",
   "status": "partial",
   "theorems": [
    "Verif.Symplectic.bend_strength_violated",
    "Verif.Symplectic.bend_skew_partial"
   ],
   "note": "The vertical dipole field and the momentum are ignored; only skew and higher components act."
  },
  {
   "property": "C199",
   "status": "partial",
   "theorems": [
    "Verif.Symplectic.bend_tilt_partial",
    "Verif.Symplectic.bend_face_tilt_violated",
    "Verif.Symplectic.bend_small_tilt_violated"
   ],
   "note": "Holds for the step without pole faces and tilts above the tolerance."
  },
  {
   "property": "C20",
   "status": "partial",
   "theorems": [
    "Verif.Transform.transform2_compose",
    "Verif.Transform.transform2_inverse",
    "Verif.Transform.transform2_ok",
    "Verif.Transform.isIdentity2_violated",
    "Verif.Transform.isIdentity2_partial",
    "Verif.Transform.isZero2_asymmetric"
   ],
   "note": "Group laws proved; the isIdentity clause is violated by the half turn and proved for non-negative cosine."
  },
  {
   "property": "C200",
   "status": "partial",
   "theorems": [
    "Verif.TransportMaps.straight_follow",
    "Verif.TransportMaps.quadrupole_zero_violated"
   ],
   "note": "Proved for drift, quadrupoles of non-zero gradient and sextupoles; for gradient zero the map is not a number (violated)."
  },
  {
   "property": "C201",
   "status": "partial",
   "theorems": [
    "Verif.TransportMaps.sector_follow_partial",
    "Verif.TransportMaps.sector_energy_violated",
    "Verif.TransportMaps.sector_straight_violated"
   ],
   "note": "Holds for massless particles and on momentum; off momentum the terms with the energy are wrong (violated); no map for a straight magnet."
  },
  {
   "property": "C202",
   "status": "partial",
   "theorems": [
    "Verif.TransportMaps.combined_follow_partial",
    "Verif.TransportMaps.combined_product_violated",
    "Verif.TransportMaps.combined_delay_violated",
    "Verif.TransportMaps.combined_gradients_violated"
   ],
   "note": "Transverse motion proved for particles with position times angle zero in the plane of the bend; the x-angle product term, the delay and two gradients are wrong (violated)."
  },
  {
   "property": "C203",
   "status": "partial",
   "theorems": [
    "Verif.TransportMaps.face_lens",
    "Verif.TransportMaps.face_symplectic_iff",
    "Verif.TransportMaps.face_symplectic_partial",
    "Verif.TransportMaps.face_symplectic_violated",
    "Verif.TransportMaps.fringe_cancel",
    "Verif.TransportMaps.fringe_cancel_violated"
   ],
   "note": "Lens proved; symplecticity characterised exactly and violated with gradient at an angle; fringes cancel for two separate faces, add up without faces or with one shared face."
  },
  {
   "property": "C204",
   "status": "partial",
   "theorems": [
    "Verif.TransportMaps.bend_follow_partial",
    "Verif.TransportMaps.bend_gradient_partial",
    "Verif.TransportMaps.bend_sextupole",
    "Verif.TransportMaps.bend_skew_gradient_violated",
    "Verif.TransportMaps.bend_keeps",
    "Verif.TransportMaps.bend_axis",
    "Verif.TransportMaps.bend_momentum_partial",
    "Verif.TransportMaps.bend_momentum_violated"
   ],
   "note": "Field and momentum kept, axis kept for matched particles; equations of motion for dipoles and gradients within the tolerance; with a sextupole the step is half the dipole, the deflection of the sextupole, half the dipole; violated for skew gradients and for gradients with another momentum."
  },
  {
   "property": "C205",
   "status": "partial",
   "theorems": [
    "Verif.TransportMaps.coordinates_partial",
    "Verif.TransportMaps.coordinates_violated"
   ],
   "note": "Same coordinates on momentum; off momentum drifts use slopes and bends momenta (violated)."
  },
  {
   "property": "C206",
   "status": "partial",
   "theorems": [
    "Verif.TransportMaps.tilt_partial",
    "Verif.TransportMaps.tilt_small_violated",
    "Verif.TransportMaps.tilt_sign_violated"
   ],
   "note": "Proved for tilts above the tolerance; tiny tilts put all particles on the axis; the sense is opposite to that of the symplectic set."
  },
  {
   "property": "C207",
   "status": "proved",
   "theorems": [
    "Verif.RectMultipole.thin_no_gradient",
    "Verif.RectMultipole.tr_no_gradient",
    "Verif.RectMultipole.sy_no_gradient"
   ],
   "note": "Proved for the three sets, doubles as reals; the field must exceed the tolerance of IsNullField. Second order set: lines with the delay to second order; symplectic set: exact straight lines in momenta."
  },
  {
   "property": "C208",
   "status": "partial",
   "theorems": [
    "Verif.RectMultipole.thin_gradient",
    "Verif.RectMultipole.thin_momentum_partial",
    "Verif.RectMultipole.sy_gradient",
    "Verif.RectMultipole.sy_momentum_partial",
    "Verif.RectMultipole.sy_area",
    "Verif.RectMultipole.sy_area_violated",
    "Verif.RectMultipole.tr_gradient",
    "Verif.RectMultipole.tr_sextupole"
   ],
   "note": "Motion at the reference momentum and first order in the momentum proved for both signs. Areas are not kept off momentum in the symplectic set: exact factor proved, larger than one for every focusing magnet."
  },
  {
   "property": "C209",
   "status": "partial",
   "theorems": [
    "Verif.RectMultipole.thin_skew",
    "Verif.RectMultipole.thin_skew_violated",
    "Verif.RectMultipole.sy_skew",
    "Verif.RectMultipole.sy_skew_violated",
    "Verif.RectMultipole.thin_small_skew_violated",
    "Verif.RectMultipole.sy_small_skew_violated",
    "Verif.RectMultipole.tr_skew",
    "Verif.RectMultipole.tr_skew_violated",
    "Verif.RectMultipole.tr_skew_sextupole"
   ],
   "note": "Violated: the turn into the axes of the magnet is made the wrong way, so the magnet acts with the opposite skew component (exact characterisation proved). For angles within the tolerance the matrix of the rotation is zero and every particle is put on the axis."
  },
  {
   "property": "C21",
   "status": "partial",
   "theorems": [
    "Verif.Frame.seq_lawful",
    "Verif.Frame.seq_compose",
    "Verif.Frame.seq_local",
    "Verif.Frame.seq_beyond",
    "Verif.Frame.built_lawful",
    "Verif.Frame.seq_backward_partial",
    "Verif.Frame.seq_backward_same",
    "Verif.Frame.seq_backward_violated",
    "Verif.Frame.seq_patch_violated",
    "Verif.Frame.consolidated_entrance_violated"
   ],
   "note": "Proved along the beam at any nesting; against the beam only across a sub-frame boundary, refuted within one sub-frame, with a patch at the end, and for consolidated sequences with the origin at the entrance or exit. Comparison tolerance taken as 0."
  },
  {
   "property": "C210",
   "status": "partial",
   "theorems": [
    "Verif.RectMultipole.tr_zero_length",
    "Verif.RectMultipole.sy_zero_length",
    "Verif.RectMultipole.thin_zero_length_violated"
   ],
   "note": "Proved for the second order and symplectic sets; in the first set a magnet of length zero does nothing."
  },
  {
   "property": "C211",
   "status": "proved",
   "theorems": [
    "Verif.RectMultipole.thin_keeps",
    "Verif.RectMultipole.tr_keeps",
    "Verif.RectMultipole.sy_keeps"
   ],
   "note": "Proved for every step that ends; missing coefficients count as zero, since GetCoefficient lengthens the list."
  },
  {
   "property": "C212",
   "status": "partial",
   "theorems": [
    "Verif.RectMultipole.thin_errors",
    "Verif.RectMultipole.tr_errors",
    "Verif.RectMultipole.tr_sextupole_errors",
    "Verif.RectMultipole.thin_midplane",
    "Verif.RectMultipole.tr_midplane",
    "Verif.RectMultipole.sy_errors",
    "Verif.RectMultipole.sy_errors_violated",
    "Verif.RectMultipole.sy_midplane_violated",
    "Verif.RectMultipole.tr_skew_errors_violated"
   ],
   "note": "Proved for the first set and for normal gradients and sextupoles in the second order set. Symplectic set: characterisation proved (deflection twice, half a straight too many), hence violated; for a negative normal gradient the first deflection is turned by ninety degrees. Second order set: deflection of a skew gradient turned."
  },
  {
   "property": "C213",
   "status": "partial",
   "theorems": [
    "Verif.RectMultipole.tr_off",
    "Verif.RectMultipole.sy_off",
    "Verif.RectMultipole.thin_off_partial",
    "Verif.RectMultipole.thin_off_violated"
   ],
   "note": "Proved for the second order and symplectic sets and for the first set without a gradient coefficient or without other components; otherwise the first set puts every particle on the axis."
  },
  {
   "property": "C214",
   "status": "proved",
   "theorems": [
    "Verif.HollowLens.lens_evenly"
   ],
   "note": "Deflection = Lorentz force of the enclosed current, the enclosed share being an integral of the density over the annulus."
  },
  {
   "property": "C215",
   "status": "proved",
   "theorems": [
    "Verif.HollowLens.lens_measured",
    "Verif.HollowLens.factor_mono"
   ],
   "note": "Both measured profiles equal the integral of the piecewise linear density."
  },
  {
   "property": "C216",
   "status": "partial",
   "theorems": [
    "Verif.HollowLens.with_protons_partial",
    "Verif.HollowLens.with_protons_violated"
   ],
   "note": "Amount right, sign wrong: the lens pushes the protons out."
  },
  {
   "property": "C217",
   "status": "partial",
   "theorems": [
    "Verif.HollowLens.off_axis_partial",
    "Verif.HollowLens.off_axis_violated"
   ],
   "note": "Radius from the centre of the lens, direction from the axis of the machine."
  },
  {
   "property": "C218",
   "status": "partial",
   "theorems": [
    "Verif.HollowLens.proton_velocity_partial",
    "Verif.HollowLens.proton_velocity_violated",
    "Verif.HollowLens.momentum_violated"
   ],
   "note": "Momentum in GeV/c is divided by mass in kg times c; the kick ignores the momentum deviation."
  },
  {
   "property": "C219",
   "status": "partial",
   "theorems": [
    "Verif.HollowLens.dc_turns",
    "Verif.HollowLens.diffusive_turns",
    "Verif.HollowLens.skip_turns",
    "Verif.HollowLens.ac_turn",
    "Verif.HollowLens.ac_fixed",
    "Verif.HollowLens.ac_sweep",
    "Verif.HollowLens.ac_window",
    "Verif.HollowLens.ac_window_violated",
    "Verif.HollowLens.ac_turns"
   ],
   "note": "All modes as stated; the tune leaves its window when the step does not divide it."
  },
  {
   "property": "C22",
   "status": "proved",
   "theorems": [
    "Verif.Channel.parse_path",
    "Verif.Channel.parse_short",
    "Verif.Channel.parse_total"
   ],
   "note": "TYPE.ID.KEY is taken apart at the first two dots. Paths with fewer dots are accepted with a surprising meaning (parse_short)."
  },
  {
   "property": "C220",
   "status": "partial",
   "theorems": [
    "Verif.HollowLens.lens_keeps",
    "Verif.HollowLens.lens_hollow",
    "Verif.HollowLens.unset_violated",
    "Verif.HollowLens.mad_violated",
    "Verif.HollowLens.mode_violated"
   ],
   "note": "Lenses made from a table or with an invalid mode read members without a value or divide by zero."
  },
  {
   "property": "C221",
   "status": "partial",
   "theorems": [
    "Verif.HollowLens.steps_violated"
   ],
   "note": "The kick does not depend on the step; two steps deflect twice and count two turns."
  },
  {
   "property": "C222",
   "status": "partial",
   "theorems": [
    "Verif.HollowLens.profile_partial",
    "Verif.HollowLens.profile_violated",
    "Verif.HollowLens.profile_unset_violated"
   ],
   "note": "The table starts at zero whatever min is; the beam size is never set."
  },
  {
   "property": "C223",
   "status": "proved",
   "theorems": [
    "Verif.MAD.quadrupole",
    "Verif.MAD.skew_quadrupole",
    "Verif.MAD.sextupole",
    "Verif.MAD.skew_sextupole",
    "Verif.MAD.octupole",
    "Verif.MAD.sector_bend",
    "Verif.MAD.rectangular_bend",
    "Verif.MAD.bend_matched"
   ],
   "note": ""
  },
  {
   "property": "C224",
   "status": "partial",
   "theorems": [
    "Verif.MAD.thin_quadrupole_violated",
    "Verif.MAD.thin_sextupole_violated",
    "Verif.MAD.thin_solenoid_violated",
    "Verif.MAD.straight_bend_violated",
    "Verif.MAD.one_face_violated"
   ],
   "note": "Violated: strength divided by a length of zero; a gradient in a bend of zero angle fails an assertion; one pole face alone writes to a null pointer."
  },
  {
   "property": "C225",
   "status": "partial",
   "theorems": [
    "Verif.MAD.horizontal_kicker",
    "Verif.MAD.vertical_kicker",
    "Verif.MAD.thin_kickers",
    "Verif.MAD.thin_kicker_violated",
    "Verif.MAD.both_planes_violated"
   ],
   "note": "Proved for HKICKER and VKICKER with length. Violated: the symplectic set does nothing in a thin kicker; KICKER and TKICKER become drifts."
  },
  {
   "property": "C226",
   "status": "partial",
   "theorems": [
    "Verif.MAD.cavity_gain",
    "Verif.MAD.single_cell_gain",
    "Verif.MAD.cavity_length_violated"
   ],
   "note": "Proved for lengths of whole half waves and single cells. Violated: other lengths are changed and so is the gain."
  },
  {
   "property": "C227",
   "status": "partial",
   "theorems": [
    "Verif.MAD.places",
    "Verif.MAD.row_length",
    "Verif.MAD.table_length",
    "Verif.MAD.unknown_violated",
    "Verif.MAD.marker_violated",
    "Verif.MAD.scanner_violated",
    "Verif.MAD.second_model_violated"
   ],
   "note": "Places proved for all tables, length for the kinds listed. Violated: unknown kinds and long markers lose length, that of a wire scanner becomes an angle, a second model does not start at zero."
  },
  {
   "property": "C228",
   "status": "partial",
   "theorems": [
    "Verif.MAD.ignored",
    "Verif.MAD.treated_as_drift",
    "Verif.MAD.drift_row",
    "Verif.MAD.collimators",
    "Verif.MAD.other_components",
    "Verif.MAD.treated_collimator_violated",
    "Verif.MAD.skew_part_violated"
   ],
   "note": "Violated: collimators cannot be treated as drifts; skew strengths of quadrupoles are not read."
  },
  {
   "property": "C229",
   "status": "partial",
   "theorems": [
    "Verif.MAD.nested_lines",
    "Verif.MAD.flat_lattice",
    "Verif.MAD.flat_line",
    "Verif.MAD.same_name_violated",
    "Verif.MAD.other_letter_violated",
    "Verif.MAD.unclosed_violated"
   ],
   "note": "Proved for names with known prefixes and lines not directly inside one of their name. Violated: a line directly in one of its name closes it; other letters before an underscore abort; a line left open fails an assertion."
  },
  {
   "property": "C23",
   "status": "partial",
   "theorems": [
    "Verif.Channel.beamline_query",
    "Verif.Channel.repository_query_exact",
    "Verif.Channel.repository_query_partial",
    "Verif.Channel.repository_query_violated",
    "Verif.Channel.dotted_type_violated",
    "Verif.Channel.rw_readonly_violated"
   ],
   "note": "Beamline queries are exact when type names have no dot. Repository queries stop at the first type without a matching key (exactly characterised); the positive theorem excludes that and assumes MatchID is initialised."
  },
  {
   "property": "C230",
   "status": "partial",
   "theorems": [
    "Verif.MAD.used_again",
    "Verif.MAD.append_then_get_violated",
    "Verif.MAD.append_then_construct_violated",
    "Verif.MAD.throw_then_construct_violated"
   ],
   "note": "Violated: AppendModel takes the model away, so that GetModel fails; after an exception or AppendModel the interface cannot make a model."
  },
  {
   "property": "C231",
   "status": "partial",
   "theorems": [
    "Verif.MAD.missing_column_violated",
    "Verif.MAD.angle_of_field"
   ],
   "note": "Violated: a missing column throws."
  },
  {
   "property": "C232",
   "status": "partial",
   "theorems": [
    "Verif.MAD.momentum_after",
    "Verif.MAD.sector_bend",
    "Verif.MAD.no_angle_violated",
    "Verif.MAD.drift_loses_violated"
   ],
   "note": "Violated: a table with K0L instead of ANGLE is refused with radiation; bends treated as drifts lose momentum."
  },
  {
   "property": "C233",
   "status": "partial",
   "theorems": [
    "Verif.MAD.multipole_type_violated",
    "Verif.MAD.multipole_type_swapped_violated"
   ],
   "note": "Violated: all tests are inverted."
  },
  {
   "property": "C234",
   "status": "proved",
   "theorems": [
    "Verif.Components.frequency",
    "Verif.Components.wavelength",
    "Verif.Components.wave_number",
    "Verif.Components.voltage",
    "Verif.Components.phasor",
    "Verif.Components.voltage_without_length"
   ],
   "note": "the length must not be zero"
  },
  {
   "property": "C235",
   "status": "proved",
   "theorems": [
    "Verif.Components.travelling_gain",
    "Verif.Components.transverse_kick"
   ],
   "note": ""
  },
  {
   "property": "C236",
   "status": "proved",
   "theorems": [
    "Verif.Components.force_is_lorentz"
   ],
   "note": ""
  },
  {
   "property": "C237",
   "status": "proved",
   "theorems": [
    "Verif.Components.turn_twice",
    "Verif.Components.turned_fields"
   ],
   "note": ""
  },
  {
   "property": "C238",
   "status": "partial",
   "theorems": [
    "Verif.Components.turned_wave_partial",
    "Verif.Components.turned_wave_violated"
   ],
   "note": "violated: holds at the origin only, the wave is not reversed"
  },
  {
   "property": "C239",
   "status": "proved",
   "theorems": [
    "Verif.Components.clear_ok",
    "Verif.Components.set_two",
    "Verif.Components.copy_ok",
    "Verif.Components.destroy_both",
    "Verif.Components.assign_ok"
   ],
   "note": ""
  },
  {
   "property": "C24",
   "status": "proved",
   "theorems": [
    "Verif.Feedback.apply_undelayed",
    "Verif.Feedback.delayed_write"
   ],
   "note": "For independent actuator channels and any machine changes between pulses. During the first n-1 pulses the actuators are set to zero."
  },
  {
   "property": "C240",
   "status": "partial",
   "theorems": [
    "Verif.Components.null_face_violated",
    "Verif.Components.same_face_violated",
    "Verif.Components.self_assignment_violated",
    "Verif.Components.face_type_violated"
   ],
   "note": "violated in each of these cases"
  },
  {
   "property": "C241",
   "status": "partial",
   "theorems": [
    "Verif.Components.turned_face_partial",
    "Verif.Components.turned_face_violated"
   ],
   "note": "violated: the angle of the face is not negated with the curvature; holds for faces without rotation and fringe field"
  },
  {
   "property": "C242",
   "status": "partial",
   "theorems": [
    "Verif.Components.copy_keeps",
    "Verif.Components.copy_loses_violated"
   ],
   "note": "violated: a copy equals the original exactly if aperture, wakes, material, position and index were never set"
  },
  {
   "property": "C243",
   "status": "partial",
   "theorems": [
    "Verif.Components.material",
    "Verif.Components.radiation_length",
    "Verif.Components.no_value_violated"
   ],
   "note": "violated: four attributes have no value after construction"
  },
  {
   "property": "C244",
   "status": "partial",
   "theorems": [
    "Verif.Components.standing_gain",
    "Verif.Components.standing_gain_violated",
    "Verif.Components.transverse_gain_violated"
   ],
   "note": "violated: a standing wave gives half of it, a transverse structure none"
  },
  {
   "property": "C245",
   "status": "proved",
   "theorems": [
    "Verif.Components.new_bend",
    "Verif.Components.gradient"
   ],
   "note": ""
  },
  {
   "property": "C246",
   "status": "partial",
   "theorems": [
    "Verif.Components.dipole_scales_gradient",
    "Verif.Components.dipole_violated"
   ],
   "note": "violated: the gradient is scaled along, and GetB0 of a turned bend has the wrong sign"
  },
  {
   "property": "C247",
   "status": "partial",
   "theorems": [
    "Verif.ThinLens.bend_keeps_partial",
    "Verif.ThinLens.small_tilt_violated"
   ],
   "note": "Holds without tilt or with a tilt above the tolerance of fequal; violated for tilts within it, when all coordinates of all particles become zero."
  },
  {
   "property": "C248",
   "status": "proved",
   "theorems": [
    "Verif.ThinLens.bend_axis"
   ],
   "note": "For fields without skew dipole part and tilts that are zero or above the tolerance."
  },
  {
   "property": "C249",
   "status": "partial",
   "theorems": [
    "Verif.ThinLens.bend_steps_partial"
   ],
   "note": "Dipole and gradient without skew parts; with other components the kick at the centre of each step is an approximation and steps do not compose exactly."
  },
  {
   "property": "C25",
   "status": "partial",
   "theorems": [
    "Verif.Monitor.setBPMOffset_reads",
    "Verif.Monitor.bpm_offset_partial",
    "Verif.Monitor.bpm_offset_violated",
    "Verif.Monitor.record_keeps_offset"
   ],
   "note": "the offset of the other plane is reset to zero: violated when it was not zero"
  },
  {
   "property": "C250",
   "status": "partial",
   "theorems": [
    "Verif.ThinLens.bend_motion_partial",
    "Verif.ThinLens.bend_motion_violated"
   ],
   "note": "Violated if the gradient cancels the focusing by the curvature: the dispersion is missing."
  },
  {
   "property": "C251",
   "status": "partial",
   "theorems": [
    "Verif.ThinLens.bend_momentum_partial",
    "Verif.ThinLens.bend_momentum_violated"
   ],
   "note": "Holds for dipole fields; violated with a gradient, which is taken at the reference momentum for all particles."
  },
  {
   "property": "C252",
   "status": "partial",
   "theorems": [
    "Verif.ThinLens.tilt_partial",
    "Verif.ThinLens.face_thin_lens",
    "Verif.ThinLens.tilt_face_violated"
   ],
   "note": "Holds for the body of the magnet; violated for pole faces, which are not turned."
  },
  {
   "property": "C253",
   "status": "partial",
   "theorems": [
    "Verif.ThinLens.sw_gain",
    "Verif.ThinLens.sw_defined",
    "Verif.ThinLens.sw_crossing_violated"
   ],
   "note": "Holds whenever the step is defined; at the zero crossing of the wave it is not (division by zero)."
  },
  {
   "property": "C254",
   "status": "partial",
   "theorems": [
    "Verif.ThinLens.sw_steps_partial",
    "Verif.ThinLens.sw_part_violated"
   ],
   "note": "Holds for steps of whole cells; any other step fails an assertion."
  },
  {
   "property": "C255",
   "status": "proved",
   "theorems": [
    "Verif.ThinLens.mon_run"
   ],
   "note": ""
  },
  {
   "property": "C256",
   "status": "partial",
   "theorems": [
    "Verif.ThinLens.mon_count",
    "Verif.ThinLens.mon_once_partial",
    "Verif.ThinLens.mon_thin",
    "Verif.ThinLens.mon_repeat_violated",
    "Verif.ThinLens.mon_end_violated"
   ],
   "note": "Holds in one step; violated for several steps after the measurement point and for a point at the end of the monitor."
  },
  {
   "property": "C257",
   "status": "partial",
   "theorems": [
    "Verif.ThinLens.sol_invariants_partial",
    "Verif.ThinLens.sol_steps_partial",
    "Verif.ThinLens.sol_motion_partial",
    "Verif.ThinLens.sol_drift",
    "Verif.ThinLens.sol_momentum",
    "Verif.ThinLens.sol_weak_violated"
   ],
   "note": "Momentum dependence holds always; invariants and composition for angles above the tolerance; below it particles stand still."
  },
  {
   "property": "C258",
   "status": "proved",
   "theorems": [
    "Verif.ThinLens.select_safe",
    "Verif.ThinLens.select_own"
   ],
   "note": ""
  },
  {
   "property": "C259",
   "status": "partial",
   "theorems": [
    "Verif.ThinLens.select_all_partial",
    "Verif.ThinLens.select_missing_violated"
   ],
   "note": "The missing combinations are listed exactly."
  },
  {
   "property": "C26",
   "status": "partial",
   "theorems": [
    "Verif.Monitor.measure_partial",
    "Verif.Monitor.remove_reports",
    "Verif.Monitor.default_buffer_violated",
    "Verif.Monitor.null_buffer_violated"
   ],
   "note": "full account of who records what after any program; the documented meaning of the default buffer is violated"
  },
  {
   "property": "C260",
   "status": "proved",
   "theorems": [
    "Verif.SMPMaps.drift_tracked",
    "Verif.SMPMaps.rect_tracked",
    "Verif.SMPMaps.rect_drift",
    "Verif.SMPMaps.thick_follows",
    "Verif.SMPMaps.straight_unique"
   ],
   "note": "Clouds in which all particles have the momentum of the slice; a dipole or a normal gradient; linear equations of motion with unique orbits."
  },
  {
   "property": "C261",
   "status": "partial",
   "theorems": [
    "Verif.SMPMaps.combined_partial",
    "Verif.SMPMaps.lens_follows",
    "Verif.SMPMaps.combined_violated"
   ],
   "note": "Half the gradient, the whole deflection, the other half; violated: not the motion in the combined field."
  },
  {
   "property": "C262",
   "status": "partial",
   "theorems": [
    "Verif.SMPMaps.thin_follows",
    "Verif.SMPMaps.corrector_tracked",
    "Verif.SMPMaps.thin_quadrupole_violated"
   ],
   "note": "Correctors are right; violated: quadrupoles of length zero have the opposite sign."
  },
  {
   "property": "C263",
   "status": "partial",
   "theorems": [
    "Verif.SMPMaps.rotateZ_follows",
    "Verif.SMPMaps.skew_partial",
    "Verif.SMPMaps.skew_loses_violated",
    "Verif.SMPMaps.skew_violated",
    "Verif.SMPMaps.skew_dipole_violated"
   ],
   "note": "Acts as the conjugate gradient on particles without deviations; violated: momentum deviation and place are lost, displacement to the wrong side, dipole with the opposite sign."
  },
  {
   "property": "C264",
   "status": "partial",
   "theorems": [
    "Verif.SMPMaps.bend_tracked",
    "Verif.SMPMaps.circle_unique",
    "Verif.SMPMaps.bend_gradient_violated"
   ],
   "note": "Holds with the gradient in units of the reference momentum of the bunch, for K1 + h^2 not zero; violated: the gradient depends on the reference momentum."
  },
  {
   "property": "C265",
   "status": "partial",
   "theorems": [
    "Verif.SMPMaps.tilt_partial",
    "Verif.SMPMaps.face_tracked",
    "Verif.SMPMaps.faces_cancel",
    "Verif.SMPMaps.tilt_loses_violated"
   ],
   "note": "Pole faces hold; tilted bends act in the turned plane on particles without deviations; violated: deviation and place are lost."
  },
  {
   "property": "C266",
   "status": "partial",
   "theorems": [
    "Verif.SMPMaps.solenoid_off",
    "Verif.SMPMaps.solenoid_partial",
    "Verif.SMPMaps.solenoid_loses_violated",
    "Verif.SMPMaps.solenoid_step_violated",
    "Verif.SMPMaps.solenoid_helix_violated"
   ],
   "note": "Off is a drift; without horizontal slope the transverse means go through edges and helix; violated: deviation and place are lost, and a slice with a horizontal slope stays in its plane."
  },
  {
   "property": "C267",
   "status": "proved",
   "theorems": [
    "Verif.SMPMaps.tw_gain"
   ],
   "note": "All momenta different from zero."
  },
  {
   "property": "C268",
   "status": "proved",
   "theorems": [
    "Verif.SMPMaps.tw_emittance"
   ],
   "note": "All momenta different from zero."
  },
  {
   "property": "C269",
   "status": "partial",
   "theorems": [
    "Verif.SMPMaps.tw_slope",
    "Verif.SMPMaps.tw_position",
    "Verif.SMPMaps.tw_position_partial",
    "Verif.SMPMaps.tw_position_violated"
   ],
   "note": "Transverse momentum is exact; position up to third order in the relative gain; violated for gains above twice the momentum, where the slice moves backwards."
  },
  {
   "property": "C27",
   "status": "partial",
   "theorems": [
    "Verif.Klystron.make_balanced",
    "Verif.Klystron.balanced_run",
    "Verif.Klystron.setPhasor_balanced",
    "Verif.Klystron.make_vectorSum",
    "Verif.Klystron.adjustVectorSum_partial",
    "Verif.Klystron.vectorSum_ignored",
    "Verif.Klystron.vectorSum_violated",
    "Verif.Klystron.vectorSum_zero_violated"
   ],
   "note": "balanced mode proved; vector-sum mode never scales the cavities"
  },
  {
   "property": "C270",
   "status": "proved",
   "theorems": [
    "Verif.SMPMaps.rect_steps",
    "Verif.SMPMaps.bend_steps"
   ],
   "note": "Magnets with a dipole or a normal gradient; bends without tilt."
  },
  {
   "property": "C271",
   "status": "proved",
   "theorems": [
    "Verif.SMPMaps.line_tracked"
   ],
   "note": "Lines of elements for which C260 and C264 hold; the conditions are listed in Sound."
  },
  {
   "property": "C272",
   "status": "proved",
   "theorems": [
    "Verif.XTFF.energy_gained",
    "Verif.XTFF.cavity_gain",
    "Verif.XTFF.energy_of_file"
   ],
   "note": "for any line, and for whole files; the gain per cavity is specified separately"
  },
  {
   "property": "C273",
   "status": "proved",
   "theorems": [
    "Verif.XTFF.magnets_matched"
   ],
   "note": "gradients of bends below the machine epsilon are taken for zero and excepted"
  },
  {
   "property": "C274",
   "status": "partial",
   "theorems": [
    "Verif.XTFF.places",
    "Verif.XTFF.length_kept",
    "Verif.XTFF.wire_violated"
   ],
   "note": "holds except for wires, whose length becomes an angle; rectangular bends are treated in C275"
  },
  {
   "property": "C275",
   "status": "partial",
   "theorems": [
    "Verif.XTFF.sector_bend",
    "Verif.XTFF.rect_bend",
    "Verif.XTFF.plain_bend_violated",
    "Verif.XTFF.rect_faces_violated"
   ],
   "note": "holds for sector bends with both faces turned; plain sector bends are a null pointer written to, and faces of rectangular bends are ignored"
  },
  {
   "property": "C276",
   "status": "partial",
   "theorems": [
    "Verif.XTFF.tilted",
    "Verif.XTFF.other_tilts",
    "Verif.XTFF.negative_skew_violated",
    "Verif.XTFF.near_skew_violated"
   ],
   "note": "normal and skew angles; other tilts fail an assertion, and tilts near the skew angle are rounded"
  },
  {
   "property": "C277",
   "status": "partial",
   "theorems": [
    "Verif.XTFF.kicks_lost_violated"
   ],
   "note": "violated: kicks are ignored"
  },
  {
   "property": "C278",
   "status": "partial",
   "theorems": [
    "Verif.XTFF.no_apertures",
    "Verif.XTFF.circular",
    "Verif.XTFF.collimator",
    "Verif.XTFF.wide_collimator_violated",
    "Verif.XTFF.lost_jaws_violated"
   ],
   "note": "collimators are twice as wide as the file says"
  },
  {
   "property": "C279",
   "status": "partial",
   "theorems": [
    "Verif.XTFF.treated",
    "Verif.XTFF.others_kept",
    "Verif.XTFF.monitors_kept_violated",
    "Verif.XTFF.short_name_violated"
   ],
   "note": "fails for monitors of one plane and names of less than three characters"
  },
  {
   "property": "C28",
   "status": "proved",
   "theorems": [
    "Verif.StepManager.table_ordered"
   ],
   "note": "after any sequence of add/remove/clear calls"
  },
  {
   "property": "C280",
   "status": "proved",
   "theorems": [
    "Verif.XTFF.fields",
    "Verif.XTFF.reads_file"
   ],
   "note": "atof is a parameter"
  },
  {
   "property": "C281",
   "status": "partial",
   "theorems": [
    "Verif.XTFF.pref_violated",
    "Verif.XTFF.pref_strength_violated"
   ],
   "note": "violated: the momentum is overwritten"
  },
  {
   "property": "C282",
   "status": "partial",
   "theorems": [
    "Verif.XTFF.missing_elements",
    "Verif.XTFF.truncated_violated",
    "Verif.XTFF.half_element_violated"
   ],
   "note": "refused at the end of an element, accepted within the optics of an element, and with the first line of an element alone"
  },
  {
   "property": "C283",
   "status": "partial",
   "theorems": [
    "Verif.XTFF.append_continues",
    "Verif.XTFF.append_begins",
    "Verif.XTFF.shared_energy_violated"
   ],
   "note": "holds for one interface at a time"
  },
  {
   "property": "C284",
   "status": "partial",
   "theorems": [
    "Verif.XTFF.missing_file_violated",
    "Verif.XTFF.misuse_violated",
    "Verif.XTFF.destroyed"
   ],
   "note": "violated after a file that cannot be opened, and without a file"
  },
  {
   "property": "C285",
   "status": "partial",
   "theorems": [
    "Verif.XTFF.no_girders",
    "Verif.XTFF.nested_frames",
    "Verif.XTFF.unclosed_violated",
    "Verif.XTFF.overlap_violated",
    "Verif.XTFF.marker_name_violated"
   ],
   "note": "holds for markers in pairs; others are undefined instead of refused"
  },
  {
   "property": "C286",
   "status": "proved",
   "theorems": [
    "Verif.XTFF.crab_cavity",
    "Verif.XTFF.crab_unknown",
    "Verif.XTFF.axis_turned"
   ],
   "note": ""
  },
  {
   "property": "C287",
   "status": "proved",
   "theorems": [
    "Verif.Crab.turns_both",
    "Verif.Crab.turns_atlas",
    "Verif.Crab.turns_cms"
   ],
   "note": "for every prefix of any number of turns in both orders; with one point in use, at the cavities of that point"
  },
  {
   "property": "C288",
   "status": "proved",
   "theorems": [
    "Verif.Crab.atlas_up",
    "Verif.Crab.cms_up",
    "Verif.Crab.tilt_slope"
   ],
   "note": "fraction one before the failure"
  },
  {
   "property": "C289",
   "status": "partial",
   "theorems": [
    "Verif.Crab.runs_both",
    "Verif.Crab.start_at_five"
   ],
   "note": "holds for bunches that start before the first point; started before the fifth, the index -1 is read"
  },
  {
   "property": "C29",
   "status": "partial",
   "theorems": [
    "Verif.StepManager.remove_partial",
    "Verif.StepManager.remove_last_violated",
    "Verif.StepManager.remove_absent_violated"
   ],
   "note": "Removal is right for a registered process; the return value is false for the last process and removing an absent process erases end()."
  },
  {
   "property": "C290",
   "status": "partial",
   "theorems": [
    "Verif.Crab.cms_up",
    "Verif.Crab.cms_idle",
    "Verif.Crab.cms_never_kicks_violated"
   ],
   "note": "holds with the fifth point alone in use; with both the kick is missing"
  },
  {
   "property": "C291",
   "status": "partial",
   "theorems": [
    "Verif.Crab.atlas_up",
    "Verif.Crab.cms_up",
    "Verif.Crab.fails_early_violated"
   ],
   "note": "steps proved for all turns of the failure; it begins one turn early"
  },
  {
   "property": "C292",
   "status": "partial",
   "theorems": [
    "Verif.Crab.atlas_up",
    "Verif.Crab.idle_after",
    "Verif.Crab.off_still_ends_violated"
   ],
   "note": "holds until the turns of the failure would be over"
  },
  {
   "property": "C293",
   "status": "partial",
   "theorems": [
    "Verif.Crab.down_fail",
    "Verif.Crab.atlas_up",
    "Verif.Crab.phase_lost_violated"
   ],
   "note": "phase kept with both points or the fifth in use; with the first alone it is zero after the first cavity"
  },
  {
   "property": "C294",
   "status": "proved",
   "theorems": [
    "Verif.Crab.crossing_atlas",
    "Verif.Crab.crossing_cms"
   ],
   "note": "first and fifth interaction point, before a failure; with the first point alone in use for phase zero, at the fifth with that point alone in use (C290)"
  },
  {
   "property": "C295",
   "status": "partial",
   "theorems": [
    "Verif.Crab.closes_iff",
    "Verif.Crab.slope_left",
    "Verif.Crab.closing_violated"
   ],
   "note": "holds exactly when the phase advance is a whole number of half oscillations"
  },
  {
   "property": "C296",
   "status": "proved",
   "theorems": [
    "Verif.Crab.only_slopes",
    "Verif.Crab.atlas_idle",
    "Verif.Crab.cms_idle"
   ],
   "note": "for cavities of all four sets; cavities of a point not in use do nothing"
  },
  {
   "property": "C297",
   "status": "partial",
   "theorems": [
    "Verif.Crab.fifth_cavity",
    "Verif.Crab.out_of_place_violated"
   ],
   "note": "both parts are violated"
  },
  {
   "property": "C298",
   "status": "partial",
   "theorems": [
    "Verif.Crab.default_period",
    "Verif.Crab.frequency_violated"
   ],
   "note": "holds for the built-in frequency; one given to the constructor is taken for an angular frequency"
  },
  {
   "property": "C299",
   "status": "proved",
   "theorems": [
    "Verif.Photon.synRad_low",
    "Verif.Photon.synRad_high",
    "Verif.Photon.synRad_zero"
   ],
   "note": "the coefficients of the series are listed in the specification"
  },
  {
   "property": "C30",
   "status": "proved",
   "theorems": [
    "Verif.StepManager.track_steps",
    "Verif.StepManager.track_exact",
    "Verif.StepManager.track_seen",
    "Verif.StepManager.integrated_length",
    "Verif.StepManager.loop_ends",
    "Verif.StepManager.zero_limit_hangs"
   ],
   "note": "loop_ends needs a positive lower bound on the limits; a process with limit zero keeps the loop going for ever (zero_limit_hangs)."
  },
  {
   "property": "C300",
   "status": "proved",
   "theorems": [
    "Verif.Photon.synRad_pos",
    "Verif.Photon.below_power",
    "Verif.Photon.below_exp"
   ],
   "note": "integer polynomials bounded on intervals, tangents of the exponential; below 1e-38 the power is smaller than the spectrum by less than the precision of doubles"
  },
  {
   "property": "C301",
   "status": "proved",
   "theorems": [
    "Verif.Photon.round_law",
    "Verif.Photon.round_ratio",
    "Verif.Photon.total_integral"
   ],
   "note": "change of variables for both approximations"
  },
  {
   "property": "C302",
   "status": "proved",
   "theorems": [
    "Verif.Photon.loop_first",
    "Verif.Photon.round_choice"
   ],
   "note": ""
  },
  {
   "property": "C303",
   "status": "proved",
   "theorems": [
    "Verif.Photon.calls_forgotten"
   ],
   "note": ""
  },
  {
   "property": "C304",
   "status": "partial",
   "theorems": [
    "Verif.Photon.energy_range",
    "Verif.Photon.energy_finite_partial",
    "Verif.Photon.hbGen_scale",
    "Verif.Photon.infinite_energy_violated"
   ],
   "note": "the random number zero gives a photon of infinite energy that is always accepted"
  },
  {
   "property": "C305",
   "status": "partial",
   "theorems": [
    "Verif.Photon.awGen_falls",
    "Verif.Photon.awGen_large",
    "Verif.Photon.awGen_finite_partial",
    "Verif.Photon.awGen_infinite_violated"
   ],
   "note": "infinite for the random number zero"
  },
  {
   "property": "C306",
   "status": "proved",
   "theorems": [
    "Verif.Coupler.wakeT_force",
    "Verif.Coupler.kicks_spec",
    "Verif.Coupler.impulse_spec",
    "Verif.Coupler.plain_kicks"
   ],
   "note": "for potentials that are not of coherent radiation; at the last boundary the force is zero (see C308)"
  },
  {
   "property": "C307",
   "status": "partial",
   "theorems": [
    "Verif.Coupler.rf_only",
    "Verif.Coupler.noCharge_violated"
   ],
   "note": "holds for every charge but zero; without charge or length the division by it gives no number"
  },
  {
   "property": "C308",
   "status": "partial",
   "theorems": [
    "Verif.Coupler.rf_constant",
    "Verif.Coupler.halfSlice_violated"
   ],
   "note": "constant kicks reach all slices but the last, where they fall to zero; the phase is taken half a slice ahead of the particle"
  },
  {
   "property": "C309",
   "status": "partial",
   "theorems": [
    "Verif.Coupler.phase_partial",
    "Verif.Coupler.phase_violated"
   ],
   "note": "the absolute value of the phase is taken: right for phases that are not positive, and structures of opposite phases kick alike"
  },
  {
   "property": "C31",
   "status": "partial",
   "theorems": [
    "Verif.Tracker.passes_complete",
    "Verif.Tracker.refTime_total",
    "Verif.Tracker.zero_step_violated",
    "Verif.Tracker.trackStep_return_violated"
   ],
   "note": "Holds for steps above the tolerance; zero steps repeat the entrance map; the value returned by TrackStep is the state number and not the remaining length."
  },
  {
   "property": "C310",
   "status": "partial",
   "theorems": [
    "Verif.Coupler.run_step",
    "Verif.Coupler.enter_active",
    "Verif.Coupler.standing_violated"
   ],
   "note": "the field of standing wave structures does not kick, all else holds"
  },
  {
   "property": "C311",
   "status": "partial",
   "theorems": [
    "Verif.Coupler.enter_other",
    "Verif.Coupler.enter_bunch",
    "Verif.Coupler.enterCuts_violated"
   ],
   "note": "the slices are made at the entrance already, which cuts off the tails"
  },
  {
   "property": "C312",
   "status": "partial",
   "theorems": [
    "Verif.Coupler.both_active",
    "Verif.Coupler.twice_violated"
   ],
   "note": "the process with couplers does not ask which process is expected; both act, and wakes act twice, unless another process is expected"
  },
  {
   "property": "C313",
   "status": "proved",
   "theorems": [
    "Verif.Generators.gauss_spec",
    "Verif.Generators.normal_within",
    "Verif.Generators.normal_plain"
   ],
   "note": "Random numbers are lists of exact numbers."
  },
  {
   "property": "C314",
   "status": "proved",
   "theorems": [
    "Verif.Generators.ring_amplitude",
    "Verif.Generators.horizontal1_amplitude",
    "Verif.Generators.vertical1_amplitude",
    "Verif.Generators.horizontal2_amplitude",
    "Verif.Generators.vertical2_amplitude"
   ],
   "note": "For uncoupled beams."
  },
  {
   "property": "C315",
   "status": "proved",
   "theorems": [
    "Verif.Generators.horizontal_matched",
    "Verif.Generators.vertical_matched",
    "Verif.Generators.ring_matched"
   ],
   "note": "Means over uniform numbers of [0, 1) as integrals."
  },
  {
   "property": "C316",
   "status": "partial",
   "theorems": [
    "Verif.Generators.horizontal_emittance",
    "Verif.Generators.emittance_violated",
    "Verif.Generators.momentum_spread_violated",
    "Verif.Generators.uniform_plain"
   ],
   "note": "Violated: halos of one sigma have half the emittance of the beam, momenta of halos a third of the variance of normal ones. The exact moments are proved."
  },
  {
   "property": "C317",
   "status": "partial",
   "theorems": [
    "Verif.Generators.thin_ellipse",
    "Verif.Generators.thick_annulus",
    "Verif.Generators.thick_slopes",
    "Verif.Generators.slopes_violated",
    "Verif.Generators.thick_density_violated"
   ],
   "note": "The ellipses hold. Violated: slopes are -alpha x / beta, not zero; thick halos are denser inside, as the radius is uniform."
  },
  {
   "property": "C318",
   "status": "proved",
   "theorems": [
    "Verif.Elastic.invariant_mass",
    "Verif.Elastic.cross_sections"
   ],
   "note": "For cross sections positive at the steps; the number of steps as in Spec.Steps."
  },
  {
   "property": "C319",
   "status": "proved",
   "theorems": [
    "Verif.Elastic.select_quantiles",
    "Verif.Elastic.select_law"
   ],
   "note": "Random numbers are real numbers of [0, 1)."
  },
  {
   "property": "C32",
   "status": "proved",
   "theorems": [
    "Verif.Tracker.legal_iff",
    "Verif.Tracker.unknown_violated"
   ],
   "note": "Exact characterisation of the calls that succeed. unknown_violated: side effect of a failed selection."
  },
  {
   "property": "C320",
   "status": "partial",
   "theorems": [
    "Verif.Elastic.energy_violated"
   ],
   "note": "Violated: a distribution is made once, later energies and bounds are ignored."
  },
  {
   "property": "C321",
   "status": "proved",
   "theorems": [
    "Verif.Elastic.sum_integral"
   ],
   "note": ""
  },
  {
   "property": "C322",
   "status": "proved",
   "theorems": [
    "Verif.Elastic.form_factor",
    "Verif.Elastic.even_pole",
    "Verif.Elastic.odd_pole"
   ],
   "note": ""
  },
  {
   "property": "C323",
   "status": "partial",
   "theorems": [
    "Verif.Elastic.double_exchange",
    "Verif.Elastic.double_exchange_bar_violated"
   ],
   "note": "Proved for protons. Violated for antiprotons: the terms are multiplied into zero; this function is not called."
  },
  {
   "property": "C324",
   "status": "proved",
   "theorems": [
    "Verif.Elastic.nuclear_cross",
    "Verif.Elastic.coulomb_cross",
    "Verif.Elastic.coulomb_case"
   ],
   "note": "With the Coulomb part where the imaginary part of the nuclear amplitude does not vanish, as the code divides by it; coulomb_case shows such a collision."
  },
  {
   "property": "C325",
   "status": "proved",
   "theorems": [
    "Verif.Elastic.gluons_smooth"
   ],
   "note": ""
  },
  {
   "property": "C326",
   "status": "partial",
   "theorems": [
    "Verif.Diffractive.generation",
    "Verif.Diffractive.energy_violated"
   ],
   "note": "Proved for the first generation. Violated: a later energy is ignored."
  },
  {
   "property": "C327",
   "status": "proved",
   "theorems": [
    "Verif.Diffractive.law",
    "Verif.Diffractive.retry",
    "Verif.Diffractive.within"
   ],
   "note": "The size of the tables is arbitrary. Random numbers are real numbers of [0, 1)."
  },
  {
   "property": "C328",
   "status": "partial",
   "theorems": [
    "Verif.Diffractive.below_violated",
    "Verif.Diffractive.below_case"
   ],
   "note": "Violated if the first bin of t has more than two parts in N; C327 has the bounds for rising tables."
  },
  {
   "property": "C329",
   "status": "partial",
   "theorems": [
    "Verif.Diffractive.factor_falls",
    "Verif.Diffractive.history_violated"
   ],
   "note": "The factor falls and stays positive. Violated: later tries accept less."
  },
  {
   "property": "C33",
   "status": "partial",
   "theorems": [
    "Verif.Tracking.stepping_partial",
    "Verif.Tracking.step_patch_violated",
    "Verif.Tracking.step_patchframe_violated",
    "Verif.Tracking.step_axis_violated"
   ],
   "note": "Equal traces for beamlines whose frames all have a component and no geometry patch, without injection on axis; the other cases are violations in the code: stepping ignores patches and injection on axis, and throws a string at a patch frame."
  },
  {
   "property": "C330",
   "status": "partial",
   "theorems": [
    "Verif.Diffractive.single_violated"
   ],
   "note": "Violated: the pointer is set nowhere; the model is undefined behaviour by inspection."
  },
  {
   "property": "C331",
   "status": "proved",
   "theorems": [
    "Verif.Diffractive.ranges",
    "Verif.Diffractive.joints",
    "Verif.Diffractive.high_positive"
   ],
   "note": "For s of at least 4000 whenever the member ss is above 4000, as in all calls."
  },
  {
   "property": "C332",
   "status": "partial",
   "theorems": [
    "Verif.Diffractive.background_spec",
    "Verif.Diffractive.high_deriv",
    "Verif.Diffractive.slope_violated"
   ],
   "note": "The background has the value and the slope it is given. Violated: that slope lacks a factor s in the pion term."
  },
  {
   "property": "C333",
   "status": "partial",
   "theorems": [
    "Verif.Diffractive.t_smooth",
    "Verif.Diffractive.t_jump_violated"
   ],
   "note": "No jump except at t = -1/4, where it jumps."
  },
  {
   "property": "C334",
   "status": "partial",
   "theorems": [
    "Verif.Format.settings",
    "Verif.Format.general_violated"
   ],
   "note": "Proved for all calls but general, which does nothing (violated)."
  },
  {
   "property": "C335",
   "status": "proved",
   "theorems": [
    "Verif.Format.int_read",
    "Verif.Format.double_read",
    "Verif.Format.number_width"
   ],
   "note": "Finite doubles as rational numbers; rounding to nearest, halves to even."
  },
  {
   "property": "C336",
   "status": "partial",
   "theorems": [
    "Verif.Format.text_kept",
    "Verif.Format.text_cut",
    "Verif.Format.narrow_violated"
   ],
   "note": "Violated for widths below two."
  },
  {
   "property": "C337",
   "status": "partial",
   "theorems": [
    "Verif.Format.value_neutral",
    "Verif.Format.stream_violated",
    "Verif.Format.matrix_adjust_violated"
   ],
   "note": "Proved for os << fmt(x). Violated for os << fmt << x and for MatrixForm."
  },
  {
   "property": "C338",
   "status": "proved",
   "theorems": [
    "Verif.Format.matrix"
   ],
   "note": "For left and right adjustment."
  },
  {
   "property": "C339",
   "status": "proved",
   "theorems": [
    "Verif.Landau.quantiles",
    "Verif.Landau.probability"
   ],
   "note": "Entries of the table as decimal numbers of the source."
  },
  {
   "property": "C34",
   "status": "proved",
   "theorems": [
    "Verif.Tracking.beamline_visits",
    "Verif.Tracking.ring_visits",
    "Verif.Tracking.ring_components"
   ],
   "note": "Full trace of calls on the bunch for all beamlines and rings and starting points, given that no process throws (see C90)."
  },
  {
   "property": "C340",
   "status": "proved",
   "theorems": [
    "Verif.Landau.table_increasing",
    "Verif.Landau.table_continuous",
    "Verif.Landau.high_increasing",
    "Verif.Landau.joint"
   ],
   "note": "The joint at 0.007 is not covered."
  },
  {
   "property": "C341",
   "status": "partial",
   "theorems": [
    "Verif.Landau.pole_violated",
    "Verif.Landau.joint_violated"
   ],
   "note": "Violated: pole of the formula for small random numbers, small step down where the table ends. C340 has the ranges where it holds."
  },
  {
   "property": "C342",
   "status": "partial",
   "theorems": [
    "Verif.Landau.far_violated",
    "Verif.Landau.far_case"
   ],
   "note": "Violated: the branch is never reached."
  },
  {
   "property": "C343",
   "status": "proved",
   "theorems": [
    "Verif.Resistive.read_print"
   ],
   "note": "A number counts as one symbol of the file."
  },
  {
   "property": "C344",
   "status": "partial",
   "theorems": [
    "Verif.Resistive.unclosed_violated"
   ],
   "note": "Violated: the loop never ends."
  },
  {
   "property": "C345",
   "status": "proved",
   "theorems": [
    "Verif.Resistive.table_quadratic",
    "Verif.Resistive.table_grid",
    "Verif.Resistive.table_beyond"
   ],
   "note": "Rational arithmetic."
  },
  {
   "property": "C346",
   "status": "partial",
   "theorems": [
    "Verif.Resistive.offset_violated",
    "Verif.Resistive.two_points_violated",
    "Verif.Resistive.halfway_violated"
   ],
   "note": "Violated in all three respects."
  },
  {
   "property": "C347",
   "status": "proved",
   "theorems": [
    "Verif.Resistive.xi_quadratic",
    "Verif.Resistive.gamma_quadratic"
   ],
   "note": "Axes that begin at zero."
  },
  {
   "property": "C348",
   "status": "partial",
   "theorems": [
    "Verif.Resistive.xi_axis_violated",
    "Verif.Resistive.gamma_edge_violated",
    "Verif.Resistive.xi_edge_violated",
    "Verif.Resistive.xi_cut_violated"
   ],
   "note": "Violated: step and size are those of the other axis. C347 has the case of equal axes."
  },
  {
   "property": "C349",
   "status": "partial",
   "theorems": [
    "Verif.Resistive.both_axes",
    "Verif.Resistive.both_exact",
    "Verif.Resistive.linear_violated",
    "Verif.Resistive.table_linear_violated",
    "Verif.Resistive.beyond_violated"
   ],
   "note": "Violated: one of the corner terms lacks a summand and two coefficients are exchanged; exact conditions proved."
  },
  {
   "property": "C35",
   "status": "partial",
   "theorems": [
    "Verif.Aperture.check_iff",
    "Verif.Aperture.factory_shape",
    "Verif.Aperture.octagon_rectangle_violated"
   ],
   "note": "Proved for all shapes with positive dimensions; an octagon whose cut is only the corner is violated."
  },
  {
   "property": "C350",
   "status": "proved",
   "theorems": [
    "Verif.Resistive.taper_derivative",
    "Verif.Resistive.taper_signs"
   ],
   "note": "Signs for the narrow gap given first."
  },
  {
   "property": "C351",
   "status": "proved",
   "theorems": [
    "Verif.Resistive.resist_signs",
    "Verif.Resistive.resist_scaling"
   ],
   "note": ""
  },
  {
   "property": "C352",
   "status": "partial",
   "theorems": [
    "Verif.Resistive.derivative_violated",
    "Verif.Resistive.mode_zero_violated"
   ],
   "note": "Violated."
  },
  {
   "property": "C353",
   "status": "partial",
   "theorems": [
    "Verif.Resistive.table_trans",
    "Verif.Resistive.long_violated",
    "Verif.Resistive.monopole_violated"
   ],
   "note": "Transverse potential of the modes from one on proved; the longitudinal one and mode zero violated."
  },
  {
   "property": "C354",
   "status": "proved",
   "theorems": [
    "Verif.Absorber.gamma_defined",
    "Verif.Absorber.gamma_integers"
   ],
   "note": "Real arithmetic with the decimal coefficients of the source."
  },
  {
   "property": "C355",
   "status": "partial",
   "theorems": [
    "Verif.Absorber.gamma_negative_violated"
   ],
   "note": "Violated: the logarithm of a negative sum."
  },
  {
   "property": "C356",
   "status": "proved",
   "theorems": [
    "Verif.Absorber.coulomb_moments",
    "Verif.Absorber.coulomb_divided"
   ],
   "note": ""
  },
  {
   "property": "C357",
   "status": "partial",
   "theorems": [
    "Verif.Absorber.divided_violated"
   ],
   "note": "Violated by the logarithmic term of the formula for the angle. C356 has the case without it."
  },
  {
   "property": "C358",
   "status": "proved",
   "theorems": [
    "Verif.Absorber.loss_nonneg",
    "Verif.Absorber.energy_positive",
    "Verif.Absorber.thin_block",
    "Verif.Absorber.medium_block"
   ],
   "note": ""
  },
  {
   "property": "C359",
   "status": "partial",
   "theorems": [
    "Verif.Absorber.gain_violated",
    "Verif.Absorber.gain_case",
    "Verif.Absorber.empty_violated"
   ],
   "note": "Violated: in 27.7 radiation lengths more than a tenth of the random numbers triple the energy. C358 has the range where it holds."
  },
  {
   "property": "C36",
   "status": "partial",
   "theorems": [
    "Verif.Aperture.interpolated_circle",
    "Verif.Aperture.interpolated_octagon",
    "Verif.Aperture.interpolated_rectEllipse_partial",
    "Verif.Aperture.interpolated_ellipse_partial",
    "Verif.Aperture.before_start",
    "Verif.Aperture.shapeAt_unique",
    "Verif.Aperture.interpolated_rectEllipse_violated",
    "Verif.Aperture.interpolated_boundary_violated",
    "Verif.Aperture.interpolated_ellipse_violated",
    "Verif.Aperture.interpolated_range_violated",
    "Verif.Aperture.interpolated_double_violated"
   ],
   "note": "Circles and octagons proved; rectangle-ellipses and ellipses characterised and violated."
  },
  {
   "property": "C360",
   "status": "proved",
   "theorems": [
    "Verif.Hierarchy.wrap_frames",
    "Verif.Hierarchy.wrap_remove"
   ],
   "note": ""
  },
  {
   "property": "C361",
   "status": "partial",
   "theorems": [
    "Verif.Hierarchy.position_sum",
    "Verif.Hierarchy.wrap_position",
    "Verif.Hierarchy.removed_violated",
    "Verif.Hierarchy.twice_violated",
    "Verif.Hierarchy.top_violated"
   ],
   "note": "Positions are the sums of local positions along the frames above. Holds for one wrapper after consolidation (wrap_position). Violated after removal (position zero), with a second wrapper and for the frame at the top."
  },
  {
   "property": "C362",
   "status": "proved",
   "theorems": [
    "Verif.Hierarchy.copy_leaves",
    "Verif.Hierarchy.copy_locals"
   ],
   "note": ""
  },
  {
   "property": "C363",
   "status": "partial",
   "theorems": [
    "Verif.Hierarchy.copy_length_violated",
    "Verif.Hierarchy.copy_sequence_violated",
    "Verif.Hierarchy.copy_modifier_violated",
    "Verif.Hierarchy.copy_mover_violated"
   ],
   "note": "Violated: the geometry of a copied component is null, that of a copied sequence is never set, modifiers are dropped, movers fail an assertion. C362 has what is copied."
  },
  {
   "property": "C364",
   "status": "proved",
   "theorems": [
    "Verif.Mover.read_back",
    "Verif.Mover.roll_exact"
   ],
   "note": ""
  },
  {
   "property": "C365",
   "status": "proved",
   "theorems": [
    "Verif.Mover.moved_point",
    "Verif.Mover.moved_origin"
   ],
   "note": ""
  },
  {
   "property": "C366",
   "status": "partial",
   "theorems": [
    "Verif.Mover.transformed_violated",
    "Verif.Mover.set_get",
    "Verif.Mover.set_get_violated"
   ],
   "note": "Violated: IsTransformed does not know of the mover; what is set is what is returned exactly for a mover at zero (set_get)."
  },
  {
   "property": "C367",
   "status": "proved",
   "theorems": [
    "Verif.Stable.listed_stable"
   ],
   "note": "Contents of the list at the end of the loop over the turns."
  },
  {
   "property": "C368",
   "status": "partial",
   "theorems": [
    "Verif.Stable.deleted_violated",
    "Verif.Stable.none_violated",
    "Verif.Stable.no_turns_violated"
   ],
   "note": "Violated: the process deletes the list of the caller when the tracker goes out of scope; an exception is thrown if no particle is stable; without turns the list is left alone."
  },
  {
   "property": "C369",
   "status": "proved",
   "theorems": [
    "Verif.Profile.time_spent"
   ],
   "note": "Integers without bounds."
  },
  {
   "property": "C37",
   "status": "proved",
   "theorems": [
    "Verif.Interpolation.linear",
    "Verif.Interpolation.onLine_meaning",
    "Verif.Interpolation.order_of_points"
   ],
   "note": "For all tables of at least two distinct places, given in any order."
  },
  {
   "property": "C370",
   "status": "partial",
   "theorems": [
    "Verif.Profile.clear_violated",
    "Verif.Profile.clear_characterised",
    "Verif.Profile.unstarted_violated",
    "Verif.Profile.twice_violated"
   ],
   "note": "Violated: ClearTime clears the first process in alphabetical order only; a timer stopped without start gets the time since the origin of the clock, one stopped twice counts its interval twice."
  },
  {
   "property": "C371",
   "status": "partial",
   "theorems": [
    "Verif.MapComponent.own_partial",
    "Verif.MapComponent.rotate_family",
    "Verif.MapComponent.copy_rotated_violated"
   ],
   "note": "Holds without copies or without rotations. Copies share the map by pointer, so a rotation inverts every component of the family (rotate_family is exact for all sequences)."
  },
  {
   "property": "C372",
   "status": "partial",
   "theorems": [
    "Verif.MapComponent.track_each",
    "Verif.MapComponent.rotated_undoes",
    "Verif.MapComponent.rotated_drift_violated",
    "Verif.MapComponent.linear_rotate"
   ],
   "note": "The map is applied to each particle in a step of no length (any other step fails the assertion). A rotated component has the inverse map, which for a drift is a drift of negative length; components with a linear map cannot be rotated."
  },
  {
   "property": "C373",
   "status": "proved",
   "theorems": [
    "Verif.EigenSym.tqli_recombined",
    "Verif.EigenSym.tqli_unit",
    "Verif.EigenSym.tqli_orthogonal",
    "Verif.EigenSym.tqli_trace",
    "Verif.EigenSym.tqli_two",
    "Verif.EigenSym.sweep_two",
    "Verif.EigenSym.pythag_eq"
   ],
   "note": "Exact real arithmetic. tqli is modelled completely; that the number of sweeps suffices is proved for two rows only, otherwise tqli may throw (C374)."
  },
  {
   "property": "C374",
   "status": "proved",
   "theorems": [
    "Verif.EigenSym.tqli_defined",
    "Verif.EigenSym.eigenSystem_defined"
   ],
   "note": "Exact real arithmetic: the break for r == 0 is then never taken."
  },
  {
   "property": "C375",
   "status": "proved",
   "theorems": [
    "Verif.EigenSym.tred2_recombined",
    "Verif.EigenSym.eigenSystem_recombined",
    "Verif.EigenSym.eigenSystem_orthogonal",
    "Verif.EigenSym.eigenSystem_two"
   ],
   "note": "Exact real arithmetic; the bound comes from the elements tqli takes as small. That EigenSystemSymmetricMatrix returns is proved for two rows; otherwise it may throw."
  },
  {
   "property": "C376",
   "status": "partial",
   "theorems": [
    "Verif.SVD.pythag_eq",
    "Verif.SVD.pythag_violated"
   ],
   "note": "Exact real arithmetic. Violated: the zero test is absolute, so if both arguments are within the machine epsilon and the second is not the smaller one, the result is zero. pythag_eq is the result in all other cases."
  },
  {
   "property": "C377",
   "status": "partial",
   "theorems": [
    "Verif.SVD.cancel_last_partial",
    "Verif.SVD.cancel_element",
    "Verif.SVD.cancel_violated"
   ],
   "note": "Exact real arithmetic. Holds if the element to be removed is the last of its block; violated otherwise, since the elements above the diagonal which follow are not multiplied by the cosines: cancel_element gives the elements with which the product would be kept."
  },
  {
   "property": "C378",
   "status": "proved",
   "theorems": [
    "Verif.SVD.search_spec",
    "Verif.SVD.cancel_orthogonal"
   ],
   "note": "Exact real arithmetic: the sum with the norm does not round, so small means within the machine epsilon."
  },
  {
   "property": "C379",
   "status": "proved",
   "theorems": [
    "Verif.SVD.sweep_product",
    "Verif.SVD.sweep_orthogonal",
    "Verif.SVD.shift_defined"
   ],
   "note": "Exact real arithmetic, for sweeps that return: a PYTHAG of two small values in the course of a sweep would be a division by zero. That the number of sweeps suffices is not proved."
  },
  {
   "property": "C38",
   "status": "partial",
   "theorems": [
    "Verif.Interpolation.equal_spaced_partial",
    "Verif.Interpolation.upper_end_violated"
   ],
   "note": "True except at the upper end, where the element behind the last is read."
  },
  {
   "property": "C380",
   "status": "proved",
   "theorems": [
    "Verif.Impacts.output_jaw",
    "Verif.Impacts.output_plot",
    "Verif.Impacts.output_twice"
   ],
   "note": "Formats of numbers are not modelled and files can always be opened. A second output to the same directory with the same seed replaces the files (output_twice)."
  },
  {
   "property": "C381",
   "status": "partial",
   "theorems": [
    "Verif.Impacts.tracked",
    "Verif.Impacts.tracked_violated"
   ],
   "note": "Violated: the parts of DoScatter which record are commented out, so nothing is ever recorded (tracked) and the files hold only their headings (tracked_violated)."
  },
  {
   "property": "C382",
   "status": "partial",
   "theorems": [
    "Verif.Impacts.compare_eq",
    "Verif.Impacts.compare_violated"
   ],
   "note": "Violated: both comparisons return the opposite; compare_eq gives what they are."
  },
  {
   "property": "C383",
   "status": "partial",
   "theorems": [
    "Verif.Impacts.heading_violated"
   ],
   "note": "Violated for both files: the name of x is missing in scatter plots, and the last names of jaw impacts are run together."
  },
  {
   "property": "C384",
   "status": "proved",
   "theorems": [
    "Verif.SVD.second_nonneg",
    "Verif.SVD.second_range",
    "Verif.SVD.second_diagonal"
   ],
   "note": "Exact real arithmetic, for the second part of SVD, which starts from a bidiagonal matrix; that the tries suffice is proved for diagonal matrices only, otherwise ConvergenceFailure may be thrown."
  },
  {
   "property": "C385",
   "status": "proved",
   "theorems": [
    "Verif.SVD.first_product",
    "Verif.SVD.first_divisors"
   ],
   "note": "Exact real arithmetic, square matrices. Columns and rows which are not zero but within the tolerance are dropped by the code and are left out by the hypothesis AllClear."
  },
  {
   "property": "C386",
   "status": "proved",
   "theorems": [
    "Verif.SVD.first_orthonormal",
    "Verif.SVD.svd_orthonormal"
   ],
   "note": "Exact real arithmetic, square matrices; for every matrix, without a condition on the tolerance. SVD may throw ConvergenceFailure instead of returning."
  },
  {
   "property": "C387",
   "status": "proved",
   "theorems": [
    "Verif.SVD.svd_columns"
   ],
   "note": "Exact real arithmetic, square matrices."
  },
  {
   "property": "C388",
   "status": "proved",
   "theorems": [
    "Verif.SVD.svd_solve",
    "Verif.SVD.svd_solve_columns"
   ],
   "note": "Exact real arithmetic, square matrices, unit weights and threshold zero. That the product is the matrix is a hypothesis of svd_solve, proved for orthogonal columns; C377 shows that SVD does not always keep it."
  },
  {
   "property": "C389",
   "status": "proved",
   "theorems": [
    "Verif.Dense.get_eq",
    "Verif.Dense.set_get",
    "Verif.Dense.identity_get",
    "Verif.Dense.row_column",
    "Verif.Dense.ranged_get",
    "Verif.Dense.copy_eq"
   ],
   "note": "Sizes below 2^64; range checking compiled in, as by default."
  },
  {
   "property": "C39",
   "status": "proved",
   "theorems": [
    "Verif.Bunch.getMoments_mean",
    "Verif.Bunch.getMoments_cov",
    "Verif.Bunch.getMoments1_spec",
    "Verif.Bunch.getMoments_perm",
    "Verif.Bunch.projCentroid_mean"
   ],
   "note": ""
  },
  {
   "property": "C390",
   "status": "partial",
   "theorems": [
    "Verif.Dense.ranged_violated",
    "Verif.Dense.copy_violated"
   ],
   "note": "Violated: a range with ends exchanged by two or more is accepted and its length wraps around; copy of a matrix to itself sets it to zero, since redim clears it first. Ordered ranges and copies of other matrices are in C389."
  },
  {
   "property": "C391",
   "status": "partial",
   "theorems": [
    "Verif.Dense.mul_eq",
    "Verif.Dense.mul_violated",
    "Verif.Dense.mulVec_eq"
   ],
   "note": "Violated for matrices: the check compares the size of one with the exchanged size of the other, so the product is refused unless the result is square. It is right when it is formed, and for matrix and vector always."
  },
  {
   "property": "C392",
   "status": "partial",
   "theorems": [
    "Verif.Dense.gemm_eq",
    "Verif.Dense.gemm_violated",
    "Verif.Dense.gemv_eq",
    "Verif.Dense.gemv_violated"
   ],
   "note": "Violated: factors within the machine epsilon of zero or one are taken for these; tgemv with a transposed matrix that is not square multiplies the wrong number of elements by beta. gemm_eq and gemv_eq are the results in all other cases."
  },
  {
   "property": "C393",
   "status": "partial",
   "theorems": [
    "Verif.Dense.dot_eq",
    "Verif.Dense.dot_violated"
   ],
   "note": "Violated: the lengths are not compared; if the first vector is the shorter one the rest of the other is left out."
  },
  {
   "property": "C394",
   "status": "partial",
   "theorems": [
    "Verif.Dense.print_eq",
    "Verif.Dense.print_violated"
   ],
   "note": "Violated: the numbers of rows and columns are exchanged in the loops, so every matrix with elements that is not square ends in RangeError. Square matrices are written row by row."
  },
  {
   "property": "C395",
   "status": "partial",
   "theorems": [
    "Verif.Dense.sub_eq",
    "Verif.Dense.subMul_eq",
    "Verif.Dense.subMul_violated"
   ],
   "note": "Ordered ranges inside the matrix. Violated for *=: the columns of the part are compared with the rows of the matrix, so equal sizes are refused unless square, and other sizes are taken, which is undefined."
  },
  {
   "property": "C396",
   "status": "partial",
   "theorems": [
    "Verif.Dense.gemr_eq",
    "Verif.Dense.gemr_violated"
   ],
   "note": "Violated in place, which is not excluded by an assertion as it is in tgemm."
  },
  {
   "property": "C397",
   "status": "partial",
   "theorems": [
    "Verif.Dense.scalar_eq",
    "Verif.Dense.minus_violated"
   ],
   "note": "Violated: v - s adds s. scalar_eq says that this is right for zero only, and gives the other operations."
  },
  {
   "property": "C398",
   "status": "proved",
   "theorems": [
    "Verif.Dense.sums_eq",
    "Verif.Dense.locmaxabs_eq"
   ],
   "note": "Real elements."
  },
  {
   "property": "C399",
   "status": "proved",
   "theorems": [
    "Verif.MVC.set_get",
    "Verif.MVC.index_range",
    "Verif.MVC.eq_iff"
   ],
   "note": "zero() and printFormatted() are not modelled."
  },
  {
   "property": "C40",
   "status": "partial",
   "theorems": [
    "Verif.Bunch.getProjectedMoments_partial",
    "Verif.Bunch.getProjectedMoments_added",
    "Verif.Bunch.getProjectedMoments_violated"
   ],
   "note": "Violated: the former second moments are added."
  },
  {
   "property": "C400",
   "status": "proved",
   "theorems": [
    "Verif.MVC.r_eq"
   ],
   "note": "Real numbers; without positive variances the code gives no number or, if both are negative, a number without meaning."
  },
  {
   "property": "C401",
   "status": "partial",
   "theorems": [
    "Verif.MAD.srot_eq",
    "Verif.MAD.srot_violated"
   ],
   "note": "Violated: the length of the row (column L) is taken for the angle, so that an element without length turns nothing. srot_eq gives the rest."
  },
  {
   "property": "C402",
   "status": "partial",
   "theorems": [
    "Verif.PSvec.eq_bits",
    "Verif.PSvec.equal_iff",
    "Verif.PSvec.eq_numbers",
    "Verif.PSvec.eq_violated"
   ],
   "note": "Violated: the bits are compared, so zero and minus zero differ, and a vector which is no number is equal to itself. eq_bits is what holds always; eq_numbers is the property for numbers without minus zero, and equal_iff says that these are the only exceptions."
  },
  {
   "property": "C403",
   "status": "partial",
   "theorems": [
    "Verif.Plane.read_write",
    "Verif.Plane.read_violated",
    "Verif.Plane.write_violated"
   ],
   "note": "Whole numbers of at most six digits. Violated: nothing is written between the numbers, so that reading fails for all quarter turns, and different transformations give the same text."
  },
  {
   "property": "C404",
   "status": "partial",
   "theorems": [
    "Verif.Weighted.weighted_least",
    "Verif.Weighted.weighted_columns"
   ],
   "note": "Square matrices (others are not accepted, C155), exact arithmetic. weighted_least is for decompositions whose product is the weighted matrix; weighted_columns has no such hypothesis and is for orthogonal weighted columns above the threshold. Missing: matrices in general, for which SVD drops what is below its tolerance."
  },
  {
   "property": "C41",
   "status": "proved",
   "theorems": [
    "Verif.Bunch.adjustRefMomentum_keeps",
    "Verif.Bunch.adjustRefMomentum_ub",
    "Verif.Bunch.adjustRefMomentumToMean_mean"
   ],
   "note": ""
  },
  {
   "property": "C42",
   "status": "partial",
   "theorems": [
    "Verif.Bunch.setCentroid_mean",
    "Verif.Bunch.setCentroid_iff",
    "Verif.Bunch.setCentroid_violated",
    "Verif.Bunch.setCentroidTo_mean"
   ],
   "note": "Violated: the distance is only divided by the number of particles; exact effect proved."
  },
  {
   "property": "C43",
   "status": "partial",
   "theorems": [
    "Verif.Bunch.distribute_partial",
    "Verif.Bunch.gather_partial",
    "Verif.Bunch.gather_distribute_partial",
    "Verif.Bunch.distribute_violated",
    "Verif.Bunch.gather_violated",
    "Verif.Bunch.gather_twice_violated",
    "Verif.Bunch.distribute_ids_violated"
   ],
   "note": "Violated with the buffer size the code computes; the partition is proved for buffers of six numbers."
  },
  {
   "property": "C44",
   "status": "partial",
   "theorems": [
    "Verif.LossMap.tencm_total_partial",
    "Verif.LossMap.tencm_counts_partial",
    "Verif.LossMap.nearest_total_violated",
    "Verif.LossMap.nearest_counts_partial",
    "Verif.LossMap.precise_counts_partial",
    "Verif.LossMap.dispose_ends",
    "Verif.LossMap.dispose_negative_violated",
    "Verif.LossMap.tencm_same_name_violated",
    "Verif.LossMap.finalise_twice_violated",
    "Verif.LossMap.tencm_marker_violated"
   ],
   "note": "Proved for bins of ten centimetres and components in a line with distinct names and positive lengths. Violated: the other two modes count one loss too many, in the entry of the first record (all other entries of theirs are right); equal names at different places are merged; a second Finalise changes counts; a position below zero never ends."
  },
  {
   "property": "C45",
   "status": "proved",
   "theorems": [
    "Verif.Collimation.hard_edge",
    "Verif.Collimation.collimator",
    "Verif.Collimation.journey_accounts"
   ],
   "note": "One call of DoCollimation at any component, and any sequence of components with one collimation point each. A second point with losses in one component is undefined behaviour: C46."
  },
  {
   "property": "C46",
   "status": "partial",
   "theorems": [
    "Verif.Collimation.loss_records_partial",
    "Verif.Collimation.second_loss_violated"
   ],
   "note": "Losses at the first point are recorded with the right coordinates; at a second point InputArray has been cleared and reading it is undefined."
  },
  {
   "property": "C47",
   "status": "proved",
   "theorems": [
    "Verif.Multipole.field_is_sum",
    "Verif.Multipole.field_null",
    "Verif.Multipole.field_add",
    "Verif.Multipole.component_roundtrip",
    "Verif.Multipole.reading_keeps_field",
    "Verif.Multipole.kn_is_derivative",
    "Verif.Multipole.grad_ctor",
    "Verif.Multipole.norm_ctor",
    "Verif.Multipole.force_lorentz"
   ],
   "note": "Doubles as exact numbers of an ordered field."
  },
  {
   "property": "C48",
   "status": "partial",
   "theorems": [
    "Verif.Multipole.rotation_partial",
    "Verif.Multipole.rotation_violated",
    "Verif.Multipole.rotation_twice",
    "Verif.Multipole.bend_rotation"
   ],
   "note": "The rotated field is the geometric rotation with the opposite overall sign; twice is the identity; a bend keeps the ratio of field and curvature."
  },
  {
   "property": "C49",
   "status": "proved",
   "theorems": [
    "Verif.LinMap.cov_write_read",
    "Verif.LinMap.cov_symmetric",
    "Verif.LinMap.cov_equal",
    "Verif.LinMap.cov_zero"
   ],
   "note": "All dimensions and all pairs of cells."
  },
  {
   "property": "C50",
   "status": "partial",
   "theorems": [
    "Verif.LinMap.apply_vector",
    "Verif.LinMap.to_matrix",
    "Verif.LinMap.get_element",
    "Verif.LinMap.assign_element",
    "Verif.LinMap.of_matrix",
    "Verif.LinMap.apply_covariance",
    "Verif.LinMap.apply_second_order",
    "Verif.LinMap.double_terms_violated"
   ],
   "note": "Holds for maps without double terms, which operator() and the matrix constructor always give; with AddTerm a double term makes Apply, operator() and ToMatrix disagree. RMap::Apply(PSvector&) itself is declared but its definition is commented out; the model is of the protected overload that RTMap uses."
  },
  {
   "property": "C51",
   "status": "partial",
   "theorems": [
    "Verif.Histogram.hist_counts_partial",
    "Verif.Histogram.hist_total",
    "Verif.Histogram.hist_beyond_violated",
    "Verif.Histogram.hist_far_violated"
   ],
   "note": "Data beyond x2 within the last bin are counted; data very far above are undefined."
  },
  {
   "property": "C52",
   "status": "partial",
   "theorems": [
    "Verif.Transport.bend_symplectic",
    "Verif.Transport.bend_symplectic4",
    "Verif.Transport.bend_compose",
    "Verif.Transport.quadrupole_symplectic",
    "Verif.Transport.quadrupole_compose",
    "Verif.Transport.drift_symplectic",
    "Verif.Transport.drift_compose",
    "Verif.Transport.quadrupole_zero",
    "Verif.Transport.solenoid_symplectic_partial",
    "Verif.Transport.solenoid_compose_partial",
    "Verif.Transport.solenoid_zero_violated",
    "Verif.Transport.srot_symplectic",
    "Verif.Transport.srot_compose"
   ],
   "note": "Drift, quadrupole and bend without restriction. The solenoid unless ks*l/2 is within the machine precision, where its length is lost (solenoid_zero_violated)."
  },
  {
   "property": "C53",
   "status": "partial",
   "theorems": [
    "Verif.Constructor.run_legal",
    "Verif.Constructor.getModel_legal",
    "Verif.Constructor.tree_order",
    "Verif.Constructor.hierarchy",
    "Verif.Constructor.global_length",
    "Verif.Constructor.repository",
    "Verif.Constructor.lattice_order_partial",
    "Verif.Constructor.index_partial",
    "Verif.Constructor.appendFrame_index_violated",
    "Verif.Constructor.shared_component_violated",
    "Verif.Constructor.empty_frame_violated"
   ],
   "note": "Order, hierarchy, length and repository proved for all call sequences; indices hold for singly appended frames only and are violated for ready-made sequences and shared components."
  },
  {
   "property": "C54",
   "status": "partial",
   "theorems": [
    "Verif.Channel.repository_once",
    "Verif.Channel.find_violated",
    "Verif.Channel.find_partial"
   ],
   "note": "Each element is held once. Find and Count read an uninitialised member; with the intended value they are exact."
  },
  {
   "property": "C55",
   "status": "proved",
   "theorems": [
    "Verif.DataTable.addRow_values_stored",
    "Verif.DataTable.addRow_values_frame"
   ],
   "note": ""
  },
  {
   "property": "C56",
   "status": "proved",
   "theorems": [
    "Verif.Lattice.extract_is_filter",
    "Verif.Lattice.indexes_exact"
   ],
   "note": ""
  },
  {
   "property": "C57",
   "status": "partial",
   "theorems": [
    "Verif.Lattice.install_stale_index",
    "Verif.Constructor.index_partial"
   ],
   "note": "Indices right after construction from single calls; stale after InstallModelElement."
  },
  {
   "property": "C58",
   "status": "partial",
   "theorems": [
    "Verif.Transform.lift_violated",
    "Verif.Transform.lift_characterised",
    "Verif.Transform.lift_partial"
   ],
   "note": "Violated for every rotation that is not a half turn about the origin; exact characterisation proved."
  },
  {
   "property": "C59",
   "status": "proved",
   "theorems": [
    "Verif.RefCount.refcount_safe",
    "Verif.RefCount.refcount_no_leak",
    "Verif.RefCount.refcount_live"
   ],
   "note": ""
  },
  {
   "property": "C60",
   "status": "proved",
   "theorems": [
    "Verif.Frame.arc_lawful",
    "Verif.Frame.arc_curvature",
    "Verif.Frame.rect_lawful",
    "Verif.Frame.leaf_beyond"
   ],
   "note": "Over the real numbers with the real sine and cosine. Zero curvature divides by zero and is excluded."
  },
  {
   "property": "C61",
   "status": "partial",
   "theorems": [
    "Verif.Frame.center_lawful",
    "Verif.Frame.built_lawful",
    "Verif.Frame.cached_identity",
    "Verif.Frame.center_planes",
    "Verif.Frame.center_planes_partial",
    "Verif.Frame.center_planes_violated",
    "Verif.Frame.consolidated_entrance_violated"
   ],
   "note": "Total transform kept for a centred origin, plane transforms right only when the middle of the sequence is the middle of a sub-frame; refuted otherwise and for the two other origins."
  },
  {
   "property": "C62",
   "status": "proved",
   "theorems": [
    "Verif.Frame.consolidate_tiles"
   ],
   "note": ""
  },
  {
   "property": "C63",
   "status": "proved",
   "theorems": [
    "Verif.LatticeFrame.position_add",
    "Verif.LatticeFrame.physical_mul"
   ],
   "note": ""
  },
  {
   "property": "C64",
   "status": "partial",
   "theorems": [
    "Verif.LatticeFrame.frame_identity",
    "Verif.LatticeFrame.frame_physical",
    "Verif.LatticeFrame.frame_identity_violated"
   ],
   "note": "Proved when the geometry of each super-frame continues that of the sub-frame at the positions involved; refuted for a piece that contains the origin of its sequence behind its own origin."
  },
  {
   "property": "C65",
   "status": "proved",
   "theorems": [
    "Verif.LatticeFrame.boundary_correct",
    "Verif.LatticeFrame.planes_correct",
    "Verif.LatticeFrame.boundary_undisturbed"
   ],
   "note": "Given that a frame at the boundary shares its plane with its super-frame."
  },
  {
   "property": "C66",
   "status": "proved",
   "theorems": [
    "Verif.Feedback.readAll_writeAll",
    "Verif.Feedback.reset_restores",
    "Verif.Feedback.incrementAll_spec"
   ],
   "note": "For arrays of channels of independent parameters."
  },
  {
   "property": "C67",
   "status": "partial",
   "theorems": [
    "Verif.Feedback.winding_partial",
    "Verif.Feedback.winding_violated",
    "Verif.Feedback.winding_scale_zero_violated"
   ],
   "note": "Violated: setting one plane zeroes the other. The plane that is set reads back."
  },
  {
   "property": "C68",
   "status": "proved",
   "theorems": [
    "Verif.Feedback.feedback_converges",
    "Verif.Feedback.restore_spec"
   ],
   "note": "Convergence under the hypothesis that Mi(S-S0) is the distance of the actuators from the ideal setting."
  },
  {
   "property": "C69",
   "status": "partial",
   "theorems": [
    "Verif.Random.reproducible_partial",
    "Verif.Random.main_reproducible",
    "Verif.Random.main_unaffected",
    "Verif.Random.local_stream",
    "Verif.Random.local_violated"
   ],
   "note": "local generators used earlier are not restarted by seeding"
  },
  {
   "property": "C70",
   "status": "partial",
   "theorems": [
    "Verif.Monitor.server_stable",
    "Verif.Monitor.server_attaches",
    "Verif.Monitor.server_stale_violated"
   ],
   "note": "violated after ClearAllBuffers"
  },
  {
   "property": "C71",
   "status": "partial",
   "theorems": [
    "Verif.Monitor.profile_partial",
    "Verif.Monitor.profile_violated",
    "Verif.Monitor.profile_right_angle_violated"
   ],
   "note": "widths are combined linearly"
  },
  {
   "property": "C72",
   "status": "partial",
   "theorems": [
    "Verif.Monitor.reflected_violated"
   ],
   "note": "the flag is never read; the negation is proved"
  },
  {
   "property": "C73",
   "status": "partial",
   "theorems": [
    "Verif.Tracker.abandoned_violated",
    "Verif.Tracker.reset_prepares"
   ],
   "note": "Fails: nothing calls Reset; with Reset it would hold."
  },
  {
   "property": "C74",
   "status": "proved",
   "theorems": [
    "Verif.Tracker.registry",
    "Verif.Tracker.most_derived",
    "Verif.Tracker.legal_iff"
   ],
   "note": ""
  },
  {
   "property": "C75",
   "status": "proved",
   "theorems": [
    "Verif.Processes.trackAll_ends",
    "Verif.Processes.track_ends",
    "Verif.Processes.track_taken"
   ],
   "note": "All modelled processes in any number and order. The restriction to one spin step is necessary (C78)."
  },
  {
   "property": "C76",
   "status": "proved",
   "theorems": [
    "Verif.Processes.wake_tracked",
    "Verif.Processes.wake_once",
    "Verif.Processes.wake_none"
   ],
   "note": ""
  },
  {
   "property": "C77",
   "status": "partial",
   "theorems": [
    "Verif.Processes.rad_tracked",
    "Verif.Processes.rad_all",
    "Verif.Processes.rad_progress",
    "Verif.Processes.rad_none",
    "Verif.Processes.rad_max_partial",
    "Verif.Processes.rad_max_violated"
   ],
   "note": "Proved for a number of steps. False for a maximum step size when another process shortens the first step; proved there when it does not."
  },
  {
   "property": "C78",
   "status": "partial",
   "theorems": [
    "Verif.Processes.spin_once_partial",
    "Verif.Processes.spin_hangs_violated",
    "Verif.Processes.spin_entrance_violated"
   ],
   "note": "True for one step per component and a non-zero first step; with more steps tracking never ends; a zero step repeats the entrance fringe."
  },
  {
   "property": "C79",
   "status": "proved",
   "theorems": [
    "Verif.Processes.deltaT_tracked",
    "Verif.Processes.deltaT_total"
   ],
   "note": ""
  },
  {
   "property": "C80",
   "status": "partial",
   "theorems": [
    "Verif.Processes.hel_count",
    "Verif.Processes.hel_once_partial",
    "Verif.Processes.whole_component_violated"
   ],
   "note": "False: one action per step of the step manager; once only when no process divides the component."
  },
  {
   "property": "C81",
   "status": "partial",
   "theorems": [
    "Verif.Processes.coll_tracked",
    "Verif.Processes.coll_points",
    "Verif.Processes.entrance_check_violated"
   ],
   "note": "Places are right; but a check at the entrance makes the tracker apply the entrance map twice."
  },
  {
   "property": "C82",
   "status": "partial",
   "theorems": [
    "Verif.Processes.coll_bins_partial",
    "Verif.Processes.coll_bins_violated"
   ],
   "note": "True when all steps are bins or reach the end; false when another process shortens a step."
  },
  {
   "property": "C83",
   "status": "partial",
   "theorems": [
    "Verif.Processes.divider_boundaries",
    "Verif.Processes.divider_minimum_violated"
   ],
   "note": "The boundaries are right; the adjusted steps are always shorter than the minimum."
  },
  {
   "property": "C84",
   "status": "partial",
   "theorems": [
    "Verif.Interpolation.polynomial_exact",
    "Verif.Interpolation.history",
    "Verif.Interpolation.high_range",
    "Verif.Interpolation.nodes_partial",
    "Verif.Interpolation.end_point_violated",
    "Verif.Interpolation.full_order_violated"
   ],
   "note": "First and last point are not reproduced; undefined when order = points - 1."
  },
  {
   "property": "C85",
   "status": "partial",
   "theorems": [
    "Verif.Interpolation.arrays_violated"
   ],
   "note": "Violated for every table."
  },
  {
   "property": "C86",
   "status": "partial",
   "theorems": [
    "Verif.Aperture.jaws_partial",
    "Verif.Aperture.jaws_offset",
    "Verif.Aperture.unaligned",
    "Verif.Aperture.one_sided",
    "Verif.Aperture.taper_violated"
   ],
   "note": "Violated for jaws that close towards the exit without offset."
  },
  {
   "property": "C87",
   "status": "partial",
   "theorems": [
    "Verif.Aperture.entrance_setters_violated",
    "Verif.Aperture.exit_setters"
   ],
   "note": "The entrance setters have no effect."
  },
  {
   "property": "C88",
   "status": "partial",
   "theorems": [
    "Verif.ApertureConfig.element_partial",
    "Verif.ApertureConfig.adjacent_violated",
    "Verif.ApertureConfig.element_end_violated"
   ],
   "note": "Violated for adjacent elements and behind the table."
  },
  {
   "property": "C89",
   "status": "partial",
   "theorems": [
    "Verif.ApertureConfig.drift_rows_partial",
    "Verif.ApertureConfig.drift_circle_partial",
    "Verif.ApertureConfig.drift_octagon_partial",
    "Verif.ApertureConfig.end_violated",
    "Verif.ApertureConfig.start_violated",
    "Verif.ApertureConfig.rounding_violated",
    "Verif.ApertureConfig.mixed_violated",
    "Verif.ApertureConfig.doubled_violated"
   ],
   "note": "Proved inside tables of one type; violated at the ends, for mixed types, doubled rows and rounding errors."
  },
  {
   "property": "C90",
   "status": "proved",
   "theorems": [
    "Verif.Tracking.run_starts_new",
    "Verif.Tracking.continue_keeps",
    "Verif.Tracking.stops_at_exception",
    "Verif.Tracking.output_records"
   ],
   "note": "Continue without a bunch is outside the documented use (null reference in the code)."
  },
  {
   "property": "C91",
   "status": "partial",
   "theorems": [
    "Verif.Tracking.reversed_violated"
   ],
   "note": "Violated for every lattice with at least two frames: the loop leaves the frame vector after the first frame."
  },
  {
   "property": "C92",
   "status": "partial",
   "theorems": [
    "Verif.Multipole.lowest_spec",
    "Verif.Multipole.lowest_null",
    "Verif.Multipole.highest_violated"
   ],
   "note": "LowestMultipole is correct unless all coefficients vanish (undefined); HighestMultipole is the size of the expansion minus one, which zeros and the const GetCoefficient change."
  },
  {
   "property": "C93",
   "status": "proved",
   "theorems": [
    "Verif.LinMap.drift_moments6",
    "Verif.LinMap.drift_moments4",
    "Verif.LinMap.planes_moments",
    "Verif.LinMap.planes_vector",
    "Verif.LinMap.drift_vector",
    "Verif.LinMap.drift_path_add",
    "Verif.LinMap.apply_dp"
   ],
   "note": ""
  },
  {
   "property": "C94",
   "status": "partial",
   "theorems": [
    "Verif.LinMap.copy_violated"
   ],
   "note": "Violated by every copy: LinearTermArray copies its end pointer."
  },
  {
   "property": "C95",
   "status": "partial",
   "theorems": [
    "Verif.Transport.bend_flow_partial",
    "Verif.Transport.bend_flow4",
    "Verif.Transport.bend_flow_violated",
    "Verif.Transport.quadrupole_flow",
    "Verif.Transport.quadrupole_sign",
    "Verif.Transport.drift_flow",
    "Verif.Transport.solenoid_motion_partial",
    "Verif.Transport.srotAngle_partial",
    "Verif.Transport.srotAngle_violated",
    "Verif.Transport.poleFace_symplectic",
    "Verif.Transport.poleFace_planes"
   ],
   "note": "The dispersion is missing for bends with K1 = -h^2 (bend_flow_violated); Srot of a tiny angle leaves the given matrix as it is (srotAngle_violated)."
  },
  {
   "property": "C96",
   "status": "partial",
   "theorems": [
    "Verif.Transport.quadrupoleT_partial",
    "Verif.Transport.quadrupoleT_violated",
    "Verif.Transport.sectorBendT_horizontal_partial",
    "Verif.Transport.sectorBendT_horizontal_violated",
    "Verif.Transport.sectorBendT_vertical_partial",
    "Verif.Transport.sectorBendT_vertical_violated",
    "Verif.Transport.sectorBendT_momentum_partial",
    "Verif.Transport.sectorBendT_dispersion",
    "Verif.Transport.momentumOrbit_motion",
    "Verif.Transport.sectorBendT_dispersion_flat",
    "Verif.Transport.sectorBendT_time_flat",
    "Verif.Transport.sectorBendT_time_violated"
   ],
   "note": "Not for zero strength (identity instead of zero), nor for horizontally defocusing bends (sin and cos in place of sinh and cosh in the horizontal block), nor for the time term where curvature and gradient cancel (a factor of the curvature too much). All other entries are the derivatives, the dispersion included."
  },
  {
   "property": "C97",
   "status": "partial",
   "theorems": [
    "Verif.Transport.twrf_det_partial",
    "Verif.Transport.twrf_det_violated",
    "Verif.Transport.twrf_planes",
    "Verif.Transport.twrf_off",
    "Verif.Transport.swrf_det",
    "Verif.Transport.swrf_planes_partial",
    "Verif.Transport.swrf_planes_violated",
    "Verif.Transport.twrf2_det",
    "Verif.Transport.twrfMap_det_partial",
    "Verif.Transport.twrfMap_det_violated"
   ],
   "note": "False for TWRFCavity with inc_end_fields, for the vertical plane of SWRFCavity in six dimensions and for the RMap with exit field only."
  },
  {
   "property": "C98",
   "status": "partial",
   "theorems": [
    "Verif.Transport.bendMap_eq",
    "Verif.Transport.driftMap_eq",
    "Verif.Transport.poleMap_eq",
    "Verif.Transport.quadMap_partial",
    "Verif.Transport.quadMap_longitudinal",
    "Verif.Transport.quad2_eq",
    "Verif.Transport.srotMap_partial",
    "Verif.Transport.srotMap_violated",
    "Verif.Transport.solMap_partial",
    "Verif.Transport.solMap_violated"
   ],
   "note": "Rotation and solenoid maps lose ct and dp, and the solenoid map has one term in the wrong place."
  },
  {
   "property": "C99",
   "status": "proved",
   "theorems": [
    "Verif.Bunch.adjustRefTimeToMean_spec"
   ],
   "note": ""
  }
 ]
}