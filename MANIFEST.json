{
 "claims": [
  {
   "property": "C01",
   "status": "proved",
   "theorems": [
    "Corgi.CalDB.C01_no_duplicates",
    "Corgi.CalDB.C01_create_effect",
    "Corgi.CalDB.C01_refines_map"
   ],
   "note": "Invariant over all call sequences, effect of one call, and refinement to a finite map. Products whose hash/version/mode strings look like absolute paths are excluded in the effect theorems (see C05)."
  },
  {
   "property": "C02",
   "status": "proved",
   "theorems": [
    "Corgi.CalDB.C02_remove"
   ],
   "note": "Both branches, with and without disk access."
  },
  {
   "property": "C03",
   "status": "proved",
   "theorems": [
    "Corgi.CalDB.C03_get_calib_frame",
    "Corgi.CalDB.C03_get_calib_none",
    "Corgi.CalDB.C03_get_calib_unknown",
    "Corgi.CalDB.C03_registered_is_found"
   ],
   "note": "iff characterisation of the returned row and of the error."
  },
  {
   "property": "C04",
   "status": "partial",
   "theorems": [
    "Corgi.CalDB.C04_serialized",
    "Corgi.CalDB.C04_violated",
    "Corgi.CalDB.C04_survivors",
    "Corgi.CalDB.C04_violated_iff"
   ],
   "note": "Refuted for interleaved schedules (C04_violated). For every schedule of any number of processes the surviving products are found exactly (C04_survivors), and nothing is lost if and only if the schedule is serial (C04_serialized, C04_violated_iff)."
  },
  {
   "property": "C05",
   "status": "partial",
   "theorems": [
    "Corgi.CalDB.C05_lost_iff",
    "Corgi.CalDB.C05_violated",
    "Corgi.CalDB.C05_registered_partial"
   ],
   "note": "Refuted as stated (C05_violated); C05_lost_iff gives the exact condition under which a product is lost."
  },
  {
   "property": "C06",
   "status": "proved",
   "theorems": [
    "Corgi.Walker.C06_documented_iff",
    "Corgi.Walker.C06_errors"
   ],
   "note": "iff between the function and a documented table; the error cases separately."
  },
  {
   "property": "C07",
   "status": "proved",
   "theorems": [
    "Corgi.Walker.C07_autogen_iff",
    "Corgi.Walker.C07_guess_iff",
    "Corgi.Walker.C07_names_kept",
    "Corgi.Walker.C07_no_automatic_left",
    "Corgi.Walker.C07_missing_required_raises"
   ],
   "note": "iff characterisation of the generated recipe plus corollaries."
  },
  {
   "property": "C08",
   "status": "partial",
   "theorems": [
    "Corgi.Walker.C08_inputs_accumulate",
    "Corgi.Walker.C08_violated",
    "Corgi.Walker.C08_calibrations_stick",
    "Corgi.Walker.C08_second_call_raises",
    "Corgi.Walker.C08_fresh_template_partial"
   ],
   "note": "Refuted as stated (C08_violated). Proved: exact effect of a second call, and that a fresh template gives exactly the file list."
  },
  {
   "property": "C09",
   "status": "proved",
   "theorems": [
    "Corgi.Walker.C09_runs_active_in_order",
    "Corgi.Walker.C09_stops_at_failure",
    "Corgi.Walker.C09_unknown_step",
    "Corgi.Walker.C09_skipped_have_no_effect",
    "Corgi.Walker.C09_step_arguments"
   ],
   "note": "For every step semantics, any number of steps."
  },
  {
   "property": "C10",
   "status": "partial",
   "theorems": [
    "Corgi.Walker.C10_violated",
    "Corgi.Walker.C10_jit_always_runs",
    "Corgi.Walker.C10_generated_partial"
   ],
   "note": "Refuted for just-in-time resolution (C10_violated, C10_jit_always_runs). Proved for resolution at generation."
  },
  {
   "property": "C11",
   "status": "partial",
   "theorems": [
    "Corgi.Walker.C11_settings_after",
    "Corgi.Walker.C11_no_leak_iff",
    "Corgi.Walker.C11_violated",
    "Corgi.Walker.C11_leak_breaks_next_recipe",
    "Corgi.Walker.C11_sequence_partial"
   ],
   "note": "Refuted (C11_violated, C11_leak_breaks_next_recipe). C11_no_leak_iff gives the exact condition."
  },
  {
   "property": "C12",
   "status": "proved",
   "theorems": [
    "Corgi.DS.C12_frames_are_views",
    "Corgi.DS.C12_builds_iff"
   ],
   "note": "Refinement: after any sequence of pixel writes both routes read the last value written. C12_builds_iff characterises when construction succeeds."
  },
  {
   "property": "C13",
   "status": "partial",
   "theorems": [
    "Corgi.DS.C13_copy_isolated",
    "Corgi.DS.C13_copy_equal",
    "Corgi.DS.C13_shallow_pixels_partial",
    "Corgi.DS.C13_shallow_headers_shared",
    "Corgi.DS.C13_violated",
    "Corgi.DS.C13_shallow_stamps_original",
    "Corgi.DS.C13_upgrade_changes_input"
   ],
   "note": "Refuted for copy(copy_data=False) (C13_violated, C13_shallow_headers_shared, C13_upgrade_changes_input). Proved in full for copy(): non-interference under every operation sequence (C13_copy_isolated), equality of contents; for the shallow copy, pixels."
  },
  {
   "property": "C14",
   "status": "partial",
   "theorems": [
    "Corgi.DS.C14_after_select",
    "Corgi.DS.C14_unselected_partial",
    "Corgi.DS.C14_violated",
    "Corgi.DS.C14_after_split"
   ],
   "note": "Refuted (C14_violated); C14_after_select and C14_after_split give the exact effect. Proved: unselected frames stay connected, the sub-dataset is connected."
  },
  {
   "property": "C15",
   "status": "proved",
   "theorems": [
    "Corgi.DS.C15_split",
    "Corgi.DS.C15_partition",
    "Corgi.DS.C15_contents",
    "Corgi.DS.C15_succeeds",
    "Corgi.DS.C15_no_keywords"
   ],
   "note": "Keys sorted and distinct, each subset is the order-preserving filter, exactly-one membership, contents unchanged, success condition."
  },
  {
   "property": "C16",
   "status": "partial",
   "theorems": [
    "Corgi.DS.C16_success",
    "Corgi.DS.C16_history",
    "Corgi.DS.C16_raises_iff",
    "Corgi.DS.C16_layers_free",
    "Corgi.DS.C16_data_mismatch_partial",
    "Corgi.DS.C16_rejected_but_changed",
    "Corgi.DS.C16_violated"
   ],
   "note": "All-or-nothing is refuted for err/dq shapes (C16_violated, C16_rejected_but_changed). Proved: raises iff a shape does not fit, effect on success incl. HISTORY, atomic for a wrong data shape."
  },
  {
   "property": "C17",
   "status": "proved",
   "theorems": [
    "Corgi.Errs.C17_accepts_iff",
    "Corgi.Errs.C17_total",
    "Corgi.Errs.C17_monotone",
    "Corgi.Errs.C17_order",
    "Corgi.Errs.C17_layers",
    "Corgi.Errs.C17_layer_names",
    "Corgi.Errs.C17_sequence",
    "Corgi.Errs.C17_layers_explain_total",
    "Corgi.Errs.C17_construct",
    "Corgi.Errs.C17_construct_iff",
    "Corgi.Errs.C17_one_layer",
    "Corgi.Errs.C17_construct_tracked",
    "Corgi.Errs.C17_dataset_stack",
    "Corgi.Errs.C17_dataset_same"
   ],
   "note": "Real uncertainties. Also for interleaved rescaling (C17_sequence), the accounting of the total by the individual layers, layer names, the constructor and the dataset-level call."
  },
  {
   "property": "C18",
   "status": "proved",
   "theorems": [
    "Corgi.Prov.C18_succeeds_iff",
    "Corgi.Prov.C18_recorded",
    "Corgi.Prov.C18_tight",
    "Corgi.Prov.C18_transitive",
    "Corgi.Prov.C18_order_irrelevant",
    "Corgi.Prov.C18_stale"
   ],
   "note": "For every iteration order of the set. C18_succeeds_iff gives the KeyError condition; C18_tight shows no left-over FILEi when the header comes from an input, C18_stale that otherwise they can stay."
  },
  {
   "property": "C19",
   "status": "proved",
   "theorems": [
    "Corgi.Levels.C19_accepts_iff",
    "Corgi.Levels.C19_refuses",
    "Corgi.Levels.C19_effect",
    "Corgi.Levels.C19_order",
    "Corgi.Levels.C19_names",
    "Corgi.Levels.C19_pipeline",
    "Corgi.Levels.C19_failed_l4_marks_input"
   ],
   "note": "Acceptance iff, effect, order of any sequence of upgrades, names. C19_failed_l4_marks_input records that a failed update_to_l4 changes its input."
  },
  {
   "property": "C20",
   "status": "proved",
   "theorems": [
    "Corgi.Comb.C20_mean",
    "Corgi.Comb.C20_median",
    "Corgi.Comb.C20_nan_iff",
    "Corgi.Comb.C20_flags",
    "Corgi.Comb.C20_flag_bits",
    "Corgi.Comb.C20_order",
    "Corgi.Comb.C20_flagged_ignored"
   ],
   "note": "Mean and median by their defining property, NaN iff no usable sample, flags, order independence, flagged values irrelevant."
  },
  {
   "property": "C21",
   "status": "partial",
   "theorems": [
    "Corgi.Comb.C21_standard_error_partial",
    "Corgi.Comb.C21_exact",
    "Corgi.Comb.C21_violated"
   ],
   "note": "Refuted for NaN samples without a flag (C21_violated); proved when the unflagged samples are numbers, exact value otherwise (C21_exact)."
  },
  {
   "property": "C22",
   "status": "partial",
   "theorems": [
    "Corgi.Comb.C22_success",
    "Corgi.Comb.C22_names",
    "Corgi.Comb.C22_groups",
    "Corgi.Comb.C22_stamps",
    "Corgi.Comb.C22_group_only",
    "Corgi.Comb.C22_errors",
    "Corgi.Comb.C22_succeeds",
    "Corgi.Comb.C22_input_contents",
    "Corgi.Comb.C22_input_disconnected",
    "Corgi.Comb.C22_violated"
   ],
   "note": "Grouping, contents, names, provenance, errors and contents of the input proved; that the input dataset is untouched is refuted (C22_violated, C22_input_disconnected)."
  },
  {
   "property": "C23",
   "status": "partial",
   "theorems": [
    "Corgi.FSel.C23_select",
    "Corgi.FSel.C23_succeeds_iff",
    "Corgi.FSel.C23_valueError_iff",
    "Corgi.FSel.C23_default_keeps_all",
    "Corgi.FSel.C23_flags_identify",
    "Corgi.FSel.C23_negative_bias_passes",
    "Corgi.FSel.C23_old_mark_stays"
   ],
   "note": "Kept frames, order, reasons, ValueError and success conditions proved; that IS_BAD marks exactly the bad frames is refuted for frames marked before (C23_old_mark_stays)."
  },
  {
   "property": "C24",
   "status": "partial",
   "theorems": [
    "Corgi.Dq.C24_flags_kept_partial",
    "Corgi.Dq.C24_high_flags_lost",
    "Corgi.Dq.C24_bits",
    "Corgi.Dq.C24_violated",
    "Corgi.Dq.C24_named_flags",
    "Corgi.Dq.C24_only_own_flags",
    "Corgi.Dq.C24_sets_flags"
   ],
   "note": "Refuted for flags of 256 and more in correct_bad_pixels (C24_violated); proved for all others and any sequence."
  },
  {
   "property": "C25",
   "status": "proved",
   "theorems": [
    "Corgi.Desmear.C25_inverse",
    "Corgi.Desmear.C25_explains",
    "Corgi.Desmear.C25_unique"
   ],
   "note": "Over any field, both directions and uniqueness; rounding not modelled."
  },
  {
   "property": "C26",
   "status": "partial",
   "theorems": [
    "Corgi.Det.C26_image_exact",
    "Corgi.Det.C26_image_partial",
    "Corgi.Det.C26_full",
    "Corgi.Det.C26_imaging",
    "Corgi.Det.C26_rejects",
    "Corgi.Det.C26_sci",
    "Corgi.Det.C26_sci_imaging",
    "Corgi.Det.C26_broadcast",
    "Corgi.Det.C26_std_scale",
    "Corgi.Det.C26_std_two",
    "Corgi.Det.C26_row_offsets",
    "Corgi.Det.C26_sci_row_offsets",
    "Corgi.Det.C26_violated",
    "Corgi.Det.C26_violated_runs",
    "Corgi.Det.C26_custom_geometry_violated",
    "Corgi.Det.C26_custom_geometry_wrong"
   ],
   "note": "Refuted for ENG_CONV frames and for a custom geometry (C26_violated, C26_custom_geometry_violated). Proved for image, imaging area and full frame whenever the prescan covers the rows (C26_sci without condition), and that row offsets cancel exactly."
  },
  {
   "property": "C27",
   "status": "partial",
   "theorems": [
    "Corgi.Det.C27_slice",
    "Corgi.Det.C27_roundtrip",
    "Corgi.Det.C27_embed_raises_iff",
    "Corgi.Det.C27_violated",
    "Corgi.Det.C27_table_inside",
    "Corgi.Det.C27_slice_raises_iff",
    "Corgi.Det.C27_table_parts",
    "Corgi.Det.C27_table_names",
    "Corgi.Det.C27_default"
   ],
   "note": "Round trip, slice, table inside the frame, error cases proved; that another shape raises is refuted for broadcastable shapes (C27_violated), exact condition C27_embed_raises_iff."
  },
  {
   "property": "C28",
   "status": "partial",
   "theorems": [
    "Corgi.Det.C28_partial",
    "Corgi.Det.C28_sci_eng_partial",
    "Corgi.Det.C28_violated"
   ],
   "note": "Refuted for ENG_EM and ENG_CONV (C28_violated); proved for SCI and ENG and every geometry laid out like them."
  },
  {
   "property": "C29",
   "status": "partial",
   "theorems": [
    "Corgi.Cr.C29_prefilter_sound",
    "Corgi.Cr.C29_image",
    "Corgi.Cr.C29_in_bounds",
    "Corgi.Cr.C29_full_partial",
    "Corgi.Cr.C29_violated",
    "Corgi.Cr.C29_box_outside"
   ],
   "note": "Image mode proved as an iff; full mode refuted (C29_violated, C29_box_outside) with the exact mask given by flagWith_iff and C29_full_partial."
  },
  {
   "property": "C30",
   "status": "partial",
   "theorems": [
    "Corgi.Cr.C30_increasing",
    "Corgi.Cr.C30_left_edge_partial",
    "Corgi.Cr.C30_violated"
   ],
   "note": "Refuted for the default even-size filter (C30_violated); strictly increasing and left edge of the plateau otherwise."
  },
  {
   "property": "C31",
   "status": "partial",
   "theorems": [
    "Corgi.Sat.C31_own_gain_partial",
    "Corgi.Sat.C31_measured_exact",
    "Corgi.Sat.C31_violated",
    "Corgi.Sat.C31_wrong_gain"
   ],
   "note": "Refuted (C31_violated, C31_wrong_gain); proved when no frame has EMGAIN_M, exact behaviour otherwise (C31_measured_exact)."
  },
  {
   "property": "C32",
   "status": "proved",
   "theorems": [
    "Corgi.NonLin.C32_accepts_iff",
    "Corgi.NonLin.C32_valueError",
    "Corgi.NonLin.C32_none",
    "Corgi.NonLin.C32_pixelwise",
    "Corgi.NonLin.C32_grid",
    "Corgi.NonLin.C32_range",
    "Corgi.NonLin.C32_cell",
    "Corgi.NonLin.C32_between",
    "Corgi.NonLin.C32_counts_edge",
    "Corgi.NonLin.C32_gain_edge",
    "Corgi.NonLin.C32_step",
    "Corgi.NonLin.C32_step_none",
    "Corgi.NonLin.C32_dataset"
   ],
   "note": "Grid values, bilinear formula in each cell, bounds, edges, acceptance iff, and the whole step with its flag."
  },
  {
   "property": "C33",
   "status": "partial",
   "theorems": [
    "Corgi.Darks.C33_least_squares",
    "Corgi.Darks.C33_recovers",
    "Corgi.Darks.C33_roundtrip",
    "Corgi.Darks.C33_synthesis_accepts",
    "Corgi.Darks.C33_synth_err_dq",
    "Corgi.Darks.C33_identifiable_iff",
    "Corgi.Darks.C33_violated",
    "Corgi.Darks.C33_checks",
    "Corgi.Darks.C33_rmap"
   ],
   "note": "Refuted for settings that pass the checks without determining the maps (C33_violated: LinAlgError). Proved for identifiable settings: unique least-squares solution, exact recovery, synthesised dark equals the stack mean divided by gain; C33_identifiable_iff says when."
  },
  {
   "property": "C34",
   "status": "proved",
   "theorems": [
    "Corgi.Darks.C34_mean",
    "Corgi.Darks.C34_mean_err",
    "Corgi.Darks.C34_nan",
    "Corgi.Darks.C34_masked_irrelevant",
    "Corgi.Darks.C34_combine",
    "Corgi.Darks.C34_combine_fails",
    "Corgi.Darks.C34_dark_full",
    "Corgi.Darks.C34_dark_image",
    "Corgi.Darks.C34_rejects",
    "Corgi.Darks.C34_half_masked_violated",
    "Corgi.Darks.C34_telemetry_rows",
    "Corgi.Darks.C34_telemetry_violated",
    "Corgi.Darks.C34_error_floor"
   ],
   "note": "mean_combine for whole frames and both kinds of arrays, success iff well formed; full and image darks. The docstring differs from the code for exactly half masked pixels and telemetry rows (C34_half_masked_violated, C34_telemetry_violated), and the error does not shrink with the number of frames (C34_error_floor)."
  },
  {
   "property": "C35",
   "status": "proved",
   "theorems": [
    "Corgi.Pc.C35_photon_count",
    "Corgi.Pc.C35_coadd",
    "Corgi.Pc.C35_le",
    "Corgi.Pc.C35_order",
    "Corgi.Pc.C35_masked_irrelevant",
    "Corgi.Pc.C35_nan",
    "Corgi.Pc.C35_safe",
    "Corgi.Pc.C35_bin",
    "Corgi.Pc.C35_bin_dark",
    "Corgi.Pc.C35_gain",
    "Corgi.Pc.C35_count_bounds",
    "Corgi.Pc.C35_dark_accepted"
   ],
   "note": "For any stack; through get_pc_mean with and without a master dark. NaN pixels without a flag count as frames without detection (C35_nan)."
  },
  {
   "property": "C36",
   "status": "proved",
   "theorems": [
    "Corgi.Pc.C36_efficiency",
    "Corgi.Pc.C36_derivative",
    "Corgi.Pc.C36_dfunc_pos",
    "Corgi.Pc.C36_bounds",
    "Corgi.Pc.C36_unique",
    "Corgi.Pc.C36_exists_iff",
    "Corgi.Pc.C36_saturated",
    "Corgi.Pc.C36_same_efficiency",
    "Corgi.Pc.C36_series",
    "Corgi.Pc.C36_variance",
    "Corgi.Pc.C36_start",
    "Corgi.Pc.C36_zero_counts",
    "Corgi.Pc.C36_no_frames",
    "Corgi.Pc.C36_fixed_point"
   ],
   "note": "Detection probability of the truncated Poisson-Erlang model, derivative, monotonicity, unique solution, exact condition for a solution (C36_exists_iff; saturated pixels have none, C36_saturated), variance, start value, zero counts, fixed points. Convergence is not claimed: see C51."
  },
  {
   "property": "C37",
   "status": "partial",
   "theorems": [
    "Corgi.Pc.C37_bins",
    "Corgi.Pc.C37_range",
    "Corgi.Pc.C37_unused_listed",
    "Corgi.Pc.C37_violated",
    "Corgi.Pc.C37_checks"
   ],
   "note": "Which frames are used is proved (C37_bins); that the master dark lists exactly these is refuted (C37_violated), C37_range and C37_unused_listed give the recorded frames."
  },
  {
   "property": "C38",
   "status": "partial",
   "theorems": [
    "Corgi.Crop.C38_trunc",
    "Corgi.Crop.C38_crop",
    "Corgi.Crop.C38_centre",
    "Corgi.Crop.C38_outside",
    "Corgi.Crop.C38_succeeds_iff",
    "Corgi.Crop.C38_sequence",
    "Corgi.Crop.C38_detpix",
    "Corgi.Crop.C38_first_star",
    "Corgi.Crop.C38_own_star_partial",
    "Corgi.Crop.C38_violated",
    "Corgi.Crop.C38_first_lsam",
    "Corgi.Crop.C38_negative_size",
    "Corgi.Crop.C38_integer_centre"
   ],
   "note": "Window, shifted header pairs, exact success condition, sequences of crops: proved for frames whose centre is the first frame's. That every frame is centred on its own star is refuted (C38_violated), C38_own_star_partial has the condition."
  },
  {
   "property": "C39",
   "status": "proved",
   "theorems": [
    "Corgi.Arith.C39_dark",
    "Corgi.Arith.C39_dark_accepts_iff",
    "Corgi.Arith.C39_flat",
    "Corgi.Arith.C39_flat_accepts_iff",
    "Corgi.Arith.C39_flat_relative"
   ],
   "note": "Master dark, noise maps (synthesized dark, see C58) and flat; acceptance conditions as equivalences. Pixels with flat = 0 have no value."
  },
  {
   "property": "C40",
   "status": "partial",
   "theorems": [
    "Corgi.BadPix.C40_hot_iff",
    "Corgi.BadPix.C40_dead_iff",
    "Corgi.BadPix.C40_map",
    "Corgi.BadPix.C40_flags",
    "Corgi.BadPix.C40_correct_partial",
    "Corgi.BadPix.C40_violated",
    "Corgi.BadPix.C40_pipeline",
    "Corgi.BadPix.C40_hot_fraction",
    "Corgi.BadPix.C40_brightest_alive",
    "Corgi.BadPix.C40_zero_dead",
    "Corgi.BadPix.C40_scale"
   ],
   "note": "Hot and dead pixels, map and NaN pixels as equivalences; refuted for input flags of 256 and more (C40_violated: cast to uint8). C40_hot_fraction bounds the number of hot pixels, C40_scale: unaffected by units. Frames whose flags are below 256: C40_correct_partial."
  },
  {
   "property": "C41",
   "status": "proved",
   "theorems": [
    "Corgi.Bits.C41_roundtrip",
    "Corgi.Bits.C41_position",
    "Corgi.Bits.C41_injective",
    "Corgi.Bits.C41_set_bit",
    "Corgi.Bits.C41_tables",
    "Corgi.Bits.C41_same_table"
   ],
   "note": "All 64-bit values; the four tables are finite and compared whole."
  },
  {
   "property": "C42",
   "status": "proved",
   "theorems": [
    "Corgi.Ftime.C42_round",
    "Corgi.Ftime.C42_within",
    "Corgi.Ftime.C42_monotone",
    "Corgi.Ftime.C42_fails_iff",
    "Corgi.Ftime.C42_utc",
    "Corgi.Ftime.C42_utc_fails_iff",
    "Corgi.Ftime.C42_calendar",
    "Corgi.Ftime.C42_name_order",
    "Corgi.Ftime.C42_format",
    "Corgi.Ftime.C42_sorted",
    "Corgi.Ftime.C42_fixed"
   ],
   "note": "All date-times with four-digit years; the proleptic Gregorian calendar is modelled by its day count. Overflow past year 9999 is the only failure (C42_fails_iff)."
  },
  {
   "property": "C43",
   "status": "partial",
   "theorems": [
    "Corgi.NanFlags.C43_nan_iff",
    "Corgi.NanFlags.C43_others",
    "Corgi.NanFlags.C43_error",
    "Corgi.NanFlags.C43_flag",
    "Corgi.NanFlags.C43_violated",
    "Corgi.NanFlags.C43_kept_iff",
    "Corgi.NanFlags.C43_roundtrip",
    "Corgi.NanFlags.C43_idempotent"
   ],
   "note": "nan_flags and the choice of flagged pixels proved; that earlier flags of NaN pixels are kept is refuted (C43_violated) with the exact condition C43_kept_iff."
  },
  {
   "property": "C44",
   "status": "proved",
   "theorems": [
    "Corgi.Pupil.C44_meanFrames",
    "Corgi.Pupil.C44_fails_iff",
    "Corgi.Pupil.C44_duplicates"
   ],
   "note": "Frame ids are distinct numbers; C44_duplicates shows that repeated ids break a run, C44_fails_iff when the search fails."
  },
  {
   "property": "C45",
   "status": "partial",
   "theorems": [
    "Corgi.Autoload.C45_partial",
    "Corgi.Autoload.C45_image",
    "Corgi.Autoload.C45_violated",
    "Corgi.Autoload.C45_nd_never",
    "Corgi.Autoload.C45_sound",
    "Corgi.Autoload.C45_unbound",
    "Corgi.Autoload.C45_scan",
    "Corgi.Autoload.C45_scan_fails_iff",
    "Corgi.Autoload.C45_scan_violated",
    "Corgi.Autoload.C45_labels"
   ],
   "note": "Refuted for NDFilterSweetSpotDataset (C45_violated, C45_nd_never) and the scan of a folder with one (C45_scan_violated); all other classes C45_partial."
  },
  {
   "property": "C46",
   "status": "proved",
   "theorems": [
    "Corgi.Arith.C46_electrons",
    "Corgi.Arith.C46_electrons_error",
    "Corgi.Arith.C46_gain",
    "Corgi.Arith.C46_em",
    "Corgi.Arith.C46_exptime",
    "Corgi.Arith.C46_exptime_accepts_iff",
    "Corgi.Arith.C46_snr",
    "Corgi.Arith.C46_electrons_em",
    "Corgi.Arith.C46_em_exptime",
    "Corgi.Arith.C46_electrons_exptime"
   ],
   "note": "Data and total error; commutation of all three pairs also with uncertain k gain. Frame-level model; the cubes are C13."
  },
  {
   "property": "C47",
   "status": "partial",
   "theorems": [
    "Corgi.Darks.C47_dq",
    "Corgi.Darks.C47_dq_pixel",
    "Corgi.Darks.C47_unmasked_partial",
    "Corgi.Darks.C47_violated"
   ],
   "note": "Refuted for every configuration with one fully masked sub-stack of nonzero level and five or more sub-stacks (C47_violated). The flag law and the case without such sub-stacks are proved."
  },
  {
   "property": "C48",
   "status": "partial",
   "theorems": [
    "Corgi.Darks.C48_first",
    "Corgi.Darks.C48_crash_iff",
    "Corgi.Darks.C48_same_time_partial",
    "Corgi.Darks.C48_otherwise_partial",
    "Corgi.Darks.C48_violated",
    "Corgi.Darks.C48_largest_violated",
    "Corgi.Darks.C48_crash_violated"
   ],
   "note": "Refuted (C48_violated, C48_largest_violated, C48_crash_violated); the first sub-stack, the exact crash condition and the same-time branch are proved."
  },
  {
   "property": "C49",
   "status": "partial",
   "theorems": [
    "Corgi.Darks.C49_violated",
    "Corgi.Darks.C49_grows",
    "Corgi.Darks.C49_bounds_partial"
   ],
   "note": "Growth refutes the first clause (C49_violated, C49_grows); the bounds are proved."
  },
  {
   "property": "C50",
   "status": "partial",
   "theorems": [
    "Corgi.Pc.C50_violated",
    "Corgi.Pc.C50_too_small",
    "Corgi.Pc.C50_bounds_partial"
   ],
   "note": "Refuted: the reported error is the variance (C50_violated), too small when that is below one (C50_too_small), falls as 1/N (varL23_scale). C50_bounds_partial: lower bounds."
  },
  {
   "property": "C51",
   "status": "partial",
   "theorems": [
    "Corgi.Pc.C51_negative",
    "Corgi.Pc.C51_violated"
   ],
   "note": "Refuted: C51_negative (the iteration gives a negative flux although the equation has a solution, for every number of iterations) and C51_violated (get_pc_mean raises with safemode=False)."
  },
  {
   "property": "C52",
   "status": "partial",
   "theorems": [
    "Corgi.Pc.C52_violated",
    "Corgi.Pc.C52_bin_partial"
   ],
   "note": "Refuted for several bins (C52_violated); proved within a bin (C52_bin_partial)."
  },
  {
   "property": "C53",
   "status": "partial",
   "theorems": [
    "Corgi.Sky.C53_crop_wcs_iff",
    "Corgi.Sky.C53_violated",
    "Corgi.Sky.C53_kept_partial"
   ],
   "note": "Refuted (C53_violated). C53_crop_wcs_iff: unchanged iff the window starts at the origin; C53_kept_partial: crop leaves the WCS of create_wcs as it is."
  },
  {
   "property": "C54",
   "status": "partial",
   "theorems": [
    "Corgi.Sky.C54_det",
    "Corgi.Sky.C54_north",
    "Corgi.Sky.C54_header",
    "Corgi.Sky.C54_scale_partial",
    "Corgi.Sky.C54_scale_iff",
    "Corgi.Sky.C54_scale_violated",
    "Corgi.Sky.C54_centre_violated"
   ],
   "note": "Orientation and determinant proved; scale refuted with exact condition (C54_scale_iff, C54_scale_violated); centre off by one (C54_centre_violated)."
  },
  {
   "property": "C55",
   "status": "partial",
   "theorems": [
    "Corgi.Arith.C55_partial",
    "Corgi.Arith.C55_violated",
    "Corgi.Arith.C55_stays"
   ],
   "note": "Refuted for negative data (C55_violated); proved for the rest (C55_partial)."
  },
  {
   "property": "C56",
   "status": "partial",
   "theorems": [
    "Corgi.Arith.C56_violated",
    "Corgi.Arith.C56_names_partial",
    "Corgi.Arith.C56_unexplained",
    "Corgi.Arith.C56_em_partial"
   ],
   "note": "Refuted for convert_to_electrons (C56_violated); C56_em_partial for em_gain_division, divide_by_exptime is C17."
  },
  {
   "property": "C58",
   "status": "partial",
   "theorems": [
    "Corgi.Arith.C58_first_gain",
    "Corgi.Arith.C58_same_gain_partial",
    "Corgi.Arith.C58_violated"
   ],
   "note": "Refuted (C58_violated); C58_same_gain_partial: right when all frames have the same gain."
  },
  {
   "property": "C57",
   "status": "partial",
   "theorems": [
    "Corgi.DS.C57_em_violated",
    "Corgi.DS.C57_exptime_violated",
    "Corgi.DS.C57_exptime_contents",
    "Corgi.DS.C57_partial"
   ],
   "note": "Refuted for both steps (C57_em_violated, C57_exptime_violated); C57_partial: every step of the usual form (copy, pixel writes, update) returns a connected dataset."
  },
  {
   "property": "C59",
   "status": "partial",
   "theorems": [
    "Corgi.BadPix.C59_violated",
    "Corgi.BadPix.C59_flat_violated",
    "Corgi.BadPix.C59_nan_unflagged",
    "Corgi.BadPix.C59_flat_partial"
   ],
   "note": "Refuted for dark and flat (C59_violated, C59_flat_violated, C59_nan_unflagged); C59_flat_partial: a flat NaN outside the box of a pixel does not affect it."
  },
  {
   "property": "C60",
   "status": "partial",
   "theorems": [
    "Corgi.Pupil.C60_pair",
    "Corgi.Pupil.C60_ok_iff",
    "Corgi.Pupil.C60_type_error_iff",
    "Corgi.Pupil.C60_front",
    "Corgi.Pupil.C60_ids",
    "Corgi.Pupil.C60_partial",
    "Corgi.Pupil.C60_violated",
    "Corgi.Pupil.C60_two_violated",
    "Corgi.Pupil.C60_violated_gap"
   ],
   "note": "Refuted (C60_violated, C60_two_violated); C60_ok_iff and C60_type_error_iff give the exact behaviour, C60_partial the selected frames without stray ones."
  },
  {
   "property": "C61",
   "status": "partial",
   "theorems": [
    "Corgi.Pupil.C61_series",
    "Corgi.Pupil.C61_skipped_iff",
    "Corgi.Pupil.C61_violated",
    "Corgi.Pupil.C61_hidden"
   ],
   "note": "The exposure-time pattern is proved (C61_series, C61_skipped_iff); consecutive ids refuted (C61_violated)."
  },
  {
   "property": "C62",
   "status": "partial",
   "theorems": [
    "Corgi.Flat.C62_radius",
    "Corgi.Flat.C62_size_iff",
    "Corgi.Flat.C62_violated",
    "Corgi.Flat.C62_partial",
    "Corgi.Flat.C62_value",
    "Corgi.Flat.C62_padding",
    "Corgi.Flat.C62_mask_iff",
    "Corgi.Flat.C62_uranus_violated"
   ],
   "note": "Refuted: size (C62_size_iff, C62_violated), Uranus mask (C62_uranus_violated). C62_partial: size and value 1 outside for the one raster size; C62_value, C62_padding, C62_mask_iff give the exact behaviour."
  },
  {
   "property": "C63",
   "status": "partial",
   "theorems": [
    "Corgi.Flat.C63_last",
    "Corgi.Flat.C63_exact",
    "Corgi.Flat.C63_partial",
    "Corgi.Flat.C63_violated_iff",
    "Corgi.Flat.C63_order_violated",
    "Corgi.Flat.C63_bounds",
    "Corgi.Flat.C63_nan_violated",
    "Corgi.Flat.C63_zero_violated"
   ],
   "note": "Refuted (C63_violated_iff exact, C63_order_violated, C63_nan_violated, C63_zero_violated); C63_partial: one or two covering images. C63_exact: weights of the running average, C63_bounds: between the extremes."
  },
  {
   "property": "C64",
   "status": "partial",
   "theorems": [
    "Corgi.Flat.C64_value",
    "Corgi.Flat.C64_partial",
    "Corgi.Flat.C64_violated",
    "Corgi.Flat.C64_nan"
   ],
   "note": "Refuted with NaN (C64_violated); C64_value exact formula, C64_partial without NaN."
  },
  {
   "property": "C65",
   "status": "partial",
   "theorems": [
    "Corgi.Flat.C65_own_group",
    "Corgi.Flat.C65_works_iff",
    "Corgi.Flat.C65_violated",
    "Corgi.Flat.C65_window_iff",
    "Corgi.Flat.C65_window_empty"
   ],
   "note": "Refuted (C65_violated); C65_works_iff and C65_own_group give the exact conditions."
  },
  {
   "property": "C66",
   "status": "proved",
   "theorems": [
    "Corgi.Flux.C66_constant",
    "Corgi.Flux.C66_linear",
    "Corgi.Flux.C66_between",
    "Corgi.Flux.C66_effective",
    "Corgi.Flux.C66_pivot",
    "Corgi.Flux.C66_magnitude",
    "Corgi.Flux.C66_uniform_needed",
    "Corgi.Flux.C66_filter",
    "Corgi.Flux.C66_filter_sound",
    "Corgi.Flux.C66_filter_order"
   ],
   "note": "Quadrature of scipy >= 1.11 (exact for parabolas: simpson_quadratic). Uniform spacing is needed (C66_uniform_needed) and is a fact about the shipped files; C66_filter covers all shipped names."
  },
  {
   "property": "C67",
   "status": "partial",
   "theorems": [
    "Corgi.Flux.C67_same_shape",
    "Corgi.Flux.C67_chain",
    "Corgi.Flux.C67_band",
    "Corgi.Flux.C67_partial",
    "Corgi.Flux.C67_right_iff",
    "Corgi.Flux.C67_violated"
   ],
   "note": "C67_same_shape, C67_chain, C67_band proved; flux density at the reference wavelength refuted (C67_violated) with the exact condition C67_right_iff; C67_partial gives the value."
  },
  {
   "property": "C68",
   "status": "partial",
   "theorems": [
    "Corgi.Flux.C68_agree_iff",
    "Corgi.Flux.C68_violated",
    "Corgi.Flux.C68_partial"
   ],
   "note": "Refuted (C68_violated); C68_agree_iff exact condition; C68_partial: spectra of Vega's shape."
  },
  {
   "property": "C69",
   "status": "partial",
   "theorems": [
    "Corgi.Flux.C69_partial",
    "Corgi.Flux.C69_edge",
    "Corgi.Flux.C69_fails_iff",
    "Corgi.Flux.C69_violated"
   ],
   "note": "Refuted (C69_violated, C69_edge); C69_partial between samples inside the range; C69_fails_iff."
  },
  {
   "property": "C70",
   "status": "partial",
   "theorems": [
    "Corgi.Flux.C70_factor",
    "Corgi.Flux.C70_mag",
    "Corgi.Flux.C70_value",
    "Corgi.Flux.C70_conservative",
    "Corgi.Flux.C70_violated",
    "Corgi.Flux.C70_negative"
   ],
   "note": "Factor and magnitude proved (C70_factor, C70_mag); refuted for the mean (C70_violated), C70_conservative: never too small; C70_negative."
  },
  {
   "property": "C71",
   "status": "partial",
   "theorems": [
    "Corgi.Tda.C71_refused_iff",
    "Corgi.Tda.C71_flux",
    "Corgi.Tda.C71_masked",
    "Corgi.Tda.C71_error",
    "Corgi.Tda.C71_violated",
    "Corgi.Tda.C71_partial"
   ],
   "note": "Flux proved (C71_flux, C71_masked); error refuted (C71_violated) with the exact value C71_error; C71_partial for an exact factor."
  },
  {
   "property": "C72",
   "status": "partial",
   "theorems": [
    "Corgi.Tda.C72_value",
    "Corgi.Tda.C72_violated",
    "Corgi.Tda.C72_kwargs_iff"
   ],
   "note": "Refuted for every image (C72_violated); C72_value: the first element is the zero point; C72_kwargs_iff."
  },
  {
   "property": "C73",
   "status": "partial",
   "theorems": [
    "Corgi.Tda.C73_partial",
    "Corgi.Tda.C73_hangs",
    "Corgi.Tda.C73_hangs_later",
    "Corgi.Tda.C73_terminates",
    "Corgi.Tda.C73_violated",
    "Corgi.Tda.C73_slice_negative",
    "Corgi.Tda.C73_slice",
    "Corgi.Tda.C73_window_iff",
    "Corgi.Tda.C73_even_violated",
    "Corgi.Tda.C73_mask",
    "Corgi.Tda.C73_mask_violated"
   ],
   "note": "Refuted (C73_violated, C73_hangs_later, C73_even_violated, C73_mask_violated). C73_partial: correct if it ends; C73_terminates sufficient condition; C73_window_iff exact border condition."
  },
  {
   "property": "C74",
   "status": "partial",
   "theorems": [
    "Corgi.Tda.C74_volume",
    "Corgi.Tda.C74_star",
    "Corgi.Tda.C74_violated",
    "Corgi.Tda.C74_partial",
    "Corgi.Tda.C74_first",
    "Corgi.Tda.C74_own_violated",
    "Corgi.Tda.C74_location_iff",
    "Corgi.Tda.C74_last_row_violated"
   ],
   "note": "Volume proved (C74_volume). Refuted for every positive optical density (C74_violated); C74_own_violated, C74_last_row_violated; C74_partial: proportionality."
  },
  {
   "property": "C75",
   "status": "partial",
   "theorems": [
    "Corgi.Nd.C75_irr_iff",
    "Corgi.Nd.C75_partial",
    "Corgi.Nd.C75_flux",
    "Corgi.Nd.C75_flux_iff",
    "Corgi.Nd.C75_violated"
   ],
   "note": "Refuted (C75_violated); C75_irr_iff and C75_flux_iff exact conditions; C75_partial: same spectral shape."
  },
  {
   "property": "C76",
   "status": "partial",
   "theorems": [
    "Corgi.Nd.C76_average",
    "Corgi.Nd.C76_factor_violated",
    "Corgi.Nd.C76_default_violated",
    "Corgi.Nd.C76_keyword",
    "Corgi.Nd.C76_partial",
    "Corgi.Nd.C76_flag_violated",
    "Corgi.Nd.C76_consistent",
    "Corgi.Nd.C76_tolerance"
   ],
   "note": "Refuted (C76_factor_violated, C76_default_violated, C76_flag_violated, C76_tolerance); C76_partial: rows and ODFLAG on success."
  },
  {
   "property": "C77",
   "status": "partial",
   "theorems": [
    "Corgi.Nd.C77_value",
    "Corgi.Nd.C77_partial",
    "Corgi.Nd.C77_violated"
   ],
   "note": "Refuted for every displacement (C77_violated); C77_value; C77_partial without displacement."
  },
  {
   "property": "C79",
   "status": "partial",
   "theorems": [
    "Corgi.Centroid.C79_peak",
    "Corgi.Centroid.C79_guess",
    "Corgi.Centroid.C79_in_box_partial",
    "Corgi.Centroid.C79_symmetric_partial",
    "Corgi.Centroid.C79_translate_partial",
    "Corgi.Centroid.C79_scale",
    "Corgi.Centroid.C79_nan_iff",
    "Corgi.Centroid.C79_background",
    "Corgi.Centroid.C79_violated_negative",
    "Corgi.Centroid.C79_violated_nan",
    "Corgi.Centroid.C79_violated_float",
    "Corgi.Centroid.C79_violated_guess"
   ],
   "note": "Refuted: C79_violated_negative, C79_violated_nan, C79_violated_float, C79_violated_guess. C79_in_box_partial, C79_symmetric_partial, C79_translate_partial, C79_scale hold for integer radii, finite pixels and peaks inside the frame; C79_peak, C79_guess, C79_nan_iff, C79_background exact."
  },
  {
   "property": "C80",
   "status": "partial",
   "theorems": [
    "Corgi.Ct.C80_def",
    "Corgi.Ct.C80_range_partial",
    "Corgi.Ct.C80_peak",
    "Corgi.Ct.C80_scale",
    "Corgi.Ct.C80_violated_nan",
    "Corgi.Ct.C80_violated_range",
    "Corgi.Ct.C80_negative"
   ],
   "note": "Refuted (C80_violated_nan for every image with a NaN, C80_violated_range). C80_def exact value, C80_range_partial, C80_peak, C80_scale without NaN."
  },
  {
   "property": "C81",
   "status": "partial",
   "theorems": [
    "Corgi.Ct.C81_partition",
    "Corgi.Ct.C81_entries",
    "Corgi.Ct.C81_needs",
    "Corgi.Ct.C81_violated_nan",
    "Corgi.Ct.C81_norm",
    "Corgi.Ct.C81_violated_missing_keyword"
   ],
   "note": "C81_partition, C81_entries, C81_needs, C81_norm proved; refuted: C81_violated_missing_keyword, C81_violated_nan."
  },
  {
   "property": "C82",
   "status": "partial",
   "theorems": [
    "Corgi.Ct.C82_full_iff",
    "Corgi.Ct.C82_centred",
    "Corgi.Ct.C82_ok_iff",
    "Corgi.Ct.C82_interior_partial",
    "Corgi.Ct.C82_violated_ragged",
    "Corgi.Ct.C82_violated_centre"
   ],
   "note": "Refuted (C82_violated_ragged, C82_violated_centre); C82_ok_iff and C82_full_iff exact conditions; C82_interior_partial: PSFs away from the edges."
  },
  {
   "property": "C83",
   "status": "partial",
   "theorems": [
    "Corgi.CtMap.C83_nearest_partial",
    "Corgi.CtMap.C83_rows",
    "Corgi.CtMap.C83_violated_half_pixel",
    "Corgi.CtMap.C83_grid",
    "Corgi.CtMap.C83_linspace",
    "Corgi.CtMap.C83_save_partial",
    "Corgi.CtMap.C83_violated_save"
   ],
   "note": "Refuted (C83_violated_half_pixel, C83_violated_save); C83_nearest_partial: nearest from the displaced centre; C83_rows, C83_grid, C83_linspace, C83_save_partial."
  },
  {
   "property": "C84",
   "status": "partial",
   "theorems": [
    "Corgi.CtMap.C84_fpm",
    "Corgi.CtMap.C84_fpm_shift",
    "Corgi.CtMap.C84_polar",
    "Corgi.CtMap.C84_locations",
    "Corgi.CtMap.C84_patch_idle",
    "Corgi.CtMap.C84_range",
    "Corgi.CtMap.C84_values_partial",
    "Corgi.CtMap.C84_azimuth_partial",
    "Corgi.CtMap.C84_violated_azimuth",
    "Corgi.CtMap.C84_violated_measured",
    "Corgi.CtMap.C84_violated_patch",
    "Corgi.CtMap.C84_patch_partial",
    "Corgi.CtMap.C84_violated_index"
   ],
   "note": "C84_locations, C84_range, C84_fpm, C84_fpm_shift proved for any interpolant; C84_values_partial, C84_azimuth_partial below the last azimuth, C84_patch_partial; refuted: C84_violated_azimuth, C84_violated_measured, C84_violated_patch, C84_violated_index."
  },
  {
   "property": "C85",
   "status": "partial",
   "theorems": [
    "Corgi.GetPsf.C85_radius_partial",
    "Corgi.GetPsf.C85_bins",
    "Corgi.GetPsf.C85_azimuth_partial",
    "Corgi.GetPsf.C85_isolated",
    "Corgi.GetPsf.C85_count",
    "Corgi.GetPsf.C85_found",
    "Corgi.GetPsf.C85_violated_radius",
    "Corgi.GetPsf.C85_violated_azimuth",
    "Corgi.GetPsf.C85_violated_many"
   ],
   "note": "Refuted (C85_violated_radius, C85_violated_azimuth, C85_violated_many); C85_radius_partial: within one pixel of the nearest; C85_isolated, C85_count, C85_found."
  },
  {
   "property": "C78",
   "status": "partial",
   "theorems": [
    "Corgi.Alias.C78_product",
    "Corgi.Alias.C78_copy_partial",
    "Corgi.Alias.C78_other",
    "Corgi.Alias.C78_violated_input",
    "Corgi.Alias.C78_violated_later",
    "Corgi.Alias.C78_violated_first_product",
    "Corgi.Alias.C78_types",
    "Corgi.Alias.C78_which",
    "Corgi.Alias.C78_violated_sky"
   ],
   "note": "C78_product, C78_other proved; refuted for the creators of C78_which (C78_violated_input, C78_violated_later, C78_violated_first_product, C78_violated_sky); C78_copy_partial for the others."
  },
  {
   "property": "C86",
   "status": "proved",
   "theorems": [
    "Corgi.Astrom.C86_angle",
    "Corgi.Astrom.C86_coincident",
    "Corgi.Astrom.C86_round_trip",
    "Corgi.Astrom.C86_inverse",
    "Corgi.Astrom.C86_distance",
    "Corgi.Astrom.C86_north",
    "Corgi.Astrom.C86_east"
   ],
   "note": "Over the reals; angle 360 instead of 0 for due north is part of the statement (C86_north)."
  },
  {
   "property": "C87",
   "status": "partial",
   "theorems": [
    "Corgi.Astrom.C87_small_partial",
    "Corgi.Astrom.C87_mean_partial",
    "Corgi.Astrom.C87_violated_half_turn",
    "Corgi.Astrom.C87_violated_average",
    "Corgi.Astrom.C87_square",
    "Corgi.Astrom.C87_violated_rectangular",
    "Corgi.Astrom.C87_guess_partial",
    "Corgi.Astrom.C87_violated_sign",
    "Corgi.Astrom.C87_violated_wrap"
   ],
   "note": "C87_small_partial, C87_mean_partial (rotations below 90 degrees), C87_guess_partial (non-negative), C87_square; refuted: C87_violated_half_turn for all rotations in (90,270), C87_violated_average, C87_violated_sign, C87_violated_wrap, C87_violated_rectangular."
  },
  {
   "property": "C88",
   "status": "proved",
   "theorems": [
    "Corgi.Combos.C88_exact",
    "Corgi.Combos.C88_order",
    "Corgi.Combos.C88_no_gap",
    "Corgi.Combos.C88_stop",
    "Corgi.Combos.C88_empty"
   ],
   "note": "C88_exact: yielded iff strictly increasing r-tuple below n; C88_order, C88_no_gap, C88_stop, C88_empty."
  },
  {
   "property": "C89",
   "status": "partial",
   "theorems": [
    "Corgi.Boresight.C89_reported",
    "Corgi.Boresight.C89_zero_partial",
    "Corgi.Boresight.C89_size_partial",
    "Corgi.Boresight.C89_dec_partial",
    "Corgi.Boresight.C89_violated_sign",
    "Corgi.Boresight.C89_violated_rotation",
    "Corgi.Boresight.C89_right_iff"
   ],
   "note": "C89_reported gives the exact result in the linearised model; C89_zero_partial, C89_size_partial, C89_dec_partial; refuted: C89_violated_sign, C89_violated_rotation; C89_right_iff exact condition. The minimiser is taken at its exact optimum."
  },
  {
   "property": "C90",
   "status": "partial",
   "theorems": [
    "Corgi.Boresight.C90_legendre",
    "Corgi.Boresight.C90_identity",
    "Corgi.Boresight.C90_violated_order_zero",
    "Corgi.Boresight.C90_no_displacement",
    "Corgi.Boresight.C90_centre_partial",
    "Corgi.Boresight.C90_offset",
    "Corgi.Boresight.C90_violated_centre",
    "Corgi.Boresight.C90_violated_rectangular",
    "Corgi.Boresight.C90_shape_iff"
   ],
   "note": "C90_identity (order >= 1), C90_no_displacement, C90_offset; C90_centre_partial when the centres agree; refuted: C90_violated_order_zero, C90_violated_centre, C90_violated_rectangular."
  },
  {
   "property": "C91",
   "status": "partial",
   "theorems": [
    "Corgi.AstromSources.C91_greedy",
    "Corgi.AstromSources.C91_separated_partial",
    "Corgi.AstromSources.C91_violated_negative",
    "Corgi.AstromSources.C91_violated_repeats",
    "Corgi.AstromSources.C91_violated_rectangular"
   ],
   "note": "C91_greedy exact; C91_separated_partial for positive maxima; refuted: C91_violated_negative, C91_violated_repeats, C91_violated_rectangular."
  },
  {
   "property": "C92",
   "status": "partial",
   "theorems": [
    "Corgi.AstromSources.C92_within_iff",
    "Corgi.AstromSources.C92_pick",
    "Corgi.AstromSources.C92_pick_none",
    "Corgi.AstromSources.C92_best_partial",
    "Corgi.AstromSources.C92_violated_discarded",
    "Corgi.AstromSources.C92_nearest",
    "Corgi.AstromSources.C92_violated_shared",
    "Corgi.AstromSources.C92_violated_columns",
    "Corgi.AstromSources.C92_window_iff",
    "Corgi.AstromSources.C92_violated_wrap"
   ],
   "note": "C92_pick, C92_pick_none, C92_nearest proved; C92_best_partial; refuted: C92_violated_discarded, C92_violated_shared, C92_violated_columns, C92_violated_wrap."
  },
  {
   "property": "C93",
   "status": "partial",
   "theorems": [
    "Corgi.AstromSources.C93_cutout_partial",
    "Corgi.AstromSources.C93_cutout_centred",
    "Corgi.AstromSources.C93_violated_small",
    "Corgi.AstromSources.C93_offset",
    "Corgi.AstromSources.C93_violated_pair",
    "Corgi.AstromSources.C93_groups_partial",
    "Corgi.AstromSources.C93_violated_zero",
    "Corgi.AstromSources.C93_violated_name",
    "Corgi.AstromSources.C93_load",
    "Corgi.AstromSources.C93_violated_matches",
    "Corgi.AstromSources.C93_violated_card",
    "Corgi.AstromSources.C93_circle_iff",
    "Corgi.AstromSources.C93_mask_partial",
    "Corgi.AstromSources.C93_violated_mask"
   ],
   "note": "C93_cutout_partial, C93_cutout_centred, C93_offset, C93_groups_partial, C93_mask_partial; refuted: C93_violated_small, C93_violated_pair, C93_violated_zero, C93_violated_name, C93_violated_matches, C93_violated_card, C93_violated_mask."
  },
  {
   "property": "C94",
   "status": "proved",
   "theorems": [
    "Corgi.StarCenter.C94_centre",
    "Corgi.StarCenter.C94_exact",
    "Corgi.StarCenter.C94_circle",
    "Corgi.StarCenter.C94_symmetric",
    "Corgi.StarCenter.C94_edge",
    "Corgi.StarCenter.C94_transpose",
    "Corgi.StarCenter.C94_single_column",
    "Corgi.StarCenter.C94_pair",
    "Corgi.StarCenter.C94_angle"
   ],
   "note": "C94_circle, C94_exact (shortcut is exact), C94_centre, C94_symmetric, C94_transpose, C94_pair, C94_angle; C94_single_column shows why two columns are needed."
  },
  {
   "property": "C95",
   "status": "partial",
   "theorems": [
    "Corgi.StarCenter.C95_vertex",
    "Corgi.StarCenter.C95_exact1_partial",
    "Corgi.StarCenter.C95_lengths",
    "Corgi.StarCenter.C95_violated_minimum",
    "Corgi.StarCenter.C95_violated_outside",
    "Corgi.StarCenter.C95_violated_zero",
    "Corgi.StarCenter.C95_stationary",
    "Corgi.StarCenter.C95_exact2_partial",
    "Corgi.StarCenter.C95_violated_saddle",
    "Corgi.StarCenter.C95_star_partial",
    "Corgi.StarCenter.C95_no_iteration",
    "Corgi.StarCenter.C95_separation_partial",
    "Corgi.StarCenter.C95_first_turn",
    "Corgi.StarCenter.C95_absolute",
    "Corgi.StarCenter.C95_violated_spots",
    "Corgi.StarCenter.C95_center_partial",
    "Corgi.StarCenter.C95_violated_theta"
   ],
   "note": "C95_vertex, C95_stationary for all data; C95_exact1_partial, C95_exact2_partial, C95_star_partial, C95_separation_partial for exact parabolas; refuted: C95_violated_minimum, C95_violated_outside, C95_violated_zero, C95_violated_saddle, C95_violated_spots, C95_violated_theta. The least-squares fit is abstract (exact data are reproduced)."
  },
  {
   "property": "C96",
   "status": "partial",
   "theorems": [
    "Corgi.FindStar.C96_update",
    "Corgi.FindStar.C96_keys",
    "Corgi.FindStar.C96_frames_partial",
    "Corgi.FindStar.C96_rejects",
    "Corgi.FindStar.C96_violated_defaults",
    "Corgi.FindStar.C96_violated_failed",
    "Corgi.FindStar.C96_violated_validate"
   ],
   "note": "C96_update, C96_keys, C96_rejects exact; C96_frames_partial for calls without user parameters; refuted: C96_violated_defaults, C96_violated_failed, C96_violated_validate."
  },
  {
   "property": "C97",
   "status": "partial",
   "theorems": [
    "Corgi.Northup.C97_north_partial",
    "Corgi.Northup.C97_violated_scales",
    "Corgi.Northup.C97_roll",
    "Corgi.Northup.C97_dq_centre",
    "Corgi.Northup.C97_violated_dq",
    "Corgi.Northup.C97_violated_half_turn",
    "Corgi.Northup.C97_star_partial",
    "Corgi.Northup.C97_violated_star",
    "Corgi.Northup.C97_violated_wcs",
    "Corgi.Northup.C97_violated_default",
    "Corgi.Northup.C97_image_centre",
    "Corgi.Northup.C97_violated_layers",
    "Corgi.Northup.C97_violated_cube",
    "Corgi.Northup.C97_violated_truthy"
   ],
   "note": "C97_north_partial (equal scales), C97_roll, C97_dq_centre, C97_star_partial; refuted: C97_violated_scales, C97_violated_dq, C97_violated_half_turn, C97_violated_star, C97_violated_wcs, C97_violated_default, C97_violated_layers, C97_violated_cube, C97_violated_truthy."
  },
  {
   "property": "C98",
   "status": "partial",
   "theorems": [
    "Corgi.Pyklip.C98_accepts",
    "Corgi.Pyklip.C98_aligned",
    "Corgi.Pyklip.C98_counts",
    "Corgi.Pyklip.C98_library_partial",
    "Corgi.Pyklip.C98_violated_references",
    "Corgi.Pyklip.C98_middle",
    "Corgi.Pyklip.C98_violated_iwa",
    "Corgi.Pyklip.C98_violated_scale",
    "Corgi.Pyklip.C98_violated_cd",
    "Corgi.Pyklip.C98_count_partial",
    "Corgi.Pyklip.C98_violated_names",
    "Corgi.Pyklip.C98_violated_count",
    "Corgi.Pyklip.C98_listed"
   ],
   "note": "C98_accepts, C98_aligned, C98_counts exact; C98_library_partial, C98_count_partial; refuted: C98_violated_references, C98_violated_iwa, C98_violated_cd, C98_violated_names, C98_violated_count."
  },
  {
   "property": "C99",
   "status": "partial",
   "theorems": [
    "Corgi.PsfSub.C99_divided",
    "Corgi.PsfSub.C99_mode",
    "Corgi.PsfSub.C99_calibration",
    "Corgi.PsfSub.C99_violated_given",
    "Corgi.PsfSub.C99_violated_dropped",
    "Corgi.PsfSub.C99_violated_library",
    "Corgi.PsfSub.C99_pixel",
    "Corgi.PsfSub.C99_violated_err",
    "Corgi.PsfSub.C99_header",
    "Corgi.PsfSub.C99_violated_parents",
    "Corgi.PsfSub.C99_violated_cd",
    "Corgi.PsfSub.C99_violated_crpix"
   ],
   "note": "C99_divided, C99_mode, C99_calibration, C99_pixel, C99_header exact; refuted: C99_violated_given, C99_violated_dropped, C99_violated_library, C99_violated_err, C99_violated_parents, C99_violated_cd, C99_violated_crpix. KLIP itself is not modelled."
  },
  {
   "property": "C100",
   "status": "partial",
   "theorems": [
    "Corgi.Inject.C100_closest",
    "Corgi.Inject.C100_exists",
    "Corgi.Inject.C100_violated_crop",
    "Corgi.Inject.C100_violated_crop_witness",
    "Corgi.Inject.C100_violated_half_pixel",
    "Corgi.Inject.C100_peak_partial",
    "Corgi.Inject.C100_place",
    "Corgi.Inject.C100_recovered",
    "Corgi.Inject.C100_sky",
    "Corgi.Inject.C100_violated_northangle",
    "Corgi.Inject.C100_annulus",
    "Corgi.Inject.C100_used",
    "Corgi.Inject.C100_violated_masked"
   ],
   "note": "C100_closest, C100_exists, C100_place, C100_recovered, C100_sky, C100_annulus, C100_used; C100_peak_partial; refuted: C100_violated_crop, C100_violated_half_pixel, C100_violated_northangle, C100_violated_masked."
  },
  {
   "property": "C101",
   "status": "partial",
   "theorems": [
    "Corgi.Thrupt.C101_injected",
    "Corgi.Thrupt.C101_away",
    "Corgi.Thrupt.C101_grid",
    "Corgi.Thrupt.C101_violated_default_pas",
    "Corgi.Thrupt.C101_counts",
    "Corgi.Thrupt.C101_ratio",
    "Corgi.Thrupt.C101_cutout",
    "Corgi.Thrupt.C101_violated_outside",
    "Corgi.Thrupt.C101_truncated",
    "Corgi.Thrupt.C101_slices",
    "Corgi.Thrupt.C101_pad_partial",
    "Corgi.Thrupt.C101_violated_pad",
    "Corgi.Thrupt.C101_table_partial",
    "Corgi.Thrupt.C101_violated_missing",
    "Corgi.Thrupt.C101_violated_order"
   ],
   "note": "C101_injected, C101_away, C101_grid, C101_counts, C101_ratio, C101_cutout, C101_truncated; C101_pad_partial, C101_table_partial; refuted: C101_violated_default_pas, C101_violated_outside, C101_violated_pad, C101_violated_missing, C101_violated_order."
  },
  {
   "property": "C102",
   "status": "partial",
   "theorems": [
    "Corgi.Companions.C102_no_filter",
    "Corgi.Companions.C102_violated_od",
    "Corgi.Companions.C102_reported",
    "Corgi.Companions.C102_violated_width",
    "Corgi.Companions.C102_ratio_partial",
    "Corgi.Companions.C102_magnitude",
    "Corgi.Companions.C102_fainter",
    "Corgi.Companions.C102_zero_point",
    "Corgi.Companions.C102_violated_zero_point",
    "Corgi.Companions.C102_place",
    "Corgi.Companions.C102_parse",
    "Corgi.Companions.C102_moved",
    "Corgi.Companions.C102_violated_fm_row"
   ],
   "note": "C102_reported gives the reported ratio for every scene; C102_ratio_partial if PSF subtraction keeps the width; C102_no_filter, C102_magnitude, C102_fainter, C102_place, C102_parse, C102_moved; refuted: C102_violated_od, C102_violated_width, C102_violated_zero_point, C102_violated_fm_row. The Gaussian fits are inputs of the model."
  },
  {
   "property": "C103",
   "status": "partial",
   "theorems": [
    "Corgi.KgainData.C103_sizes",
    "Corgi.KgainData.C103_stack",
    "Corgi.KgainData.C103_mean",
    "Corgi.KgainData.C103_checked",
    "Corgi.KgainData.C103_violated_size",
    "Corgi.KgainData.C103_violated_gain",
    "Corgi.KgainData.C103_no_frames"
   ],
   "note": "C103_stack, C103_mean, C103_checked, C103_sizes, C103_no_frames for all data; refuted: C103_violated_size (mean frames count for the size), C103_violated_gain (weights of the gains)."
  },
  {
   "property": "C104",
   "status": "partial",
   "theorems": [
    "Corgi.Ptc.C104_lengths",
    "Corgi.Ptc.C104_inside",
    "Corgi.Ptc.C104_differences",
    "Corgi.Ptc.C104_five_partial",
    "Corgi.Ptc.C104_violated_frames",
    "Corgi.Ptc.C104_written",
    "Corgi.Ptc.C104_violated_last_row",
    "Corgi.Ptc.C104_disjoint",
    "Corgi.Ptc.C104_covered",
    "Corgi.Ptc.C104_violated_max",
    "Corgi.Ptc.C104_entry",
    "Corgi.Ptc.C104_signal_bins",
    "Corgi.Ptc.C104_first_bin",
    "Corgi.Ptc.C104_violated_extremes",
    "Corgi.Ptc.C104_window",
    "Corgi.Ptc.C104_violated_upper",
    "Corgi.Ptc.C104_violated_dimensions"
   ],
   "note": "C104_lengths, C104_inside, C104_differences, C104_written, C104_disjoint, C104_covered, C104_signal_bins, C104_window exact; C104_five_partial for five frames; refuted: C104_violated_frames, C104_violated_last_row, C104_violated_max, C104_violated_extremes, C104_violated_upper, C104_violated_dimensions. Also C104_entry, C104_first_bin."
  },
  {
   "property": "C105",
   "status": "partial",
   "theorems": [
    "Corgi.KgainEst.C105_chebyshev",
    "Corgi.KgainEst.C105_clip",
    "Corgi.KgainEst.C105_clip_done",
    "Corgi.KgainEst.C105_violated_mask",
    "Corgi.KgainEst.C105_mode",
    "Corgi.KgainEst.C105_violated_constant",
    "Corgi.KgainEst.C105_root",
    "Corgi.KgainEst.C105_shot_partial",
    "Corgi.KgainEst.C105_violated_shot",
    "Corgi.KgainEst.C105_gain",
    "Corgi.KgainEst.C105_gain_total",
    "Corgi.KgainEst.C105_violated_read_noise",
    "Corgi.KgainEst.C105_error"
   ],
   "note": "C105_chebyshev, C105_clip, C105_clip_done, C105_mode, C105_root, C105_gain, C105_gain_total, C105_error; C105_shot_partial for noise above the read noise; refuted: C105_violated_mask, C105_violated_constant, C105_violated_shot, C105_violated_read_noise. The Gaussian fit of the read noise is not modelled."
  },
  {
   "property": "C106",
   "status": "partial",
   "theorems": [
    "Corgi.NonlinData.C106_accepts",
    "Corgi.NonlinData.C106_stacks",
    "Corgi.NonlinData.C106_mean",
    "Corgi.NonlinData.C106_violated_measured",
    "Corgi.NonlinData.C106_gains_partial",
    "Corgi.NonlinData.C106_repeated",
    "Corgi.NonlinData.C106_violated_repeated",
    "Corgi.NonlinData.C106_checked"
   ],
   "note": "C106_accepts, C106_stacks, C106_mean, C106_repeated, C106_checked for all data; C106_gains_partial without EMGAIN_M; refuted: C106_violated_measured (EMGAIN_M makes data unusable), C106_violated_repeated (equal numbers of frames are refused)."
  },
  {
   "property": "C107",
   "status": "partial",
   "theorems": [
    "Corgi.NonlinDrift.C107_threshold",
    "Corgi.NonlinDrift.C107_threshold_exists",
    "Corgi.NonlinDrift.C107_mask",
    "Corgi.NonlinDrift.C107_signal_partial",
    "Corgi.NonlinDrift.C107_signal_none",
    "Corgi.NonlinDrift.C107_violated_positive",
    "Corgi.NonlinDrift.C107_repeat",
    "Corgi.NonlinDrift.C107_violated_pair",
    "Corgi.NonlinDrift.C107_violated_second",
    "Corgi.NonlinDrift.C107_violated_half",
    "Corgi.NonlinDrift.C107_exposures",
    "Corgi.NonlinDrift.C107_violated_uncorrected",
    "Corgi.NonlinDrift.C107_steady_partial",
    "Corgi.NonlinDrift.C107_violated_origin",
    "Corgi.NonlinDrift.C107_background",
    "Corgi.NonlinDrift.C107_line",
    "Corgi.NonlinDrift.C107_times",
    "Corgi.NonlinDrift.C107_group",
    "Corgi.NonlinDrift.C107_corrected"
   ],
   "note": "C107_threshold, C107_threshold_exists, C107_mask, C107_signal_none, C107_repeat, C107_exposures for all data; C107_signal_partial (all pixels above background), C107_steady_partial (steady lamp); refuted: C107_violated_positive, C107_violated_pair, C107_violated_second, C107_violated_half, C107_violated_uncorrected, C107_violated_origin. Also C107_background, C107_line, C107_times, C107_group, C107_corrected."
  },
  {
   "property": "C108",
   "status": "partial",
   "theorems": [
    "Corgi.NonlinTable.C108_fit_points",
    "Corgi.NonlinTable.C108_pairing_partial",
    "Corgi.NonlinTable.C108_violated_order",
    "Corgi.NonlinTable.C108_violated_norm",
    "Corgi.NonlinTable.C108_column",
    "Corgi.NonlinTable.C108_layout",
    "Corgi.NonlinTable.C108_rows",
    "Corgi.NonlinTable.C108_ascending",
    "Corgi.NonlinTable.C108_violated_limits",
    "Corgi.NonlinTable.C108_norm",
    "Corgi.NonlinTable.C108_usable",
    "Corgi.NonlinTable.C108_violated_single",
    "Corgi.NonlinTable.C108_corrects"
   ],
   "note": "C108_fit_points, C108_layout, C108_rows, C108_ascending, C108_norm, C108_usable, C108_corrects for all inputs; C108_pairing_partial if the signal increases with exposure time; refuted: C108_violated_order, C108_violated_norm, C108_violated_limits, C108_violated_single. lowess and polyfit are parameters. Also C108_column."
  },
  {
   "property": "C109",
   "status": "partial",
   "theorems": [
    "Corgi.TrapProb.C109_peak1",
    "Corgi.TrapProb.C109_peak2",
    "Corgi.TrapProb.C109_peak3",
    "Corgi.TrapProb.C109_constant_partial",
    "Corgi.TrapProb.C109_recover",
    "Corgi.TrapProb.C109_violated_late",
    "Corgi.TrapProb.C109_violated_estimate",
    "Corgi.TrapProb.C109_bound",
    "Corgi.TrapProb.C109_two",
    "Corgi.TrapProb.C109_exchange"
   ],
   "note": "C109_peak1, C109_peak2, C109_peak3, C109_two, C109_exchange for all times; C109_constant_partial and C109_recover for constant capture probability; refuted for time-dependent capture: C109_violated_late, C109_violated_estimate (the estimate is too large), C109_bound."
  },
  {
   "property": "C110",
   "status": "partial",
   "theorems": [
    "Corgi.TrapIllum.C110_square_partial",
    "Corgi.TrapIllum.C110_side",
    "Corgi.TrapIllum.C110_violated_wide",
    "Corgi.TrapIllum.C110_whole",
    "Corgi.TrapIllum.C110_sum",
    "Corgi.TrapIllum.C110_chosen",
    "Corgi.TrapIllum.C110_zero"
   ],
   "note": "C110_square_partial, C110_side if the bin is no larger than the image; C110_whole, C110_sum, C110_chosen, C110_zero; refuted: C110_violated_wide (a bin larger than a side gives zeros)."
  },
  {
   "property": "C111",
   "status": "partial",
   "theorems": [
    "Corgi.TrapId.C111_above",
    "Corgi.TrapId.C111_below",
    "Corgi.TrapId.C111_sound_partial",
    "Corgi.TrapId.C111_exact_partial",
    "Corgi.TrapId.C111_one",
    "Corgi.TrapId.C111_violated",
    "Corgi.TrapId.C111_kinds",
    "Corgi.TrapId.C111_rows",
    "Corgi.TrapId.C111_side",
    "Corgi.TrapId.C111_amps"
   ],
   "note": "C111_above, C111_below, C111_kinds, C111_rows, C111_side, C111_amps, C111_one for all stacks; C111_sound_partial (a marked pixel has enough phase times), C111_exact_partial (equal numbers per time, dipole in all frames or none of a time); refuted: C111_violated."
  },
  {
   "property": "C112",
   "status": "partial",
   "theorems": [
    "Corgi.TrapFit.C112_single",
    "Corgi.TrapFit.C112_pair",
    "Corgi.TrapFit.C112_both",
    "Corgi.TrapFit.C112_none_partial",
    "Corgi.TrapFit.C112_violated_raise",
    "Corgi.TrapFit.C112_violated",
    "Corgi.TrapFit.C112_tie",
    "Corgi.TrapFit.C112_adjusted",
    "Corgi.TrapFit.C112_functions"
   ],
   "note": "C112_single, C112_pair, C112_both, C112_tie, C112_adjusted for all fits; C112_none_partial if no fit raises; refuted: C112_violated_raise, C112_violated. curve_fit is a parameter."
  },
  {
   "property": "C113",
   "status": "partial",
   "theorems": [
    "Corgi.TrapFit.C113_accepted",
    "Corgi.TrapFit.C113_violated_offset",
    "Corgi.TrapFit.C113_violated_times",
    "Corgi.TrapFit.C113_guess"
   ],
   "note": "C113_accepted is the exact condition, C113_guess; refuted: C113_violated_offset, C113_violated_times."
  },
  {
   "property": "C114",
   "status": "partial",
   "theorems": [
    "Corgi.TrapMatch.C114_count",
    "Corgi.TrapMatch.C114_iter",
    "Corgi.TrapMatch.C114_once",
    "Corgi.TrapMatch.C114_window",
    "Corgi.TrapMatch.C114_first",
    "Corgi.TrapMatch.C114_violated_total",
    "Corgi.TrapMatch.C114_recover",
    "Corgi.TrapMatch.C114_four",
    "Corgi.TrapMatch.C114_mirror",
    "Corgi.TrapMatch.C114_shift",
    "Corgi.TrapMatch.C114_distinct"
   ],
   "note": "C114_count, C114_iter, C114_once, C114_window, C114_first, C114_recover for all inputs; refuted: C114_violated_total (the assignment is not of smallest total spread); C114_four: nothing is found without all four schemes. Also C114_mirror, C114_shift, C114_distinct."
  },
  {
   "property": "C115",
   "status": "partial",
   "theorems": [
    "Corgi.TrapMatch.C115_blind",
    "Corgi.TrapMatch.C115_violated",
    "Corgi.TrapMatch.C115_violated_less",
    "Corgi.TrapMatch.C115_last",
    "Corgi.TrapMatch.C115_partial"
   ],
   "note": "C115_partial if every left-over key has one fit and there is one temperature; refuted: C115_violated, C115_violated_less, C115_blind, C115_last."
  },
  {
   "property": "C116",
   "status": "partial",
   "theorems": [
    "Corgi.TrapLink.C116_nearest",
    "Corgi.TrapLink.C116_all",
    "Corgi.TrapLink.C116_temps",
    "Corgi.TrapLink.C116_ascending",
    "Corgi.TrapLink.C116_violated_swap",
    "Corgi.TrapLink.C116_violated_missing",
    "Corgi.TrapLink.C116_apart_partial"
   ],
   "note": "C116_all, C116_temps, C116_ascending, C116_nearest for all data; C116_apart_partial (same traps at all temperatures, each closer to itself); refuted: C116_violated_swap, C116_violated_missing."
  },
  {
   "property": "C117",
   "status": "partial",
   "theorems": [
    "Corgi.TrapLink.C117_gap",
    "Corgi.TrapLink.C117_violated",
    "Corgi.TrapLink.C117_few"
   ],
   "note": "C117_gap (exact for a list of temperatures), C117_few; refuted for physical traps: C117_violated. C117 depends on the linking of C116."
  },
  {
   "property": "C118",
   "status": "proved",
   "theorems": [
    "Corgi.TrapDensity.C118_inside",
    "Corgi.TrapDensity.C118_sum",
    "Corgi.TrapDensity.C118_centre",
    "Corgi.TrapDensity.C118_accepted"
   ],
   "note": "C118_accepted, C118_inside, C118_sum, C118_centre; energies and cross sections not negative, as enforced by the bounds of the fit."
  },
  {
   "property": "C119",
   "status": "partial",
   "theorems": [
    "Corgi.TrapCode.C119_decode",
    "Corgi.TrapCode.C119_code",
    "Corgi.TrapCode.C119_rows",
    "Corgi.TrapCode.C119_rebuild",
    "Corgi.TrapCode.C119_violated_lost",
    "Corgi.TrapCode.C119_violated_first",
    "Corgi.TrapCode.C119_violated_again"
   ],
   "note": "C119_rows, C119_decode, C119_code, C119_rebuild for all dictionaries with distinct keys and electrodes below ten; refuted: C119_violated_lost (errors and later temperatures), C119_violated_first, C119_violated_again."
  },
  {
   "property": "C120",
   "status": "partial",
   "theorems": [
    "Corgi.TrapTau.C120_decreasing",
    "Corgi.TrapTau.C120_unique",
    "Corgi.TrapTau.C120_one",
    "Corgi.TrapTau.C120_dE",
    "Corgi.TrapTau.C120_dcs",
    "Corgi.TrapTau.C120_sigma_partial",
    "Corgi.TrapTau.C120_violated_covariance",
    "Corgi.TrapTau.C120_larger",
    "Corgi.TrapTau.C120_reported",
    "Corgi.TrapTau.C120_some"
   ],
   "note": "C120_decreasing, C120_unique, C120_one, C120_dE, C120_dcs, C120_larger, C120_reported, C120_some; C120_sigma_partial for independent parameters; refuted: C120_violated_covariance. curve_fit is a parameter."
  },
  {
   "property": "C121",
   "status": "partial",
   "theorems": [
    "Corgi.TrapPrep.C121_scheme",
    "Corgi.TrapPrep.C121_accepted",
    "Corgi.TrapPrep.C121_used_partial",
    "Corgi.TrapPrep.C121_violated_pumps",
    "Corgi.TrapPrep.C121_violated_counts",
    "Corgi.TrapPrep.C121_none"
   ],
   "note": "C121_scheme, C121_none, C121_accepted (exact condition); C121_used_partial with one number of pumps per scheme; refuted: C121_violated_pumps, C121_violated_counts."
  },
  {
   "property": "C122",
   "status": "partial",
   "theorems": [
    "Corgi.TrapPrep.C122_gain_partial",
    "Corgi.TrapPrep.C122_violated_both",
    "Corgi.TrapPrep.C122_median",
    "Corgi.TrapPrep.C122_found",
    "Corgi.TrapPrep.C122_field"
   ],
   "note": "C122_median, C122_found, C122_field; C122_gain_partial for all series but those of the two dipoles of a pixel, which C122_violated_both refutes."
  },
  {
   "property": "C123",
   "status": "partial",
   "theorems": [
    "Corgi.Check.C123_scalar_partial",
    "Corgi.Check.C123_violated_nan",
    "Corgi.Check.C123_positive",
    "Corgi.Check.C123_left_out",
    "Corgi.Check.C123_complex",
    "Corgi.Check.C123_real_array",
    "Corgi.Check.C123_empty",
    "Corgi.Check.C123_never_numeric",
    "Corgi.Check.C123_axes",
    "Corgi.Check.C123_square",
    "Corgi.Check.C123_violated_text",
    "Corgi.Check.C123_axes_partial",
    "Corgi.Check.C123_string",
    "Corgi.Check.C123_boolean",
    "Corgi.Check.C123_dictionary",
    "Corgi.Check.C123_all",
    "Corgi.Check.C123_raises_partial",
    "Corgi.Check.C123_violated_raises",
    "Corgi.Check.C123_arguments",
    "Corgi.Check.C123_first"
   ],
   "note": "C123_scalar_partial for all values but truth values and floats that are not finite, which C123_left_out and C123_positive settle exactly; C123_real_array, C123_axes, C123_square, C123_string, C123_boolean, C123_dictionary are exact; C123_raises_partial, C123_arguments, C123_first. Refuted: C123_violated_nan, C123_violated_text, C123_violated_raises."
  },
  {
   "property": "C124",
   "status": "partial",
   "theorems": [
    "Corgi.Config.C124_keeps",
    "Corgi.Config.C124_idempotent",
    "Corgi.Config.C124_fresh",
    "Corgi.Config.C124_violated_percent",
    "Corgi.Config.C124_legacy_partial",
    "Corgi.Config.C124_violated_legacy",
    "Corgi.Config.C124_violated_lost",
    "Corgi.Config.C124_bool",
    "Corgi.Config.C124_violated_bool",
    "Corgi.Config.C124_update",
    "Corgi.Config.C124_no_file"
   ],
   "note": "C124_keeps, C124_idempotent, C124_fresh, C124_bool, C124_update, C124_no_file; C124_legacy_partial for the database path. Refuted: C124_violated_percent, C124_violated_legacy, C124_violated_lost, C124_violated_bool. The escaped form %% in configuration values is not modelled."
  },
  {
   "property": "C125",
   "status": "partial",
   "theorems": [
    "Corgi.Init.C125_scan_ok",
    "Corgi.Init.C125_scan",
    "Corgi.Init.C125_files",
    "Corgi.Init.C125_nothing",
    "Corgi.Init.C125_violated",
    "Corgi.Init.C125_registered_iff",
    "Corgi.Init.C125_again",
    "Corgi.Init.C125_defaults_good",
    "Corgi.Init.C125_first_run_partial"
   ],
   "note": "C125_scan_ok, C125_scan, C125_files, C125_again; C125_registered_iff gives the exact condition, C125_first_run_partial a first run. Refuted: C125_violated (new database next to existing default files)."
  },
  {
   "property": "C126",
   "status": "partial",
   "theorems": [
    "Corgi.DetParams.C126_param",
    "Corgi.DetParams.C126_loads",
    "Corgi.DetParams.C126_violated_ignored",
    "Corgi.DetParams.C126_violated_docstring",
    "Corgi.DetParams.C126_old_names",
    "Corgi.DetParams.C126_read_iff",
    "Corgi.DetParams.C126_violated_old_file",
    "Corgi.DetParams.C126_hash_partial",
    "Corgi.DetParams.C126_violated_hash"
   ],
   "note": "C126_param, C126_loads, C126_read_iff, C126_old_names; C126_hash_partial for a change of a single parameter. Refuted: C126_violated_ignored, C126_violated_docstring, C126_violated_old_file, C126_violated_hash."
  },
  {
   "property": "C127",
   "status": "partial",
   "theorems": [
    "Corgi.Products.C127_recorded_partial",
    "Corgi.Products.C127_name",
    "Corgi.Products.C127_succeeds_iff",
    "Corgi.Products.C127_violated_kept",
    "Corgi.Products.C127_violated_synthesized",
    "Corgi.Products.C127_no_inputs_iff",
    "Corgi.Products.C127_no_inputs_record",
    "Corgi.Products.C127_no_inputs_name",
    "Corgi.Products.C127_violated_accident",
    "Corgi.Products.C127_violated_nameless"
   ],
   "note": "C127_recorded_partial for all classes but Dark and DetectorNoiseMaps, and for these if the header has no record yet; C127_succeeds_iff, C127_name, C127_no_inputs_iff, C127_no_inputs_record are exact. Refuted: C127_violated_kept, C127_violated_synthesized, C127_violated_accident, C127_violated_nameless."
  },
  {
   "property": "C128",
   "status": "partial",
   "theorems": [
    "Corgi.Names.C128_convention_partial",
    "Corgi.Names.C128_violated_ast",
    "Corgi.Names.C128_synthesized",
    "Corgi.Names.C128_bad_pixels",
    "Corgi.Names.C128_injective",
    "Corgi.Names.C128_level_lost",
    "Corgi.Names.C128_same_name_iff",
    "Corgi.Names.C128_violated_extension"
   ],
   "note": "C128_convention_partial for names of the convention and all classes but the astrometric calibration; C128_injective, C128_synthesized, C128_bad_pixels, C128_level_lost; C128_same_name_iff gives exactly when a product has the name of its input. Refuted: C128_violated_ast, C128_violated_extension."
  },
  {
   "property": "C129",
   "status": "partial",
   "theorems": [
    "Corgi.Image.C129_default_shapes",
    "Corgi.Image.C129_dq_iff",
    "Corgi.Image.C129_err_good_iff",
    "Corgi.Image.C129_err_refused_iff",
    "Corgi.Image.C129_violated_shape",
    "Corgi.Image.C129_discard_partial",
    "Corgi.Image.C129_tracked",
    "Corgi.Image.C129_violated_layers",
    "Corgi.Image.C129_add_named",
    "Corgi.Image.C129_roundtrip",
    "Corgi.Image.C129_roundtrip_again",
    "Corgi.Image.C129_kgain",
    "Corgi.Image.C129_violated_superseded",
    "Corgi.Image.C129_extension",
    "Corgi.Image.C129_extension_refused",
    "Corgi.Image.C129_violated_case",
    "Corgi.Image.C129_path",
    "Corgi.Image.C129_path_bare",
    "Corgi.Image.C129_filepath_partial",
    "Corgi.Image.C129_violated_root"
   ],
   "note": "C129_default_shapes, C129_dq_iff, C129_err_good_iff, C129_err_refused_iff, C129_roundtrip, C129_kgain, C129_extension, C129_path; C129_discard_partial for named layers, C129_filepath_partial outside the root directory. Refuted: C129_violated_shape, C129_violated_layers, C129_violated_superseded, C129_violated_case, C129_violated_root."
  },
  {
   "property": "C130",
   "status": "partial",
   "theorems": [
    "Corgi.Hash.C130_image_partial",
    "Corgi.Hash.C130_image_iff",
    "Corgi.Hash.C130_violated_other",
    "Corgi.Hash.C130_violated_salt"
   ],
   "note": "C130_image_partial and C130_image_iff for the three arrays of images of the same shapes in one process. Refuted: C130_violated_other, C130_violated_salt."
  },
  {
   "property": "C131",
   "status": "partial",
   "theorems": [
    "Corgi.Walker.Templates.C131_levels_iff",
    "Corgi.Walker.Templates.C131_value",
    "Corgi.Walker.Templates.C131_labels",
    "Corgi.Walker.Templates.C131_analog_partial",
    "Corgi.Walker.Templates.C131_violated_photon_counting",
    "Corgi.Walker.Templates.C131_violated_trap_pump",
    "Corgi.Walker.Templates.C131_violated_error_unit",
    "Corgi.Walker.Templates.C131_guessed_runs",
    "Corgi.Walker.Templates.C131_mixed_levels_iff",
    "Corgi.Walker.Templates.C131_reaches_L4",
    "Corgi.Walker.Templates.C131_violated_no_visit_type",
    "Corgi.Walker.Templates.C131_never_guessed",
    "Corgi.Walker.Templates.C131_all_others_guessed"
   ],
   "note": "C131_levels_iff for all 29 templates; C131_value, C131_labels, C131_analog_partial (labels right for the 23 analog routes), C131_guessed_runs, C131_mixed_levels_iff, C131_reaches_L4, C131_never_guessed, C131_all_others_guessed. Refuted: C131_violated_photon_counting, C131_violated_trap_pump, C131_violated_error_unit, C131_violated_no_visit_type."
  },
  {
   "property": "C132",
   "status": "partial",
   "theorems": [
    "Corgi.Walker.Save.C132_named",
    "Corgi.Walker.Save.C132_suffix",
    "Corgi.Walker.Save.C132_no_suffix",
    "Corgi.Walker.Save.C132_same_file_iff",
    "Corgi.Walker.Save.C132_distinct_partial",
    "Corgi.Walker.Save.C132_violated_no_extension",
    "Corgi.Walker.Save.C132_violated_after_extension",
    "Corgi.Walker.Save.C132_violated_case",
    "Corgi.Walker.Save.C132_violated_underscores",
    "Corgi.Walker.Save.C132_template_path_iff",
    "Corgi.Walker.Save.C132_violated_relative"
   ],
   "note": "C132_named, C132_suffix, C132_no_suffix, C132_same_file_iff, C132_template_path_iff; C132_distinct_partial for names with an extension. Refuted: C132_violated_no_extension, C132_violated_after_extension, C132_violated_case, C132_violated_underscores, C132_violated_relative."
  },
  {
   "property": "C133",
   "status": "partial",
   "theorems": [
    "Corgi.Sorting.FrameId.C133_id_iff",
    "Corgi.Sorting.FrameId.C133_violated_level_names",
    "Corgi.Sorting.FrameId.C133_violated_compressed",
    "Corgi.Sorting.FrameId.C133_violated_zeros"
   ],
   "note": "C133_id_iff characterises all names and values. Refuted for the pipeline's own names and uniqueness: C133_violated_level_names, C133_violated_compressed, C133_violated_zeros. Signs and spaces in the number are not modelled."
  },
  {
   "property": "C134",
   "status": "partial",
   "theorems": [
    "Corgi.Ct.Lens.C134_ratio",
    "Corgi.Ct.Lens.C134_between",
    "Corgi.Ct.Lens.C134_table_bounds",
    "Corgi.Ct.Lens.C134_same",
    "Corgi.Ct.Lens.C134_converts_iff",
    "Corgi.Ct.Lens.C134_converts_flat_partial",
    "Corgi.Ct.Lens.C134_converts_grey_partial",
    "Corgi.Ct.Lens.C134_violated_colour",
    "Corgi.Ct.Lens.C134_lookup",
    "Corgi.Ct.Lens.C134_lookup_fails",
    "Corgi.Ct.Lens.C134_shipped",
    "Corgi.Ct.Lens.C134_violated_version",
    "Corgi.Ct.Lens.C134_violated_flux_version"
   ],
   "note": "C134_ratio, C134_between, C134_table_bounds, C134_same, C134_converts_iff, C134_lookup, C134_lookup_fails, C134_shipped; C134_converts_flat_partial for flat sources, C134_converts_grey_partial for lenses of constant ratio. Refuted: C134_violated_colour, C134_violated_version, C134_violated_flux_version."
  },
  {
   "property": "C135",
   "status": "partial",
   "theorems": [
    "Corgi.ReadNoise.C135_cost",
    "Corgi.ReadNoise.C135_square",
    "Corgi.ReadNoise.C135_one_frame_iff",
    "Corgi.ReadNoise.C135_pattern",
    "Corgi.ReadNoise.C135_offset",
    "Corgi.ReadNoise.C135_swap",
    "Corgi.ReadNoise.C135_single",
    "Corgi.ReadNoise.C135_total",
    "Corgi.ReadNoise.C135_whole",
    "Corgi.ReadNoise.C135_violated_last",
    "Corgi.ReadNoise.C135_violated_sign",
    "Corgi.ReadNoise.C135_unique",
    "Corgi.ReadNoise.C135_params_iff",
    "Corgi.ReadNoise.C135_missing_iff",
    "Corgi.ReadNoise.C135_range_iff",
    "Corgi.ReadNoise.C135_violated_types",
    "Corgi.ReadNoise.C135_violated_numpy"
   ],
   "note": "C135_square, C135_one_frame_iff, C135_pattern, C135_offset, C135_swap, C135_single, C135_total, C135_whole, C135_unique, C135_params_iff, C135_missing_iff. Refuted: C135_violated_last, C135_violated_sign, C135_violated_types, C135_violated_numpy. Convergence of curve_fit is not modelled."
  },
  {
   "property": "C136",
   "status": "partial",
   "theorems": [
    "Corgi.CompPhot.C136_counts",
    "Corgi.CompPhot.C136_counts_iff",
    "Corgi.CompPhot.C136_scale",
    "Corgi.CompPhot.C136_ratio",
    "Corgi.CompPhot.C136_background",
    "Corgi.CompPhot.C136_ring_iff",
    "Corgi.CompPhot.C136_bad_ignored",
    "Corgi.CompPhot.C136_violated_overlap",
    "Corgi.CompPhot.C136_violated_wings",
    "Corgi.CompPhot.C136_rows_iff",
    "Corgi.CompPhot.C136_violated_method",
    "Corgi.CompPhot.C136_violated_unchecked",
    "Corgi.CompPhot.C136_violated_error",
    "Corgi.CompPhot.C136_violated_extensions"
   ],
   "note": "C136_counts, C136_counts_iff, C136_scale, C136_ratio, C136_background, C136_bad_ignored, C136_rows_iff. Refuted: C136_violated_overlap, C136_violated_wings, C136_violated_method, C136_violated_unchecked, C136_violated_error, C136_violated_extensions."
  },
  {
   "property": "C137",
   "status": "partial",
   "theorems": [
    "Corgi.Distortion.C137_pair_iff",
    "Corgi.Distortion.C137_cost_iff",
    "Corgi.Distortion.C137_violated_reflection",
    "Corgi.Distortion.C137_violated_shift",
    "Corgi.Distortion.C137_violated_north",
    "Corgi.Distortion.C137_weights",
    "Corgi.Distortion.C137_same_polynomials",
    "Corgi.Distortion.C137_displacements",
    "Corgi.Distortion.C137_starts_iff",
    "Corgi.Distortion.C137_default_starts_partial",
    "Corgi.Distortion.C137_undistorted",
    "Corgi.Distortion.C137_frames_iff",
    "Corgi.Distortion.C137_violated_combined",
    "Corgi.Distortion.C137_pairs_partial"
   ],
   "note": "C137_pair_iff, C137_cost_iff (zero cost means separations up to sign), C137_displacements, C137_weights, C137_same_polynomials, C137_starts_iff, C137_undistorted, C137_frames_iff; C137_default_starts_partial, C137_pairs_partial. Refuted: C137_violated_reflection, C137_violated_shift, C137_violated_north (coefficients not determined by the cost), C137_violated_combined (combined frames raise an IndexError). Convergence of the optimiser is not modelled."
  },
  {
   "property": "C138",
   "status": "partial",
   "theorems": [
    "Corgi.SnMap.C138_no_mask",
    "Corgi.SnMap.C138_radius_iff",
    "Corgi.SnMap.C138_radius_zero",
    "Corgi.SnMap.C138_violated_blank",
    "Corgi.SnMap.C138_radius_mono",
    "Corgi.SnMap.C138_violated_cube",
    "Corgi.SnMap.C138_scale_bounds",
    "Corgi.SnMap.C138_exact_partial",
    "Corgi.SnMap.C138_violated_background",
    "Corgi.SnMap.C138_finite",
    "Corgi.SnMap.C138_homogeneous",
    "Corgi.SnMap.C138_window",
    "Corgi.SnMap.C138_outside",
    "Corgi.SnMap.C138_removes",
    "Corgi.SnMap.C138_terminates_partial",
    "Corgi.SnMap.C138_map_needed",
    "Corgi.SnMap.C138_card",
    "Corgi.SnMap.C138_names",
    "Corgi.SnMap.C138_name_length",
    "Corgi.SnMap.C138_cards_partial",
    "Corgi.SnMap.C138_violated_stale"
   ],
   "note": "C138_radius_iff, C138_radius_zero, C138_radius_mono, C138_scale_bounds, C138_finite, C138_homogeneous, C138_window, C138_outside, C138_removes, C138_card, C138_names; C138_exact_partial without background, C138_terminates_partial for maps that are NaN where the image is (C138_map_needed), C138_cards_partial for headers without earlier cards. Refuted: C138_violated_blank, C138_violated_cube, C138_violated_background, C138_violated_stale. The S/N map of pyKLIP is a parameter."
  },
  {
   "property": "C139",
   "status": "partial",
   "theorems": [
    "Corgi.NdInterp.C139_value",
    "Corgi.NdInterp.C139_finite_iff",
    "Corgi.NdInterp.C139_measured",
    "Corgi.NdInterp.C139_linear",
    "Corgi.NdInterp.C139_between",
    "Corgi.NdInterp.C139_method_ignored",
    "Corgi.NdInterp.C139_violated_line",
    "Corgi.NdInterp.C139_violated_nearest",
    "Corgi.NdInterp.C139_violated_outside",
    "Corgi.NdInterp.C139_query_iff",
    "Corgi.NdInterp.C139_violated_single",
    "Corgi.NdInterp.C139_split_partial",
    "Corgi.NdInterp.C139_violated_fallback"
   ],
   "note": "C139_value, C139_finite_iff, C139_measured, C139_linear, C139_between, C139_method_ignored, C139_query_iff; C139_split_partial if every frame has FPAMNAME. Refuted: C139_violated_line, C139_violated_nearest, C139_violated_outside, C139_violated_single, C139_violated_fallback. The Delaunay triangulation of scipy is a parameter with the properties of a triangulation."
  },
  {
   "property": "C140",
   "status": "partial",
   "theorems": [
    "Corgi.Moment.C140_scale",
    "Corgi.Moment.C140_pixel",
    "Corgi.Moment.C140_mixture",
    "Corgi.Moment.C140_uniform",
    "Corgi.Moment.C140_violated_background",
    "Corgi.Moment.C140_inside_partial",
    "Corgi.Moment.C140_violated_outside",
    "Corgi.Moment.C140_violated_blank",
    "Corgi.Moment.C140_bias_cancels"
   ],
   "note": "C140_scale, C140_pixel, C140_mixture, C140_uniform, C140_bias_cancels; C140_inside_partial for images without negative pixels. Refuted: C140_violated_background (moved towards the middle by the share of the background), C140_violated_outside, C140_violated_blank."
  },
  {
   "property": "C141",
   "status": "partial",
   "theorems": [
    "Corgi.CompCards.C141_read",
    "Corgi.CompCards.C141_update",
    "Corgi.CompCards.C141_search_cards",
    "Corgi.CompCards.C141_whole",
    "Corgi.CompCards.C141_near",
    "Corgi.CompCards.C141_fails",
    "Corgi.CompCards.C141_fixed_iff",
    "Corgi.CompCards.C141_violated_at_host",
    "Corgi.CompCards.C141_violated_outside",
    "Corgi.CompCards.C141_violated_twice"
   ],
   "note": "C141_read, C141_update, C141_search_cards, C141_whole, C141_near, C141_fails, C141_fixed_iff (cards follow the crop exactly for stars between pixels 511 and 512). Refuted: C141_violated_at_host, C141_violated_outside, C141_violated_twice."
  },
  {
   "property": "C142",
   "status": "partial",
   "theorems": [
    "Corgi.Csv.C142_roundtrip",
    "Corgi.Csv.C142_injective",
    "Corgi.Csv.C142_text_partial",
    "Corgi.Csv.C142_violated_empty",
    "Corgi.Csv.C142_path",
    "Corgi.Csv.C142_load",
    "Corgi.Csv.C142_new",
    "Corgi.Csv.C142_open",
    "Corgi.Csv.C142_row_iff",
    "Corgi.Csv.C142_violated_empty_file"
   ],
   "note": "C142_roundtrip, C142_injective, C142_load, C142_open, C142_new, C142_path, C142_row_iff; C142_text_partial for texts that are not names of NaN. Refuted: C142_violated_empty (empty texts come back as NaN), C142_violated_empty_file. Conversion of numbers is not modelled."
  },
  {
   "property": "C143",
   "status": "partial",
   "theorems": [
    "Corgi.Calspec.C143_table",
    "Corgi.Calspec.C143_name",
    "Corgi.Calspec.C143_distinct",
    "Corgi.Calspec.C143_unknown",
    "Corgi.Calspec.C143_unknown_disk",
    "Corgi.Calspec.C143_ok_iff",
    "Corgi.Calspec.C143_full",
    "Corgi.Calspec.C143_content_partial",
    "Corgi.Calspec.C143_others",
    "Corgi.Calspec.C143_violated_offline",
    "Corgi.Calspec.C143_violated_truncated",
    "Corgi.Calspec.C143_violated_message",
    "Corgi.Calspec.C143_repeat"
   ],
   "note": "C143_table, C143_name, C143_distinct, C143_unknown, C143_unknown_disk, C143_ok_iff, C143_full, C143_others, C143_repeat; C143_content_partial unless a loss goes unnoticed. Refuted: C143_violated_offline, C143_violated_truncated, C143_violated_message."
  },
  {
   "property": "C144",
   "status": "proved",
   "theorems": [
    "Corgi.EndToEnd.C144_l2a",
    "Corgi.EndToEnd.C144_electrons",
    "Corgi.EndToEnd.C144_desmear",
    "Corgi.EndToEnd.C144_l2b",
    "Corgi.EndToEnd.C144_full",
    "Corgi.EndToEnd.C144_scene",
    "Corgi.EndToEnd.C144_rate",
    "Corgi.EndToEnd.C144_maps",
    "Corgi.EndToEnd.C144_order",
    "Corgi.EndToEnd.C144_exposes"
   ],
   "note": "C144_scene, C144_rate, C144_full, C144_l2a, C144_electrons, C144_desmear, C144_l2b, C144_maps, C144_order, C144_exposes. Detection of cosmic rays, frame selection, photon noise, CTI (does nothing) and bad pixels leave the values of unflagged pixels of kept frames and are not composed."
  },
  {
   "property": "C145",
   "status": "partial",
   "theorems": [
    "Corgi.ToFlux.C145_converted",
    "Corgi.ToFlux.C145_accepts_iff",
    "Corgi.ToFlux.C145_relative",
    "Corgi.ToFlux.C145_layers",
    "Corgi.ToFlux.C145_violated_colour_iff",
    "Corgi.ToFlux.C145_violated_twice",
    "Corgi.ToFlux.C145_violated_cube",
    "Corgi.ToFlux.C145_stack_iff"
   ],
   "note": "C145_converted, C145_accepts_iff, C145_relative, C145_layers, C145_stack_iff. Refuted: C145_violated_colour_iff, C145_violated_cube, C145_violated_twice."
  },
  {
   "property": "C146",
   "status": "partial",
   "theorems": [
    "Corgi.Format.C146_nonlin_iff",
    "Corgi.Format.C146_violated_nonlin",
    "Corgi.Format.C146_noise_maps_iff",
    "Corgi.Format.C146_astrom_iff",
    "Corgi.Format.C146_astrom_fields",
    "Corgi.Format.C146_distortion_iff",
    "Corgi.Format.C146_violated_length",
    "Corgi.Format.C146_astrom_length",
    "Corgi.Format.C146_one_value_iff",
    "Corgi.Format.C146_nd_name",
    "Corgi.Format.C146_filter_accepts_iff",
    "Corgi.Format.C146_violated_filter_iff",
    "Corgi.Format.C146_matrices_iff",
    "Corgi.Format.C146_matrices",
    "Corgi.Format.C146_core_throughput_iff",
    "Corgi.Format.C146_violated_errors",
    "Corgi.Format.C146_sweet_spot_iff"
   ],
   "note": "C146_nonlin_iff, C146_noise_maps_iff, C146_astrom_iff, C146_distortion_iff, C146_astrom_length, C146_one_value_iff, C146_filter_accepts_iff, C146_matrices, C146_core_throughput_iff, C146_sweet_spot_iff. Refuted: C146_violated_nonlin, C146_violated_length, C146_violated_errors, C146_violated_filter_iff."
  },
  {
   "property": "C147",
   "status": "partial",
   "theorems": [
    "Corgi.EndToEnd.C147_total_partial",
    "Corgi.EndToEnd.C147_runs",
    "Corgi.EndToEnd.C147_values",
    "Corgi.EndToEnd.C147_pixel",
    "Corgi.EndToEnd.C147_violated_nan_iff",
    "Corgi.EndToEnd.C147_photon_iff",
    "Corgi.EndToEnd.C147_violated_nonlin",
    "Corgi.EndToEnd.C147_l2a",
    "Corgi.EndToEnd.C147_violated_desmear",
    "Corgi.EndToEnd.C147_desmear_iff"
   ],
   "note": "C147_total_partial (pixels that are not negative, frames of one gain), C147_runs, C147_values, C147_pixel, C147_l2a, C147_photon_iff, C147_desmear_iff. Refuted: C147_violated_nan_iff, C147_violated_nonlin, C147_violated_desmear."
  },
  {
   "property": "C148",
   "status": "partial",
   "theorems": [
    "Corgi.Mags.C148_file",
    "Corgi.Mags.C148_star_iff",
    "Corgi.Mags.C148_violated_case",
    "Corgi.Mags.C148_app_mag",
    "Corgi.Mags.C148_accepts_iff",
    "Corgi.Mags.C148_image",
    "Corgi.Mags.C148_scale",
    "Corgi.Mags.C148_violated_type",
    "Corgi.Mags.C148_color",
    "Corgi.Mags.C148_color_accepts_iff",
    "Corgi.Mags.C148_violated_color",
    "Corgi.Mags.C148_color_same",
    "Corgi.Mags.C148_method_iff",
    "Corgi.Mags.C148_violated_wcs"
   ],
   "note": "C148_app_mag, C148_accepts_iff, C148_image, C148_scale, C148_file, C148_star_iff, C148_color, C148_color_accepts_iff, C148_color_same, C148_method_iff. Refuted: C148_violated_color, C148_violated_case, C148_violated_type, C148_violated_wcs."
  },
  {
   "property": "C149",
   "status": "partial",
   "theorems": [
    "Corgi.Kernel.C149_centre",
    "Corgi.Kernel.C149_violated_size",
    "Corgi.Kernel.C149_violated_centre",
    "Corgi.Kernel.C149_zero_iff",
    "Corgi.Kernel.C149_symmetric",
    "Corgi.Kernel.C149_hard_partial",
    "Corgi.Kernel.C149_violated_narrow",
    "Corgi.Kernel.C149_nonzero_iff",
    "Corgi.Kernel.C149_violated_radius",
    "Corgi.Kernel.C149_gauss",
    "Corgi.Kernel.C149_gauss_width"
   ],
   "note": "C149_hard_partial (widths of two and more), C149_nonzero_iff, C149_centre, C149_zero_iff, C149_symmetric, C149_gauss, C149_gauss_width. Refuted: C149_violated_size, C149_violated_centre, C149_violated_narrow, C149_violated_radius."
  },
  {
   "property": "C150",
   "status": "partial",
   "theorems": [
    "Corgi.Pc.C150_concave",
    "Corgi.Pc.C150_step_below",
    "Corgi.Pc.C150_step_up_iff",
    "Corgi.Pc.C150_start",
    "Corgi.Pc.C150_converges",
    "Corgi.Pc.C150_violated_below",
    "Corgi.Pc.C150_violated_saturated",
    "Corgi.Pc.C150_first",
    "Corgi.Pc.C150_image_low",
    "Corgi.Pc.C150_limit",
    "Corgi.Pc.C150_no_threshold",
    "Corgi.Pc.C150_image_iff",
    "Corgi.Pc.C150_violated_between",
    "Corgi.Pc.C150_violated_exists"
   ],
   "note": "The detection probability is concave in the flux for thresholds up to the gain (C150_concave), so a step never passes the solution (C150_step_below), the results rise with the number of iterations and converge to it (C150_converges); no finite number of steps reaches it (C150_violated_below). Saturated pixels diverge without error (C150_violated_saturated). C150_first and C150_image_low: up to 86 per cent of corrected detections no image raises. C150_limit: for every positive threshold up to the gain one limit between 86 and 100 per cent divides the pixels whose first iteration is negative from the others; C150_image_iff: images raise for no number of iterations exactly if no pixel that counts lies between the limit and 100 per cent; C150_violated_between and C150_violated_exists: pixels in between have a flux that explains them and still raise. Partial because the claim itself is refuted there and for saturated pixels."
  },
  {
   "property": "C151",
   "status": "partial",
   "theorems": [
    "Corgi.Pc.C151_accepted_iff",
    "Corgi.Pc.C151_subtract",
    "Corgi.Pc.C151_clip",
    "Corgi.Pc.C151_limit",
    "Corgi.Pc.C151_violated_settings",
    "Corgi.Pc.C151_violated_time"
   ],
   "note": "Acceptance is characterised (C151_accepted_iff), the result is the clipped difference (C151_subtract, C151_clip) and tends to the difference of the two fluxes (C151_limit). The headline fails for the settings: C151_violated_settings (output of the dark run does not depend on exposure time and conversion gain), C151_violated_time (effect on the limit)."
  },
  {
   "property": "C152",
   "status": "partial",
   "theorems": [
    "Corgi.CalDB.C152_blind",
    "Corgi.CalDB.C152_violated_dark",
    "Corgi.CalDB.C152_violated_pc",
    "Corgi.CalDB.C152_dark_partial"
   ],
   "note": "Refuted by C152_violated_dark and C152_violated_pc (the latter an equivalence, and the case of the shipped photon-counting recipes); C152_blind shows which columns the choice depends on; C152_dark_partial: works if all darks of the exposure time fit."
  },
  {
   "property": "C153",
   "status": "partial",
   "theorems": [
    "Corgi.StarCenter.C153_mask",
    "Corgi.StarCenter.C153_greatest",
    "Corgi.StarCenter.C153_symmetric",
    "Corgi.StarCenter.C153_star",
    "Corgi.StarCenter.C153_doubled",
    "Corgi.StarCenter.C153_violated_sharp",
    "Corgi.StarCenter.C153_violated_overlap"
   ],
   "note": "Refuted for overlapping regions (C153_violated_overlap) and for spots smaller than the regions by more than the offsets tried (C153_violated_sharp). C153_mask, C153_greatest, C153_symmetric and C153_star hold for all images without assuming that the energy is a paraboloid; convergence from a wrong guess is only known for paraboloids (C95)."
  },
  {
   "property": "C154",
   "status": "partial",
   "theorems": [
    "Corgi.EndToEnd.C154_flux",
    "Corgi.EndToEnd.C154_right",
    "Corgi.EndToEnd.C154_right_iff",
    "Corgi.EndToEnd.C154_violated_nd",
    "Corgi.EndToEnd.C154_color"
   ],
   "note": "Composition of C144 (raw counts to rates), C66/C67 (band fluxes) and the photometry: C154_flux gives the general formula, C154_right the exact flux and magnitude, C154_color the colour correction, C154_right_iff when the flux is right, C154_violated_nd the neutral density filter. Weights of the pixels, the flags and the local background are inputs; no noise."
  },
  {
   "property": "C155",
   "status": "partial",
   "theorems": [
    "Corgi.Astrom.C155_pairs",
    "Corgi.Astrom.C155_sampled_iff",
    "Corgi.Astrom.C155_scale",
    "Corgi.Astrom.C155_north",
    "Corgi.Astrom.C155_field",
    "Corgi.Astrom.C155_between",
    "Corgi.Astrom.C155_used_iff",
    "Corgi.Astrom.C155_violated_crop",
    "Corgi.Astrom.C155_violated_empty",
    "Corgi.Astrom.C155_violated_single",
    "Corgi.Astrom.C155_reproducible",
    "Corgi.Astrom.C155_violated_random"
   ],
   "note": "C155_field (scale and rotation exact), C155_between (bounds with errors), C155_pairs (agreement with C88) and C155_used_iff are proved; the documented meaning of center_radius is refuted (C155_violated_crop, _empty, _single). Up to 20 stars the result does not depend on the random draw (C155_reproducible), with more it does (C155_violated_random). The sky is flat; offsets and positions are inputs (C140, C93)."
  },
  {
   "property": "C156",
   "status": "partial",
   "theorems": [
    "Corgi.StarCenter.C156_least",
    "Corgi.StarCenter.C156_best",
    "Corgi.StarCenter.C156_truth",
    "Corgi.StarCenter.C156_flat",
    "Corgi.StarCenter.C156_generic",
    "Corgi.StarCenter.C156_violated_gradient"
   ],
   "note": "The second half is refuted for minimisers that stop where finite differences vanish: the cost is a step function, so for every image and all radii but finitely many they return the guess when their step is small enough (C156_violated_gradient; C156_flat, C156_generic). Proved for minimisers that find a minimum if there is one: there is one (C156_least) and its regions hold the most light within the bounds (C156_best), all of the star's if it is within the bounds and regions do not overlap (C156_truth). scipy itself is not modelled."
  },
  {
   "property": "C157",
   "status": "partial",
   "theorems": [
    "Corgi.CalDB.C157_new_iff",
    "Corgi.CalDB.C157_own_iff",
    "Corgi.CalDB.C157_flat_iff",
    "Corgi.CalDB.C157_violated_remade",
    "Corgi.CalDB.C157_newest_iff",
    "Corgi.CalDB.C157_in_place",
    "Corgi.CalDB.C157_other_type"
   ],
   "note": "Refuted: of two calibrations with the same date the one registered first is always chosen, so one made again under another name is never used for a frame (C157_violated_remade); exact conditions in C157_new_iff, C157_own_iff and, for the flat recipe, C157_flat_iff. Proved: made again under the same name it is replaced in place and found (C157_in_place), without a frame the newest is chosen (C157_newest_iff), other types are not affected (C157_other_type). That SCTSRT is kept from the raw frames is read from the code, not part of the model."
  },
  {
   "property": "C158",
   "status": "partial",
   "theorems": [
    "Corgi.SkyToImage.C158_found",
    "Corgi.SkyToImage.C158_right_iff",
    "Corgi.SkyToImage.C158_measured",
    "Corgi.SkyToImage.C158_wcs",
    "Corgi.SkyToImage.C158_wcs_north",
    "Corgi.SkyToImage.C158_average",
    "Corgi.SkyToImage.C158_end_to_end",
    "Corgi.SkyToImage.C158_violated_roll",
    "Corgi.SkyToImage.C158_violated_self",
    "Corgi.SkyToImage.C158_violated_centre",
    "Corgi.SkyToImage.C158_violated_no_wcs"
   ],
   "note": "Refuted: the roll of the calibration frames stays in the north angle and create_wcs adds the roll of the target to it, so every position angle is off by the mean roll of the calibration frames; right exactly if that is a whole number of turns (C158_violated_roll, C158_violated_self). With the default centre of northup or without WCS there are further exact conditions (C158_violated_centre, C158_violated_no_wcs). Proved: with the right north angle, for all rolls of the target, object, separation and position angle are found where they are, in pixels and by WCS, before and after northup (C158_found, C158_right_iff, C158_measured, C158_wcs, C158_wcs_north)."
  },
  {
   "property": "C159",
   "status": "partial",
   "theorems": [
    "Corgi.Walker.C159_run",
    "Corgi.Walker.C159_products",
    "Corgi.Walker.C159_names",
    "Corgi.Walker.C159_card",
    "Corgi.Walker.C159_again",
    "Corgi.Walker.C159_violated_again",
    "Corgi.Walker.C159_early",
    "Corgi.Walker.C159_violated_bad_pixels",
    "Corgi.Walker.C159_violated_file",
    "Corgi.Walker.C159_violated_path",
    "Corgi.Walker.C159_violated_skip"
   ],
   "note": "Refuted for bad pixel maps (C159_violated_bad_pixels), for the recipe file (C159_violated_file), for steps marked just in time (C159_violated_skip), for paths that contain the word automatic (C159_violated_path), and for running a recorded recipe just in time: C159_violated_again gives the exact condition. Proved: the records do not change the run (C159_run), C159_names for every product, C159_card, C159_early, and C159_again for recipes whose steps had all their calibrations. json and FITS are taken to return what was written."
  },
  {
   "property": "C160",
   "status": "partial",
   "theorems": [
    "Corgi.Csv.C160_prefix",
    "Corgi.Csv.C160_left",
    "Corgi.Csv.C160_whole_iff",
    "Corgi.Csv.C160_safe_iff",
    "Corgi.Csv.C160_violated_start",
    "Corgi.Csv.C160_opens_iff",
    "Corgi.Csv.C160_columns",
    "Corgi.Csv.C160_violated_value",
    "Corgi.Csv.C160_violated_unreadable"
   ],
   "note": "Refuted: C160_violated_start, C160_violated_value, C160_violated_unreadable. What is left is given exactly for every place of the interruption (C160_prefix, C160_left), with exact conditions for a whole table (C160_whole_iff), for the table before or after a row is added (C160_safe_iff) and for opening a file with a cut row (C160_opens_iff). That the file is a beginning of the text after an interruption, and that pandas fills short rows with NaN and refuses NaN in integer columns, is assumed; quoted fields are left out."
  },
  {
   "property": "C161",
   "status": "partial",
   "theorems": [
    "Corgi.Fl.C161_desmear",
    "Corgi.Fl.C161_desmear_float64",
    "Corgi.Fl.C161_stable",
    "Corgi.Fl.C161_violated_integers",
    "Corgi.Fl.C161_violated_integers_exists",
    "Corgi.Fl.C161_pixel",
    "Corgi.Fl.C161_pixel_float64"
   ],
   "note": "Proved for floats (C161_desmear, C161_desmear_float64, C161_pixel, C161_pixel_float64, C161_stable), refuted for frames of integers (C161_violated_integers, C161_violated_integers_exists). Overflow and underflow are left out; the power function is assumed to be good to a given number of roundings (four in the float64 theorem)."
  },
  {
   "property": "C162",
   "status": "partial",
   "theorems": [
    "Corgi.Fl.C162_sum",
    "Corgi.Fl.C162_depth",
    "Corgi.Fl.C162_positive",
    "Corgi.Fl.C162_order",
    "Corgi.Fl.C162_mean",
    "Corgi.Fl.C162_mean_error",
    "Corgi.Fl.C162_quadrature",
    "Corgi.Fl.C162_counts",
    "Corgi.Fl.C162_violated_order",
    "Corgi.Fl.C162_violated_relative"
   ],
   "note": "Bounds proved for every order of addition (C162_sum, C162_depth, C162_positive, C162_order, C162_mean, C162_mean_error, C162_quadrature, C162_counts); equality of two orders and a bound of the relative error for values of both signs are refuted (C162_violated_order, C162_violated_relative). Overflow and underflow are left out."
  },
  {
   "property": "C163",
   "status": "partial",
   "theorems": [
    "Corgi.Pc.C163_tail",
    "Corgi.Pc.C163_probability",
    "Corgi.Pc.C163_violated_bias",
    "Corgi.Pc.C163_root",
    "Corgi.Pc.C163_default",
    "Corgi.Pc.C163_guess",
    "Corgi.Pc.C163_violated_guess"
   ],
   "note": "headline refuted: C163_violated_bias for every l > 0, with bounds; C163_root and C163_default bound the bias"
  },
  {
   "property": "C164",
   "status": "partial",
   "theorems": [
    "Corgi.Prob.C164_independent",
    "Corgi.Prob.C164_dark",
    "Corgi.Prob.C164_violated_dark_iff",
    "Corgi.Prob.C164_violated_many",
    "Corgi.Prob.C164_gain",
    "Corgi.Prob.C164_gain_one",
    "Corgi.Prob.C164_violated_median"
   ],
   "note": "true for uncorrelated frames (C164_independent); refuted for a common dark (C164_violated_dark_iff, C164_violated_many), a common gain (C164_gain) and the median of one or two frames (C164_violated_median). Medians of more than two frames not covered"
  },
  {
   "property": "C165",
   "status": "partial",
   "theorems": [
    "Corgi.CompTable.C165_mode",
    "Corgi.CompTable.C165_at",
    "Corgi.CompTable.C165_between",
    "Corgi.CompTable.C165_separation",
    "Corgi.CompTable.C165_outside",
    "Corgi.CompTable.C165_rows",
    "Corgi.CompTable.C165_violated_place",
    "Corgi.CompTable.C165_ratio",
    "Corgi.CompTable.C165_exact_partial",
    "Corgi.CompTable.C165_violated_inside",
    "Corgi.CompTable.C165_violated_zero_point"
   ],
   "note": "rows, modes and interpolation proved; refuted: place (C165_violated_place), inside the first separation (C165_violated_inside), magnitude from a zero point (C165_violated_zero_point); thrp_corr None is in C136"
  },
  {
   "property": "C166",
   "status": "partial",
   "theorems": [
    "Corgi.Order.C166_combine",
    "Corgi.Order.C166_violated_name",
    "Corgi.Order.C166_dark",
    "Corgi.Order.C166_pc",
    "Corgi.Order.C166_violated_pc",
    "Corgi.Order.C166_dark_subtraction",
    "Corgi.Order.C166_violated_dark_subtraction",
    "Corgi.Order.C166_flat",
    "Corgi.Order.C166_nonlin",
    "Corgi.Order.C166_violated_kgain"
   ],
   "note": "combined images, traditional darks, flat pixels, nonlinearity stacks and photon-counted bins with equal first headers proved; refuted: name and headers (C166_violated_name), photon counting (C166_violated_pc), dark subtraction (C166_violated_dark_subtraction), k-gain stacks (C166_violated_kgain); on-sky flats are in C63, sums in floats in C162"
  },
  {
   "property": "C167",
   "status": "partial",
   "theorems": [
    "Corgi.Twice.C167_upgrade",
    "Corgi.Twice.C167_bias_cut",
    "Corgi.Twice.C167_bias_full",
    "Corgi.Twice.C167_frame_select",
    "Corgi.Twice.C167_flags",
    "Corgi.Twice.C167_crop",
    "Corgi.Twice.C167_northup_wcs",
    "Corgi.Twice.C167_northup_again",
    "Corgi.Twice.C167_violated_northup_roll",
    "Corgi.Twice.C167_violated_desmear",
    "Corgi.Twice.C167_violated_dark_accepted",
    "Corgi.Twice.C167_violated_dark",
    "Corgi.Twice.C167_violated_flat",
    "Corgi.Twice.C167_violated_electrons",
    "Corgi.Twice.C167_violated_emgain",
    "Corgi.Twice.C167_violated_exptime",
    "Corgi.Twice.C167_violated_exptime_accepted",
    "Corgi.Twice.C167_violated_photon_noise",
    "Corgi.Twice.C167_violated_crop",
    "Corgi.Twice.C167_templates"
   ],
   "note": "Refused: level upgrades, bias subtraction of a cut-out image. Unchanged: bias subtraction of the full frame, frame selection, flags, rotation by the WCS. Crop: unchanged or refused, exact condition. Violated, with exact conditions: dark, flat, k gain, EM gain, exposure time, photon noise, desmear, rotation by roll. Not covered: nonlinearity, cosmic rays, distortion, star finding, PSF subtraction (flux conversion is in C145)."
  },
  {
   "property": "C168",
   "status": "partial",
   "theorems": [
    "Corgi.ProbPtc.C168_difference",
    "Corgi.ProbPtc.C168_mean",
    "Corgi.ProbPtc.C168_noise",
    "Corgi.ProbPtc.C168_single",
    "Corgi.ProbPtc.C168_read_noise",
    "Corgi.ProbPtc.C168_violated_shot",
    "Corgi.ProbPtc.C168_violated_gain",
    "Corgi.ProbPtc.C168_many",
    "Corgi.ProbPtc.C168_violated_one",
    "Corgi.ProbPtc.C168_violated_drift",
    "Corgi.ProbPtc.C168_violated_em_gain",
    "Corgi.ProbPtc.C168_violated_deviations"
   ],
   "note": "Proved: the expectations of local mean, of the squared noise of two frames with any means, of one frame, and of the squared read noise; the pattern cancels; the gain tends to K with many pixels; Poisson frames with read noise exist for all parameters. Refuted: noise with ddof=0 and read noise with ddof=1, so the gain is too large by m L / ((m-1) L - K^2 r^2); a bin of one pixel gives mean / rn^2; a drift of the lamp adds the spread of the pattern; EM gain gives K / (F2 g), or K / F2 if divided; averaging deviations instead of variances makes the gain larger unless all are equal. Missing: the clipping and the mode of the gains as random variables."
  },
  {
   "property": "C169",
   "status": "partial",
   "theorems": [
    "Corgi.ProbMaps.C169_unbiased",
    "Corgi.ProbMaps.C169_covariance",
    "Corgi.ProbMaps.C169_equal",
    "Corgi.ProbMaps.C169_sigma2",
    "Corgi.ProbMaps.C169_sigma2_equal",
    "Corgi.ProbMaps.C169_std_equal",
    "Corgi.ProbMaps.C169_std_iff",
    "Corgi.ProbMaps.C169_violated_cic",
    "Corgi.ProbMaps.C169_violated_cic_grows",
    "Corgi.ProbMaps.C169_dark",
    "Corgi.ProbMaps.C169_violated_dark",
    "Corgi.ProbMaps.C169_dark_bound",
    "Corgi.ProbMaps.C169_violated_clip",
    "Corgi.ProbMaps.C169_violated_unequal"
   ],
   "note": "Proved: unbiasedness for all variances; the covariances of the maps; the expected sigma2_frame for all variances; right errors of F, and of C and D before what follows, for equal variances, with an exact condition for unequal ones; the variance of the dark with its covariances, and that it is not above that of the sub-stack of the same setting. Refuted: for unequal variances the error of D is wrong (exact condition for four sub-stacks); the error of C contains stacks_err again, sqrt(M) times the variance; the dark adds errors of correlated maps in quadrature (exact condition); setting negative values to zero biases the map unless they have probability zero."
  },
  {
   "property": "C170",
   "status": "partial",
   "theorems": [
    "Corgi.ProbAper.C170_mean",
    "Corgi.ProbAper.C170_mean_background",
    "Corgi.ProbAper.C170_unbiased",
    "Corgi.ProbAper.C170_violated_flagged",
    "Corgi.ProbAper.C170_variance",
    "Corgi.ProbAper.C170_at_least",
    "Corgi.ProbAper.C170_iff",
    "Corgi.ProbAper.C170_violated_edge",
    "Corgi.ProbAper.C170_variance_background",
    "Corgi.ProbAper.C170_background_iff",
    "Corgi.ProbAper.C170_violated_background",
    "Corgi.ProbAper.C170_ring",
    "Corgi.ProbAper.C170_linear_background",
    "Corgi.ProbAper.C170_violated_overlap",
    "Corgi.ProbAper.C170_violated_frames",
    "Corgi.ProbAper.C170_product",
    "Corgi.ProbAper.C170_factor_bias",
    "Corgi.ProbAper.C170_violated_factor",
    "Corgi.ProbAper.C170_violated_self"
   ],
   "note": "Proved: the exact mean with and without background, right if nothing is flagged; the exact variance for known, uncorrelated and linear backgrounds; the error is never too small for a known background and right exactly if no noisy pixel is cut by the edge. Refuted: flagged pixels lose light; cut pixels count with their weight instead of its square; a measured background adds nothing to the error (exact condition; factor 1 + k/m for k pixels and the mean of a ring of m); several frames do not reduce the error; the factor is too large on average unless the sum is constant; the standard star itself gets exactly its catalogue flux. The median of the ring itself and the centring are not modelled."
  },
  {
   "property": "C171",
   "status": "partial",
   "theorems": [
    "Corgi.Forward.C171_back",
    "Corgi.Forward.C171_error",
    "Corgi.Forward.C171_violated_first",
    "Corgi.Forward.C171_violated_front",
    "Corgi.Forward.C171_violated_core",
    "Corgi.Forward.C171_fails"
   ],
   "note": "Proved for indices from the back, as the default -1 (C171_back), with the error of taking the nearest separation (C171_error), and the exact condition of failure (C171_fails). Refuted: KL_THRU has the separations as first row, which is not skipped, so index 0 returns a separation (C171_violated_first) and index m+1 the throughput of mode m with the image of mode m+1 (C171_violated_front); the core throughput is always 1 (C171_violated_core)."
  },
  {
   "property": "C172",
   "status": "partial",
   "theorems": [
    "Corgi.Batch.C172_rest",
    "Corgi.Batch.C172_append",
    "Corgi.Batch.C172_perm",
    "Corgi.Batch.C172_then",
    "Corgi.Batch.C172_steps",
    "Corgi.Batch.C172_dark",
    "Corgi.Batch.C172_maps_partial",
    "Corgi.Batch.C172_violated_mixed",
    "Corgi.Batch.C172_violated_maps",
    "Corgi.Batch.C172_recipe_partial",
    "Corgi.Batch.C172_nonlinearity",
    "Corgi.Batch.C172_violated_nonlinearity",
    "Corgi.Batch.C172_saturation_partial",
    "Corgi.Batch.C172_violated_saturation",
    "Corgi.Batch.C172_frame_select",
    "Corgi.Batch.C172_violated_select",
    "Corgi.Batch.C172_violated_crop",
    "Corgi.Batch.C172_violated_crop_place",
    "Corgi.Batch.C172_crop_given",
    "Corgi.Batch.C172_auto_partial",
    "Corgi.Batch.C172_violated_auto",
    "Corgi.Batch.C172_auto_differs"
   ],
   "note": "Proved: what separate processing means for added frames, divisions, orders and sequences of steps (C172_rest, _append, _perm, _then); that the steps that loop over frames, the subtraction of a traditional dark and cropping at a given place are separate (C172_steps, _dark, _crop_given); the recipe from L1 to L2b for frames of equal times and gains (C172_recipe_partial). Refuted: frames of different exposure or gain are refused together with noise maps (C172_violated_mixed), with equal commanded gains the later frame gets the dark of the first one's gain (C172_violated_maps); only the first frame is asked for EMGAIN_C (C172_violated_nonlinearity); a frame with EMGAIN_M gets the saturation limit of another frame (C172_violated_saturation); marked bad frames stop the recipe only alone (C172_violated_select); frames are cropped around the star of the first one (C172_violated_crop, _crop_place); automatic calibrations are chosen for the first frame (C172_violated_auto, C172_auto_differs)."
  },
  {
   "property": "C173",
   "status": "partial",
   "theorems": [
    "Corgi.Flagged.C173_l2a",
    "Corgi.Flagged.C173_difference",
    "Corgi.Flagged.C173_recipe_partial",
    "Corgi.Flagged.C173_violated_smear",
    "Corgi.Flagged.C173_bias",
    "Corgi.Flagged.C173_violated_bias_error",
    "Corgi.Flagged.C173_counting",
    "Corgi.Flagged.C173_violated_ecount"
   ],
   "note": "Refuted as stated. Proved: the exact difference of every pixel of the L2b frames of two such runs (C173_difference), so pixels with no flagged pixel in the rows of their column up to their own agree (C173_recipe_partial), as do all unflagged pixels up to L2a (C173_l2a); the bias stays among the unaffected prescan values while fewer than half are hit (C173_bias); photon counting without safe mode ignores flagged pixels altogether (C173_counting). Violations: desmear carries a flagged value into every later row of the column, amount and iff given (C173_violated_smear); one hit in the prescan makes the error of a whole row exceed any bound and leaves no flag (C173_violated_bias_error); a flagged pixel can have the whole bin rejected (C173_violated_ecount). Rejection: for the L2b recipe both runs are assumed to succeed."
  },
  {
   "property": "C174",
   "status": "partial",
   "theorems": [
    "Corgi.Spline.C174_coefficients",
    "Corgi.Spline.C174_violated_nan",
    "Corgi.Spline.C174_weights",
    "Corgi.Spline.C174_interpolates",
    "Corgi.Spline.C174_constant",
    "Corgi.Spline.C174_spline",
    "Corgi.Spline.C174_linear",
    "Corgi.Spline.C174_identity",
    "Corgi.Spline.C174_violated_bad_pixel",
    "Corgi.Spline.C174_violated_lost",
    "Corgi.Spline.C174_violated_flags",
    "Corgi.Spline.C174_violated_edge"
   ],
   "note": "Refuted as stated. Proved, given the documented algorithm of scipy: the filter gives the coefficients of the interpolating spline on the mirrored line and there are no others (C174_coefficients); every position inside is read off that spline (C174_spline) and whole positions copy the pixel (C174_interpolates); no distortion leaves frames without NaN unchanged (C174_identity); constants are kept (C174_constant, C174_weights); linearity (C174_linear). Violations: one NaN anywhere makes every pixel that is read inside the frame NaN (C174_violated_nan), so one bad or flagged pixel replaced by NaN in correct_bad_pixels loses the whole frame even with no distortion (C174_violated_bad_pixel, C174_violated_lost); flags and errors stay in place while values move (C174_violated_flags); pixels read from outside become 0 without flag (C174_violated_edge)."
  },
  {
   "property": "C175",
   "status": "proved",
   "theorems": [
    "Corgi.CalDB.Chain.C175_file",
    "Corgi.CalDB.Chain.C175_lookup",
    "Corgi.CalDB.Chain.C175_map",
    "Corgi.CalDB.Chain.C175_last",
    "Corgi.CalDB.Chain.C175_exclusive",
    "Corgi.CalDB.Chain.C175_violated_removed",
    "Corgi.CalDB.Chain.C175_violated_registered",
    "Corgi.CalDB.Chain.C175_violated_unbounded"
   ],
   "note": "For all adaptive programs, schedules and files: C175_file, C175_lookup, C175_map, C175_last, C175_exclusive; the lost changes of the last sentence are C175_violated_removed, C175_violated_registered and C175_violated_unbounded. Reading and writing the file are single actions."
  },
  {
   "property": "C176",
   "status": "proved",
   "theorems": [
    "Corgi.CalDB.Files.C176_written",
    "Corgi.CalDB.Files.C176_whole",
    "Corgi.CalDB.Files.C176_found",
    "Corgi.CalDB.Files.C176_refused",
    "Corgi.CalDB.Files.C176_again"
   ],
   "note": "C176_written, C176_whole, C176_found, C176_refused; C176_again for a product saved again under its path. Writing a file has a beginning and an end between which it is torn (writeto removes the old file first); reading and writing the database are single actions (an interrupted writing is C160)."
  },
  {
   "property": "C177",
   "status": "proved",
   "theorems": [
    "Corgi.ProbPixels.C177_covariance",
    "Corgi.ProbPixels.C177_variance",
    "Corgi.ProbPixels.C177_rows_partial",
    "Corgi.ProbPixels.C177_violated_row",
    "Corgi.ProbPixels.C177_violated_column",
    "Corgi.ProbPixels.C177_error_iff",
    "Corgi.ProbPixels.C177_aperture",
    "Corgi.ProbPixels.C177_violated_aperture"
   ],
   "note": "The statement says where the pixels are correlated, and all of it is proved. Linear detector, fixed calibrations and headers; one science frame; aperture without background and with whole pixels. The example builds random frames with any variances for which the recipe runs."
  },
  {
   "property": "C178",
   "status": "proved",
   "theorems": [
    "Corgi.Walker.C178_undisturbed",
    "Corgi.Walker.C178_alone",
    "Corgi.Walker.C178_time_of_use",
    "Corgi.Walker.C178_violated_mixed",
    "Corgi.Walker.C178_violated_gone",
    "Corgi.Walker.C178_templates"
   ],
   "note": "The statement says what happens, limits included, and all of it is proved. Calibrations named in the recipe (no just-in-time resolution); a step together with its reading of files is not interrupted; step functions look at the disk for nothing else (hypothesis Alike)."
  },
  {
   "property": "C179",
   "status": "proved",
   "theorems": [
    "Corgi.EndToEnd.C179_rates",
    "Corgi.EndToEnd.C179_ratio",
    "Corgi.EndToEnd.C179_cancel",
    "Corgi.EndToEnd.C179_cancel_iff",
    "Corgi.EndToEnd.C179_violated_maps",
    "Corgi.EndToEnd.C179_violated_photon_iff"
   ],
   "note": "Relational: both runs are the model recipe; no assumption on the raw frames. The local background is taken to have the factor of the pixels (it is a median of them). Thresholds of the cosmic ray search are outside (flags are inputs); photon noise is treated pixel by pixel."
  },
  {
   "property": "C180",
   "status": "proved",
   "theorems": [
    "Corgi.CalDB.C180_less",
    "Corgi.CalDB.C180_more",
    "Corgi.CalDB.C180_newest",
    "Corgi.CalDB.C180_monotone",
    "Corgi.CalDB.C180_interval",
    "Corgi.CalDB.C180_order_iff",
    "Corgi.CalDB.C180_changes_iff",
    "Corgi.CalDB.C180_violated_order"
   ],
   "note": "From the exact choice (C03). Frames lacking a card, or without a value of SCTSRT, raise before any choice."
  },
  {
   "property": "C181",
   "status": "proved",
   "theorems": [
    "Corgi.Init.C181_rows",
    "Corgi.Init.C181_order",
    "Corgi.Init.C181_folders",
    "Corgi.Init.C181_again",
    "Corgi.Init.C181_choice",
    "Corgi.Init.C181_setup",
    "Corgi.Init.C181_violated_tie",
    "Corgi.Init.C181_violated_stale"
   ],
   "note": "os.walk and autoload are outside: a folder is the list of its loaded products in the order of os.walk. Paths are distinct and absolute, hashes and versions are no absolute paths (as in C01)."
  },
  {
   "property": "C182",
   "status": "proved",
   "theorems": [
    "Corgi.Walk.C182_meaning",
    "Corgi.Walk.C182_scene",
    "Corgi.Walk.C182_two",
    "Corgi.Walk.C182_violated_skipped",
    "Corgi.Walk.C182_missing",
    "Corgi.Walk.C182_violated_no_flat"
   ],
   "note": "Noise-free frames; the pixels found by the cosmic ray search are a parameter; saving does not fail."
  },
  {
   "property": "C183",
   "status": "proved",
   "theorems": [
    "Corgi.Offset.C183_blind",
    "Corgi.Offset.C183_absorbed",
    "Corgi.Offset.C183_sum",
    "Corgi.Offset.C183_zero",
    "Corgi.Offset.C183_single",
    "Corgi.Offset.C183_noise",
    "Corgi.Offset.C183_maps",
    "Corgi.Offset.C183_loop",
    "Corgi.Offset.C183_violated_offset",
    "Corgi.Offset.C183_violated_response",
    "Corgi.Offset.C183_made"
   ],
   "note": "Means of sub-stacks without cosmic rays; the closed loop is for noise-free frames, one for each setting."
  },
  {
   "property": "C184",
   "status": "proved",
   "theorems": [
    "Corgi.Cone.C184_accepts",
    "Corgi.Cone.C184_cone",
    "Corgi.Cone.C184_column",
    "Corgi.Cone.C184_prescan"
   ],
   "note": "The flags found by the cosmic ray search, which depend on the pixels of the row, are part of the frame; pixels where the flat is not zero."
  },
  {
   "property": "C185",
   "status": "proved",
   "theorems": [
    "Corgi.Digit.C185_median",
    "Corgi.Digit.C185_stable",
    "Corgi.Digit.C185_scene",
    "Corgi.Digit.C185_rounding",
    "Corgi.Digit.C185_sharp",
    "Corgi.Digit.C185_rounded"
   ],
   "note": "Exact arithmetic after the raw frame; no saturation; pixels where the flat is not zero; the flags are part of the frame."
  },
  {
   "property": "C186",
   "status": "proved",
   "theorems": [
    "Corgi.Cr.C186_starts",
    "Corgi.Cr.C186_mask",
    "Corgi.Cr.C186_tail_even",
    "Corgi.Cr.C186_tail_odd",
    "Corgi.Cr.C186_violated_brighter",
    "Corgi.Cr.C186_rows",
    "Corgi.Cr.C186_step",
    "Corgi.Cr.C186_plateau"
   ],
   "note": "Pixels without NaN; the plateau does not touch the ends of the row; the mask theorems are for mode 'image', the default, which the recipes for science frames use."
  },
  {
   "property": "C187",
   "status": "proved",
   "theorems": [
    "Corgi.Clip.C187_value",
    "Corgi.Clip.C187_behind",
    "Corgi.Clip.C187_full",
    "Corgi.Clip.C187_flags",
    "Corgi.Clip.C187_seen",
    "Corgi.Clip.C187_quiet",
    "Corgi.Clip.C187_unseen",
    "Corgi.Clip.C187_silent"
   ],
   "note": "The response is linear (relative gain one), frames have no EMGAIN_M header, and flags of steps other than detect_cosmic_rays are not followed here."
  },
  {
   "property": "C188",
   "status": "proved",
   "theorems": [
    "Corgi.Loop.C188_maps",
    "Corgi.Loop.C188_loop",
    "Corgi.Loop.C188_any_offset",
    "Corgi.Loop.C188_violated_curved"
   ],
   "note": "Errors, flags and the read noise estimate of the maps are not part of it (C48, C49, C47); sub-stacks are given (C15); no NaN."
  },
  {
   "property": "C189",
   "status": "proved",
   "theorems": [
    "Corgi.Campaign.C189_maps",
    "Corgi.Campaign.C189_campaigns",
    "Corgi.Campaign.C189_scene",
    "Corgi.Campaign.C189_choice",
    "Corgi.Campaign.C189_unused"
   ],
   "note": "Default settings of the walker for the noise map recipe; the frames of L2a that it writes on the way are not on the modelled disk. Offset between prescan and image 0 (C188 has the other case)."
  },
  {
   "property": "C190",
   "status": "proved",
   "theorems": [
    "Corgi.Counted.C190_scene",
    "Corgi.Counted.C190_blind"
   ],
   "note": "No rejected frames, no mask file, no bin_size, no trap correction; flags of bad pixels and cosmic rays are given. Detections are explained with the probability of the code, that for at most three electrons (C163 has its distance from the full one)."
  },
  {
   "property": "C191",
   "status": "proved",
   "theorems": [
    "Corgi.Counted.C191_product",
    "Corgi.Counted.C191_default",
    "Corgi.Pc.C191_rate"
   ],
   "note": "C191_rate for the correction, C191_product for the recipes with any number of iterations, C191_default for the two of the recipes. The conditions for the calls to succeed (fractions of detections also with the errors added and subtracted, mean of the frames) are those of C190."
  },
  {
   "property": "C192",
   "status": "proved",
   "theorems": [
    "Corgi.Counted.C192_product",
    "Corgi.Counted.C192_default"
   ],
   "note": "C192_product for any number of iterations and any detection probabilities, C192_default for Poisson distributed electrons and the two iterations of the recipes. Nothing is assumed about the pixels of one frame relative to each other."
  },
  {
   "property": "C193",
   "status": "proved",
   "theorems": [
    "Corgi.Counted.C193_floor"
   ],
   "note": "C193_floor. The example has darks without any detection whose reported error stays above 0.04 electrons for any number of frames. The error of the light product, to which that of the dark is added in quadrature, is C204."
  },
  {
   "property": "C194",
   "status": "proved",
   "theorems": [
    "Corgi.PcWalk.C194_dark",
    "Corgi.PcWalk.C194_campaigns",
    "Corgi.PcWalk.C194_scene",
    "Corgi.PcWalk.C194_needs",
    "Corgi.PcWalk.C194_choice",
    "Corgi.PcWalk.C194_blocked"
   ],
   "note": "Whole statement; the flags of cosmic rays are those of the shots, and a run that fails after its file is written is not modelled."
  },
  {
   "property": "C195",
   "status": "proved",
   "theorems": [
    "Corgi.Ray.C195_value",
    "Corgi.Ray.C195_row",
    "Corgi.Ray.C195_flags",
    "Corgi.Ray.C195_seen",
    "Corgi.Ray.C195_trail",
    "Corgi.Ray.C195_weaker",
    "Corgi.Ray.C195_silent"
   ],
   "note": "The value theorem holds for any charge of rays in any dataset. The theorem that joins values and flags has one plateau per frame, and frames without EMGAIN_M header; flags of other steps are not followed."
  },
  {
   "property": "C196",
   "status": "proved",
   "theorems": [
    "Corgi.Calls.C196_bind",
    "Corgi.Calls.C196_calls",
    "Corgi.Calls.C196_made",
    "Corgi.Calls.C196_violated_call",
    "Corgi.Calls.C196_violated_l4",
    "Corgi.Calls.C196_violated_checked"
   ],
   "note": "The exception, l2b_to_l4.json, is part of the statement. Which classes a parameter takes and whether it can be None is a table read from documentation and code of the steps (DESIGN.md, trusted)."
  },
  {
   "property": "C197",
   "status": "proved",
   "theorems": [
    "Corgi.NoInput.C197_jit_step",
    "Corgi.NoInput.C197_jit",
    "Corgi.NoInput.C197_absent",
    "Corgi.NoInput.C197_made",
    "Corgi.NoInput.C197_values",
    "Corgi.NoInput.C197_blind",
    "Corgi.NoInput.C197_saved",
    "Corgi.NoInput.C197_guess"
   ],
   "note": "C197_made is the exact condition and the effect, C197_values the pixels (for images without NaN; NaN is C59), C197_blind the independence of exposure time, gain and date, C197_jit, C197_jit_step, C197_absent and C197_guess the ways it fails. Headers and file name of the new map are a parameter."
  },
  {
   "property": "C198",
   "status": "proved",
   "theorems": [
    "Corgi.Rate.C198_l3",
    "Corgi.Rate.C198_scene",
    "Corgi.Rate.C198_same",
    "Corgi.Rate.C198_zero"
   ],
   "note": "C198_l3 is the second walk for any frames, C198_scene both walks, C198_same the agreement of two observations, C198_zero the exposure time of zero. The L2b file that is read is the one written (C18); RA, DEC and ROLL are parameters."
  },
  {
   "property": "C199",
   "status": "proved",
   "theorems": [
    "Corgi.Ops.C199_setup",
    "Corgi.Ops.C199_scene",
    "Corgi.Ops.C199_order",
    "Corgi.Ops.C199_broken"
   ],
   "note": "C199_setup is the scan, C199_scene the result, C199_order the independence of the order, C199_broken the incomplete file. Closest.old is the part of old rows (C181_violated_stale shows that they are returned). Strictly closest files only: for ties see C181_violated_tie. Configuration files are read."
  },
  {
   "property": "C200",
   "status": "proved",
   "theorems": [
    "Corgi.Gains.C200_header",
    "Corgi.Gains.C200_factor",
    "Corgi.Gains.C200_uniform",
    "Corgi.Gains.C200_dark",
    "Corgi.Gains.C200_order",
    "Corgi.Gains.C200_refused"
   ],
   "note": "C200_factor is the exact factor, C200_uniform the case of one gain, C200_dark the dark, C200_order the order of the files, C200_refused the refusal. One unmasked pixel of the image area; the fit is that of C33."
  },
  {
   "property": "C201",
   "status": "proved",
   "theorems": [
    "Corgi.Cr.C201_modes",
    "Corgi.Cr.C201_agree",
    "Corgi.Cr.C201_stray",
    "Corgi.Cr.C201_sci",
    "Corgi.Cr.C201_no_area"
   ],
   "note": "Frames without NaN, as in C29. Third-party median filter and sort as modelled for C29."
  },
  {
   "property": "C202",
   "status": "proved",
   "theorems": [
    "Corgi.Cr.C202_ways",
    "Corgi.Cr.C202_sci",
    "Corgi.Cr.C202_right_edge"
   ],
   "note": "Frames without NaN, as in C29. Third-party median filter (mode nearest, rank size//2) as modelled for C29."
  },
  {
   "property": "C203",
   "status": "proved",
   "theorems": [
    "Corgi.Pc.C203_expected",
    "Corgi.Pc.C203_blank",
    "Corgi.Pc.C203_average",
    "Corgi.Pc.C203_empty_field"
   ],
   "note": "Real arithmetic. The distribution of the counted light is arbitrary but integrable; the dark is fixed."
  },
  {
   "property": "C204",
   "status": "proved",
   "theorems": [
    "Corgi.Counted.C204_floor"
   ],
   "note": "C204_floor, for the image of get_pc_mean before desmear and flat division. Light frames and darks may depend on each other. Real arithmetic."
  },
  {
   "property": "C205",
   "status": "proved",
   "theorems": [
    "Corgi.Comb.C205_within",
    "Corgi.Comb.C205_median_iff",
    "Corgi.Comb.C205_mean_iff",
    "Corgi.Comb.C205_error_blind",
    "Corgi.Comb.C205_groups",
    "Corgi.Comb.C205_violated_groups"
   ],
   "note": "C205_within, C205_median_iff, C205_mean_iff, C205_error_blind, C205_groups, C205_violated_groups (the limit named in the statement). Real arithmetic; infinities are not modelled, groups without scaling."
  },
  {
   "property": "C206",
   "status": "proved",
   "theorems": [
    "Corgi.Comb.C206_flags",
    "Corgi.Comb.C206_mean",
    "Corgi.Comb.C206_mean_iff",
    "Corgi.Comb.C206_error",
    "Corgi.Comb.C206_violated_median"
   ],
   "note": "C206_flags, C206_mean, C206_mean_iff, C206_error, C206_violated_median (the limit named in the statement). Real arithmetic; on the arrays, headers are in C22."
  },
  {
   "property": "C207",
   "status": "proved",
   "theorems": [
    "Corgi.Comb.C207_rank",
    "Corgi.Comb.C207_num_fr",
    "Corgi.Comb.C207_parents",
    "Corgi.Comb.C207_second_stage",
    "Corgi.Comb.C207_withstands",
    "Corgi.Comb.C207_breaks"
   ],
   "note": "C207_rank, C207_withstands, C207_breaks, C207_second_stage, C207_parents, C207_num_fr (the limit named in the statement). Real arithmetic; frame order of the groups as in C22."
  }
 ]
}