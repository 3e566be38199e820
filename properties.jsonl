{"id": "C01", "title": "Registering a calibration is an upsert keyed by its absolute file path", "statement": "After CalDB.create_entry(product) the database holds a row for the product's absolute file path carrying exactly the product's current values, every row for any other path is unchanged and in the same order, and no path ever occurs in two rows: a database built by any sequence of create/remove calls never holds duplicates.", "quantifier": "every database content without duplicate paths, every product, every finite sequence of create_entry/remove_entry calls", "why_tests_cant": "Tests insert a handful of products; the no-duplicate guarantee is about every history, including re-registering, removing and re-adding in any order.", "anchors": ["corgidrp/caldb.py: CalDB.create_entry, CalDB._get_values_from_entry"]}
{"id": "C02", "title": "Removing a calibration deletes exactly its rows", "statement": "CalDB.remove_entry(product) deletes all rows of the product's path and nothing else, and raises ValueError, leaving the database unchanged, when the product was never registered.", "quantifier": "every database content, every product", "why_tests_cant": "Needs all database contents, including ones where the path string also occurs in another column.", "anchors": ["corgidrp/caldb.py: CalDB.remove_entry"]}
{"id": "C03", "title": "get_calib returns the best calibration or an error, never a wrong one", "statement": "CalDB.get_calib(frame, type) returns a registered file of exactly the requested type; for Dark its exposure time equals the frame's; among all eligible rows no other is closer in MJD (ties go to the earliest registered row); with frame=None it is the most recently created one; it raises ValueError exactly when no row is eligible or the type is unknown.", "quantifier": "every database content, every frame (or None), every calibration type", "why_tests_cant": "Optimality over all rows and the exact error condition quantify over all database contents.", "anchors": ["corgidrp/caldb.py: CalDB.get_calib, labels"]}
{"id": "C04", "title": "Concurrent pipelines sharing one database file do not lose entries", "statement": "If several processes each run create_entry on the same CSV, then after all of them finish every product is registered, whatever the schedule. (True when load-modify-save is not interleaved; false for interleaved schedules, since there is no lock.)", "quantifier": "every number of processes, every interleaving of their load and save actions, every initial file", "why_tests_cant": "A schedule-dependent property: a test exercises one interleaving.", "anchors": ["corgidrp/caldb.py: CalDB.load, CalDB.save, CalDB.create_entry"]}
{"id": "C05", "title": "Registration never silently drops a product", "statement": "After create_entry(product), get_calib-style lookup by path finds the product. (False if the path string already occurs in a different column of some row, because membership is tested over the whole table.)", "quantifier": "every database content and product", "why_tests_cant": "Depends on collisions between columns that no fixture contains.", "anchors": ["corgidrp/caldb.py: CalDB.create_entry line 219"]}
{"id": "C06", "title": "Recipe selection is a total, exclusive decision on the headers", "statement": "guess_template picks its recipe only from the data level, the visit type, the ISPC flag, the number of dark configurations and the FSMLOS flag as documented; every L1/L2a/L2b/L3 header yields the documented template name(s); an unknown level raises NotImplementedError, a missing keyword KeyError, and never a wrong recipe is returned.", "quantifier": "every header combination", "why_tests_cant": "The decision table has unboundedly many visit-type strings; tests check a few.", "anchors": ["corgidrp/walker.py: guess_template"]}
{"id": "C07", "title": "Autofilled recipes keep the template's steps and resolve every AUTOMATIC calibration", "statement": "autogen_recipe keeps the names, the number and the order of the template's steps; afterwards no calibration entry reads AUTOMATIC (unless resolution is deferred with jit_calib_id); each was replaced by the file the calibration database selects for the first input, by None for an optional missing one, or the step was marked skip; entries that were explicit paths are untouched; otherwise the call raises ValueError.", "quantifier": "every template, every database answer, every setting of skip_missing_cal_steps and jit_calib_id", "why_tests_cant": "Combination of list of steps x calibs x settings is unbounded.", "anchors": ["corgidrp/walker.py: autogen_recipe, _fill_in_calib_files"]}
{"id": "C08", "title": "Generating a recipe does not modify the template passed in", "statement": "Calling autogen_recipe twice with the same template object gives recipes whose inputs are exactly the two calls' file lists. (False: dict.copy is shallow, so inputs accumulate and the calibrations of the first call stick to the second.)", "quantifier": "every template, every pair of calls", "why_tests_cant": "A history property across calls sharing an object.", "anchors": ["corgidrp/walker.py: autogen_recipe line 133-150"]}
{"id": "C09", "title": "Running a recipe applies exactly the non-skipped steps, in order", "statement": "run_recipe threads the dataset through the steps of the recipe in list order; steps with skip=True do not run; a save step writes the current dataset and leaves it unchanged; an unknown step name raises before any later step runs.", "quantifier": "every recipe (any number of steps), every step semantics", "why_tests_cant": "Unbounded step sequences, including failing ones.", "anchors": ["corgidrp/walker.py: run_recipe, all_steps"]}
{"id": "C10", "title": "A step whose required calibration is missing is skipped, not run without it", "statement": "With skip_missing_cal_steps on, a step whose required AUTOMATIC calibration cannot be found is never executed. (False when calibrations are resolved just in time: the skip test precedes the resolution, so the step runs with None.)", "quantifier": "every recipe, every database, both values of jit_calib_id", "why_tests_cant": "Needs the combination of two settings with a missing file, at every position of the recipe.", "anchors": ["corgidrp/walker.py: run_recipe lines 398-425, _fill_in_calib_files"]}
{"id": "C11", "title": "Recipe-level settings do not leak into later recipes", "statement": "The pipeline settings in force after run_recipe equal those before it. (False: drpconfig values are assigned to the module globals and never restored.)", "quantifier": "every recipe and every sequence of recipes", "why_tests_cant": "History property across recipes.", "anchors": ["corgidrp/walker.py: run_recipe drpconfig block"]}
{"id": "C12", "title": "Frames of a Dataset are views of its cubes", "statement": "After building a Dataset from distinct frames, writing pixel values through dataset.all_data/all_err/all_dq is seen by dataset[i].data/err/dq and conversely, for every frame and pixel.", "quantifier": "every list of frames, every write", "why_tests_cant": "Aliasing holds or fails for every sequence of writes; tests check single writes.", "anchors": ["corgidrp/data.py: Dataset.__init__"]}
{"id": "C13", "title": "Processing steps leave their input dataset untouched", "statement": "Dataset.copy() returns a dataset none of whose later modifications (pixels or headers) is visible through the original. (False for copy(copy_data=False): headers stay shared, so update_to_l2a, update_to_l2b, update_to_l3, update_to_l4 and prescan_biassub change the caller's headers.)", "quantifier": "every dataset, every sequence of writes to the copy", "why_tests_cant": "Non-interference over all write sequences.", "anchors": ["corgidrp/data.py: Dataset.copy, Image.copy", "corgidrp/l1_to_l2a.py: update_to_l2a"]}
{"id": "C14", "title": "Selecting frames does not disconnect the parent dataset", "statement": "After dataset[a:b] or split_dataset, an update_after_processing_step on the original dataset is still visible in all its frames. (False: the selected frames are re-pointed at the new cubes, the parent's cube no longer feeds them.)", "quantifier": "every dataset and selection", "why_tests_cant": "Aliasing history property.", "anchors": ["corgidrp/data.py: Dataset.__getitem__, Dataset.split_dataset, Dataset.update_after_processing_step"]}
{"id": "C15", "title": "split_dataset is a partition by header values", "statement": "Each frame whose keyword values are all present is in exactly one returned subset; the frames of a subset are exactly those with the returned key combination, in their original order; keys are distinct and sorted; no subset is empty.", "quantifier": "every dataset and keyword list", "why_tests_cant": "Partition law over all datasets.", "anchors": ["corgidrp/data.py: Dataset.split_dataset"]}
{"id": "C16", "title": "update_after_processing_step is all-or-nothing on shapes and keeps frames in sync", "statement": "A shape mismatch raises ValueError before any pixel changes; otherwise, for a dataset whose frames are views of its cubes, each frame then shows the new data/err/dq and one more HISTORY line.", "quantifier": "every dataset and new arrays", "why_tests_cant": "All inputs incl. rejected ones.", "anchors": ["corgidrp/data.py: Dataset.update_after_processing_step"]}
{"id": "C17", "title": "Error terms combine in quadrature, independent of order", "statement": "After any sequence of add_error_term calls, the total error layer is the square root of the initial variance plus the sum of the squared terms; so it never decreases and does not depend on the order; with track_individual_errors off exactly one layer remains, with it on one layer per term is appended in order.", "quantifier": "every initial error, every finite list of terms, both settings", "why_tests_cant": "Arbitrary-length sequences and all reals.", "anchors": ["corgidrp/data.py: Image.add_error_term, Image.rescale_error"]}
{"id": "C18", "title": "Provenance lists each contributing file once", "statement": "After _record_parent_filenames the FILEi keywords list, without repetition, every input frame's file name and every recorded ancestor of the inputs, nothing else, and DRPNFILE is their number.", "quantifier": "every list of input frames with any recorded ancestors", "why_tests_cant": "Set-union law over all histories of combination.", "anchors": ["corgidrp/data.py: Image._record_parent_filenames"]}
{"id": "C19", "title": "Data-level upgrades only move one level and rename consistently", "statement": "Each update_to_Lx accepts a dataset exactly when all frames are at the preceding level, sets DATALVL on all frames, changes no pixel, and an L1 file named <stem>_L1_<rest> with no other level tag ends as <stem>_L4_<rest> after the four upgrades; upgrades cannot be applied out of order or twice.", "quantifier": "every dataset, every sequence of upgrades, every file name", "why_tests_cant": "Sequences of upgrades and arbitrary strings.", "anchors": ["corgidrp/l1_to_l2a.py: update_to_l2a", "corgidrp/l2a_to_l2b.py: update_to_l2b", "corgidrp/l2b_to_l3.py: update_to_l3", "corgidrp/l3_to_l4.py: update_to_l4"]}
{"id": "C20", "title": "Mean combination uses exactly the good samples", "statement": "For each pixel combine_images(mean) returns the mean of the samples with DQ=0 and not NaN (times the number of frames if scaling is on), NaN exactly if there is none; a combined DQ value is nonzero only where the combined value is NaN, and then it is the OR of all inputs' flags.", "quantifier": "every stack of frames and DQ maps", "why_tests_cant": "All stacks, all masks.", "anchors": ["corgidrp/combine.py: combine_images"]}
{"id": "C21", "title": "Combined error is the propagated standard error", "statement": "combine_images(mean) returns sqrt(sum of variances of good samples)/n for each pixel; it fails (error too small or too large) exactly for NaN data that was not flagged, since those are counted as samples.", "quantifier": "every stack", "why_tests_cant": "Real-valued identity for all inputs.", "anchors": ["corgidrp/combine.py: combine_images"]}
{"id": "C22", "title": "combine_subexposures groups frames exactly", "statement": "With group size k dividing n there are n/k outputs, output i built from frames ki..k(i+1)-1 only, header of the first, file name of the last, NUM_FR=k; otherwise ValueError; the input dataset is unchanged.", "quantifier": "every dataset length and group size", "why_tests_cant": "All lengths.", "anchors": ["corgidrp/combine.py: combine_subexposures"]}
{"id": "C23", "title": "frame_select keeps exactly the good frames, in order", "statement": "frame_select keeps a frame iff its fraction of unacceptable pixels does not exceed bpix_frac (when < 1), OVEREXP is not set (when requested), tip/tilt residuals are within limits; order is preserved; kept frames are unchanged; ValueError iff no frame is good; with discard_bad=False all frames stay and IS_BAD marks exactly the bad ones.", "quantifier": "every dataset and every parameter choice", "why_tests_cant": "All combinations of criteria over unbounded lists.", "anchors": ["corgidrp/l2a_to_l2b.py: frame_select"]}
{"id": "C24", "title": "DQ flags accumulate: no L1-to-L2b step clears a flag", "statement": "For prescan_biassub, detect_cosmic_rays, correct_nonlinearity, dark_subtraction, flat_division, correct_bad_pixels and any sequence of them, each DQ bit set in the (retained) pixel before is set after. (False for correct_bad_pixels and bit values >= 256, lost by the uint8 cast.)", "quantifier": "every DQ map, every sequence of steps", "why_tests_cant": "All bit patterns x all sequences.", "anchors": ["corgidrp/l1_to_l2a.py", "corgidrp/l2a_to_l2b.py"]}
{"id": "C25", "title": "Desmearing exactly inverts the read-out smear", "statement": "If the observed column is the true column plus the smear accumulated while shifting through the rows above (rate rowreadtime/exptime), desmear returns the true column.", "quantifier": "every column of any length, every positive exposure and row read time", "why_tests_cant": "Exact inverse law for all columns.", "anchors": ["corgidrp/l2a_to_l2b.py: desmear"]}
{"id": "C26", "title": "Bias subtraction removes any per-row offset", "statement": "Adding a constant b_r to every pixel of row r of an L1 frame changes nothing in the output of prescan_biassub except the stored bias column, which increases by b_r; and the output image is the image area of the frame minus the row bias.", "quantifier": "every frame, every vector of row offsets, every geometry", "why_tests_cant": "Invariance over all frames.", "anchors": ["corgidrp/l1_to_l2a.py: prescan_biassub"]}
{"id": "C27", "title": "Detector regions: cutting out an embedded section gives it back", "statement": "slice_section(embed(x, area), area) = x for every x of the area's shape, pixels outside the area equal the pad value; data of another shape raises; all regions of all read-out modes lie inside the frame.", "quantifier": "every mode, region and data array", "why_tests_cant": "All arrays.", "anchors": ["corgidrp/detector.py: slice_section, embed, unpack_geom, detector_areas"]}
{"id": "C28", "title": "The imaging slice is the physical pixel area", "statement": "imaging_slice returns the rows/cols of the frame not in prescan or overscans for every read-out mode. (False for ENG_EM and ENG_CONV: the computed first row is -9 and the slice is empty.)", "quantifier": "every read-out mode and frame", "why_tests_cant": "Per-mode geometry over every frame.", "anchors": ["corgidrp/detector.py: imaging_area_geom, imaging_slice"]}
{"id": "C29", "title": "Cosmic-ray masks cover the plateau tail and stay in bounds", "statement": "In image mode flag_cosmics marks exactly, for each plateau start found, the streak i_beg .. i_beg+filter+tail (clipped to the row) and the clipped box around it; nothing else. In full mode the part of the tail past the row end continues on the next row. (False by one pixel: the continuation starts at the last pixel of the same row.)", "quantifier": "every cube and parameters", "why_tests_cant": "All plateau positions incl. those near edges.", "anchors": ["corgidrp/detector.py: flag_cosmics, find_plateaus"]}
{"id": "C30", "title": "Plateau starts are true left edges", "statement": "Every index returned by find_plateaus is either 0 or has its left neighbour below the plateau threshold, all pixels from it to the saturated pixel that triggered it are above that threshold, and indices are strictly increasing.", "quantifier": "every row of pixels and thresholds", "why_tests_cant": "All rows.", "anchors": ["corgidrp/detector.py: find_plateaus"]}
{"id": "C31", "title": "Saturation thresholds use each frame's own gain", "statement": "detect_cosmic_rays flags pixel saturation of frame i with sat_thresh*min(gain_i*FWC_PP, FWC_EM)/kgain where gain_i is EMGAIN_M if present, else EMGAIN_A if > 0, else EMGAIN_C. (False: gains read from EMGAIN_M are not appended to the list, so frames get other frames' gains or the call fails.)", "quantifier": "every dataset, every header combination", "why_tests_cant": "Mixed header datasets.", "anchors": ["corgidrp/l1_to_l2a.py: detect_cosmic_rays lines 224-233", "corgidrp/detector.py: calc_sat_fwc"]}
{"id": "C32", "title": "Non-linearity correction interpolates the calibration table", "statement": "get_relgains returns the table value at grid points, a value between the neighbouring table values in between, the edge value outside; without a calibration it is 1 everywhere; a table with non-increasing axes or a curve not straddling 1 is rejected.", "quantifier": "every table, gain and count value", "why_tests_cant": "All reals, all table sizes.", "anchors": ["corgidrp/detector.py: get_relgains"]}
{"id": "C33", "title": "Synthesised darks reproduce the calibration stacks", "statement": "If each averaged dark stack equals F + g*C + g*t*D, the least-squares noise maps are F, C, D (for C, D >= 0), and build_synthesized_dark for gain g and time t gives the stack's mean divided by g.", "quantifier": "every set of (g,t) of full rank, every pixel values", "why_tests_cant": "All reals and all stack sets; round trip between two functions.", "anchors": ["corgidrp/darks.py: calibrate_darks_lsq, build_synthesized_dark"]}
{"id": "C34", "title": "Mean dark combination ignores masked samples and flags unusable pixels", "statement": "mean_combine returns the mean of the unmasked samples, 0 and mask 1 when all are masked; the traditional dark's DQ is 1 iff all frames are masked, 256 iff fewer than half are unmasked (but not none), 0 otherwise.", "quantifier": "every stack and mask", "why_tests_cant": "All stacks.", "anchors": ["corgidrp/darks.py: mean_combine, build_trad_dark"]}
{"id": "C35", "title": "Photon counting thresholds each frame and counts unmasked detections", "statement": "photon_count is 1 exactly where the pixel exceeds the threshold; the coadd of a pixel is the number of unmasked frames above threshold and never exceeds the number of unmasked frames; DQ is 1 iff all frames are masked.", "quantifier": "every stack, mask, threshold", "why_tests_cant": "All stacks.", "anchors": ["corgidrp/photon_counting.py: photon_count, get_pc_mean"]}
{"id": "C36", "title": "Photometric correction is a sound Newton iteration", "statement": "The function used as derivative is the derivative of the objective for every flux, gain and threshold; the variance formula uses the same detection efficiency; the starting estimate solves the zeroth-order coincidence equation whenever that has a solution; pixels with no counts give 0; a fixed point of the iteration is an exact solution.", "quantifier": "every real flux >= 0, gain > 0, threshold >= 0", "why_tests_cant": "Identity over the reals.", "anchors": ["corgidrp/photon_counting.py: _calc_func, _calc_dfunc, calc_lam_approx, lam_newton_fit, varL23"]}
{"id": "C37", "title": "Photon-counting bins record exactly the frames they use", "statement": "get_pc_mean with bin size b uses frames 0..b*floor(n/b)-1, and the master dark's provenance lists exactly these. (False: the recorded range is k*floor(n/k), k = number of bins, which can include unused frames.)", "quantifier": "every number of frames and bin size", "why_tests_cant": "All n, b.", "anchors": ["corgidrp/photon_counting.py: get_pc_mean lines 139-153, 334"]}
{"id": "C38", "title": "Cropping keeps every frame centred on its own star", "statement": "crop returns frames of the requested size with out[j,i]=in[y1+j,x1+i], STARLOCX/Y shifted so they denote the same sky position and DETPIX0X/Y equal to the detector coordinate of out[0,0] after any number of crops; regions outside raise ValueError. With no centre given, each frame is cropped around its own STARLOC. (The last sentence is false: the first frame's centre is reused.)", "quantifier": "every dataset, size, centre, sequence of crops", "why_tests_cant": "All sequences of crops.", "anchors": ["corgidrp/l3_to_l4.py: crop"]}
{"id": "C39", "title": "Flat division and dark subtraction propagate errors and flags", "statement": "flat_division multiplies back: out*flat = in wherever flat != 0, pixels with flat = 0 get DQ bit 4; dark_subtraction: out + dark = in, DQ is the OR, error the quadrature sum; a dark with other gain, exposure time or k-gain is rejected.", "quantifier": "every dataset, flat, dark", "why_tests_cant": "All inputs.", "anchors": ["corgidrp/l2a_to_l2b.py: flat_division, dark_subtraction"]}
{"id": "C40", "title": "Bad pixel maps encode both defects", "statement": "create_bad_pixel_map sets bit 8 exactly at pixels above mean+dthresh*std of the dark and bit 4 exactly at pixels below ffrac times the mean of the clipped box in the flat, and nothing else; correct_bad_pixels then NaNs exactly pixels with any flag.", "quantifier": "every dark, flat, parameters", "why_tests_cant": "All images.", "anchors": ["corgidrp/bad_pixel_calibration.py", "corgidrp/l2a_to_l2b.py: correct_bad_pixels"]}
{"id": "C41", "title": "DQ bit packing round-trips", "statement": "packbits_64uint(unpackbits_64uint(x)) = x and bit b of the value is element 63-b of the unpacked array; the flag/bit/value maps are mutually inverse.", "quantifier": "every 64-bit value", "why_tests_cant": "2^64 values.", "anchors": ["corgidrp/data.py: unpackbits_64uint, packbits_64uint, get_flag_to_bit_map, get_flag_to_value_map, get_value_to_flag_map, get_bit_to_flag_map"]}
{"id": "C42", "title": "Time stamps in file names are correctly rounded", "statement": "format_ftimeutc yields the time rounded to the nearest 0.1 s, within 50 ms of the input, with all fields in range including roll-over across minute, hour, day, month and year; monotone in the input.", "quantifier": "every date-time", "why_tests_cant": "All microseconds of all dates.", "anchors": ["corgidrp/data.py: format_ftimeutc"]}
{"id": "C43", "title": "NaN/DQ conversion is consistent", "statement": "nan_flags makes NaN exactly the pixels with DQ >= threshold (others unchanged); flag_nans marks exactly the NaN pixels and keeps all other DQ; earlier flags of a NaN pixel are kept. (Last clause false: the value is overwritten.)", "quantifier": "every dataset", "why_tests_cant": "All masks.", "anchors": ["corgidrp/detector.py: nan_flags, flag_nans"]}
{"id": "C44", "title": "Pupil-image sorting picks the longest consecutive run", "statement": "The frames marked MNFRAME are a maximal run of consecutive frame ids of the most populated unity-gain exposure-time group, and no longer run exists in that group.", "quantifier": "every set of frame ids", "why_tests_cant": "All id sets.", "anchors": ["corgidrp/sorting.py: sort_pupilimg_frames lines 60-90"]}
{"id": "C45", "title": "Saved calibration products can be reloaded by autoload", "statement": "Every data class's DATATYPE header value written by its constructor is a key that autoload maps back to the same class. (False for NDFilterSweetSpotDataset.)", "quantifier": "every data class", "why_tests_cant": "Cross-table consistency.", "anchors": ["corgidrp/data.py: datatypes, autoload"]}
{"id": "C46", "title": "Unit conversions are linear and commute", "statement": "convert_to_electrons, em_gain_division and divide_by_exptime scale data and total error by the same positive factor, so the signal-to-noise ratio of data with exact gain is unchanged and the order of the steps does not matter.", "quantifier": "every dataset, gains", "why_tests_cant": "All reals.", "anchors": ["corgidrp/l2a_to_l2b.py: convert_to_electrons, em_gain_division", "corgidrp/l2b_to_l3.py: divide_by_exptime"]}
{"id": "C47", "title": "Sub-stacks without data do not influence the noise maps", "statement": "In calibrate_darks_lsq the noise maps of a pixel are determined by the sub-stacks that have an unmasked frame there, or the pixel is flagged; the flag is 1 iff at most three sub-stacks have an unmasked frame at the pixel, 256 iff more than three have but at most three have half of their frames, and 0 otherwise.", "quantifier": "every set of sub-stacks, masks and noise model", "why_tests_cant": "Tests mask few pixels in few frames, never a whole sub-stack with the rest usable, and the flag does not show the bias.", "anchors": ["corgidrp/darks.py: calibrate_darks_lsq lines 500-534, 586-600"]}
{"id": "C48", "title": "The comparison sub-stack of the read-noise estimate", "statement": "calibrate_darks_lsq correlates the sub-stack of least gain times exposure time with the one of the same time and next larger gain, or, if there is none, with the one of next smallest gain times time; it never correlates a sub-stack with itself and finds a partner for every set of sub-stacks that passes the input checks.", "quantifier": "every list of gains and times", "why_tests_cant": "The index arithmetic depends on the order of all products; a test has one ordering.", "anchors": ["corgidrp/darks.py: calibrate_darks_lsq lines 555-575"]}
{"id": "C49", "title": "Error of the noise maps from the frame errors", "statement": "stacks_err, the standard error of the fitted maps that comes from the frame errors, does not increase when sub-stacks of the same quality are added, and is between the error of the mean of the sub-stacks and their quadrature sum.", "quantifier": "every number of sub-stacks, errors", "why_tests_cant": "A growth law in the number of sub-stacks.", "anchors": ["corgidrp/darks.py: calibrate_darks_lsq line 586"]}
{"id": "C50", "title": "The photon-counting error is a standard deviation", "statement": "get_pc_mean's error of a pixel whose input frames have no error is the standard deviation of the expected counts, so that it falls with the number of frames as 1/sqrt(N). (False: the variance is used.)", "quantifier": "every flux, gain, threshold, number of frames", "why_tests_cant": "A scaling law; tests compare with the same formula or a loose tolerance.", "anchors": ["corgidrp/photon_counting.py: get_pc_mean lines 261-268, varL23 lines 11-33"]}
{"id": "C51", "title": "safemode=False only warns", "statement": "get_pc_mean(safemode=False) does not raise an exception for input frames that safemode would reject, but only warns; whenever the counting equation has a solution the Newton iteration finds a flux that is not negative. (False.)", "quantifier": "every stack, threshold, gain, number of iterations", "why_tests_cant": "Tests use thresholds of a few percent of the gain, where the start value is close to the solution.", "anchors": ["corgidrp/photon_counting.py: get_pc_mean lines 99-103, 210-230, lam_newton_fit 395-428"]}
{"id": "C52", "title": "All frames of a photon-counted dataset have the same settings", "statement": "If get_pc_mean returns a product, all frames of the input have the same exposure time, commanded gain, k gain and read noise, and PCTHRESH is the threshold of every slice. (False for several bins.)", "quantifier": "every dataset and bin size", "why_tests_cant": "Tests bin only uniform datasets.", "anchors": ["corgidrp/photon_counting.py: get_pc_mean lines 151-176, 322-334"]}
{"id": "C53", "title": "Cropping keeps the sky coordinates of every pixel", "statement": "After create_wcs, crop leaves the world coordinates of every retained pixel unchanged: the reference pixel that the WCS of the image uses is shifted by the corner of the crop window. (False: create_wcs writes CRPIX to the extension header, crop shifts it in the primary header only.)", "quantifier": "every dataset with a WCS, crop size and centre", "why_tests_cant": "Tests check header values of one step at a time, never the sky position of a pixel through both steps.", "anchors": ["corgidrp/l3_to_l4.py: crop lines 375-390", "corgidrp/l2b_to_l3.py: create_wcs lines 48-65"]}
{"id": "C54", "title": "create_wcs describes the orientation, scale and centre of the image", "statement": "The CD matrix of create_wcs has determinant -platescale_x*platescale_y (east is left of north), the position angle of the vertical axis is the calibrated north angle plus roll, every pixel step has the length of the plate scale of its axis, and the central pixel has the target coordinates. (Scale: false for unequal scales and a rotation; centre: off by one pixel.)", "quantifier": "every plate scale, north angle, roll angle, image size", "why_tests_cant": "Tests have one plate scale per direction and compare with the same matrix product.", "anchors": ["corgidrp/l2b_to_l3.py: create_wcs lines 7-70"]}
{"id": "C55", "title": "Photon noise is finite and has the right size", "statement": "add_photon_noise adds to the squared total error of every finite pixel the data value, twice that for EM gain above 1, and the total error stays finite. (False for negative data: the error becomes NaN.)", "quantifier": "every pixel value, gain, error", "why_tests_cant": "Tests use positive data; after bias subtraction about half of the dark pixels are negative.", "anchors": ["corgidrp/l2a_to_l2b.py: add_photon_noise lines 8-42"]}
{"id": "C56", "title": "Unit conversion keeps the individual error terms", "statement": "With track_individual_errors every error layer is scaled by convert_to_electrons, em_gain_division and divide_by_exptime like the total, so the part of the total variance that the individual layers explain is kept. (False for convert_to_electrons: all individual layers become zero.)", "quantifier": "every number of layers", "why_tests_cant": "Tests run with tracking off or have one layer.", "anchors": ["corgidrp/l2a_to_l2b.py: convert_to_electrons lines 270-285, em_gain_division 288-327"]}
{"id": "C58", "title": "The synthesized dark has the gain of each frame", "statement": "dark_subtraction with noise maps subtracts from every frame F/g + t*D + C with that frame's own EM gain g (measured, applied or commanded). (False: the first frame's gain is used, only the commanded gains are compared.)", "quantifier": "every dataset and noise maps", "why_tests_cant": "Tests give all frames the same gain headers.", "anchors": ["corgidrp/l2a_to_l2b.py: dark_subtraction lines 61-84", "corgidrp/darks.py: build_synthesized_dark lines 806-860"]}
{"id": "C57", "title": "Steps keep frames and cubes connected", "statement": "After any step function the data, error and DQ of each frame of the returned dataset are the slices of the dataset's all_data, all_err and all_dq, so that a later change of either is seen in both. (False for em_gain_division and divide_by_exptime.)", "quantifier": "every dataset", "why_tests_cant": "Tests read either the cubes or the frames, not one after changing the other.", "anchors": ["corgidrp/l2a_to_l2b.py: em_gain_division lines 288-327", "corgidrp/l2b_to_l3.py: divide_by_exptime", "corgidrp/data.py: Dataset lines 30-245"]}
{"id": "C59", "title": "NaN input pixels do not disturb bad-pixel detection", "statement": "A pixel that is NaN in the dark or in the flat is flagged and does not change which of the other pixels are flagged. (False: a single NaN in the dark turns off hot-pixel detection for the whole image.)", "quantifier": "every dark and flat", "why_tests_cant": "Test images have no NaN.", "anchors": ["corgidrp/bad_pixel_calibration.py lines 60-138"]}
{"id": "C60", "title": "K-gain frames are one consecutive exposure-time series", "statement": "sort_pupilimg_frames for k-gain selects exactly the frames of the longest series of equally large, consecutively taken sets with increasing exposure times that is closed by a set repeating an earlier time. (False: stray frames before the series are included, and a second series raises TypeError.)", "quantifier": "every list of frames", "why_tests_cant": "All arrangements of frames.", "anchors": ["corgidrp/sorting.py lines 104-180"]}
{"id": "C61", "title": "Non-linearity frames are consecutive increasing series", "statement": "For every EM gain the frames labelled NONLIN have strictly increasing exposure times and end with one frame that repeats an earlier time, no accepted candidate is longer, and they were taken with consecutive frame ids. (Consecutive ids: false, never checked.)", "quantifier": "every list of frames", "why_tests_cant": "All arrangements of frames.", "anchors": ["corgidrp/sorting.py lines 187-246"]}
{"id": "C62", "title": "The on-sky flat covers the detector and masks the planet", "statement": "create_onsky_flatfield returns an image of the detector size in which pixels outside the raster field are exactly 1, and the mask of the planet is a disc around the centre of the cut-out whatever planet and radius are given. (False: the padding is right for one raster size only and the mask of Uranus is off centre.)", "quantifier": "every raster size, image size, planet and radius", "why_tests_cant": "Tests use the default field of view and Neptune.", "anchors": ["corgidrp/flat.py lines 101-261"]}
{"id": "C63", "title": "Overlapping raster images are averaged", "statement": "Each pixel of the combined raster is the mean of the residual images that cover it, independent of their order. (False: a running average of two.)", "quantifier": "every list of residuals per pixel", "why_tests_cant": "Tests compare the flat with a tolerance larger than the effect.", "anchors": ["corgidrp/flat.py lines 140-159"]}
{"id": "C64", "title": "The flat's error is the standard error of its mean", "statement": "Each pixel of create_flatfield is the mean of the valid samples, and its error their standard deviation over the root of their number. (False with NaN samples: all frames are counted.)", "quantifier": "every stack of samples per pixel", "why_tests_cant": "Test stacks have no NaN.", "anchors": ["corgidrp/flat.py lines 16-41"]}
{"id": "C65", "title": "Raster images use the matched filter of their own group", "statement": "With N as documented (number of images per matched filter) each raster image is divided by a filter made from the group of images that contains it. (False: N is the number of groups.)", "quantifier": "every number of images and N", "why_tests_cant": "Tests use N=1.", "anchors": ["corgidrp/flat.py lines 76-99, 251"]}
{"id": "C66", "title": "Photometric integrals are weighted means", "statement": "On every filter grid with uniform spacing and positive transmission: the band flux is linear in the spectrum and lies between its extremes, effective and pivot wavelength lie inside the band and do not depend on brightness or transmission scale, Vega has magnitude 0, a factor 100 is 5 magnitudes and fainter sources have larger magnitudes; every band name finds its own transmission curve.", "quantifier": "every grid of two or more points, transmission, spectrum; every order of the directory listing", "why_tests_cant": "Statements about all spectra, and about the weights of the quadrature, which can be negative on non-uniform grids.", "anchors": ["corgidrp/fluxcal.py lines 64-219, 256-272"]}
{"id": "C67", "title": "The colour-corrected flux is the flux density at the reference wavelength", "statement": "Dividing the calibrated flux by COL_COR gives the flux density of the source at the pivot wavelength, for a calibration factor made from any reference star; equal spectral shapes give COL_COR=1 and corrections compose. (First part false: holds iff the band flux of the reference star equals its flux density there.)", "quantifier": "every band, reference and source spectrum", "why_tests_cant": "Tests check the factor against the same formula.", "anchors": ["corgidrp/fluxcal.py: calculate_band_flux lines 126-143, compute_color_cor 222-254", "corgidrp/l4_to_tda.py: determine_color_cor lines 87-136, determine_flux 320-394"]}
{"id": "C68", "title": "The two apparent magnitudes agree", "statement": "For a perfectly calibrated star determine_flux and determine_app_mag write the same APP_MAG. (False: one weighs the spectra with photons, the other with energy.)", "quantifier": "every band and spectrum", "why_tests_cant": "Tests check one function at a time with wide tolerance.", "anchors": ["corgidrp/fluxcal.py: calculate_vega_mag lines 197-219", "corgidrp/l4_to_tda.py: determine_app_mag lines 15-84, determine_flux lines 337-394"]}
{"id": "C69", "title": "Reference spectra are interpolated onto the filter grid", "statement": "read_cal_spec returns at every wavelength of the filter the linear interpolation of the spectrum. (False at the edges, where the spectrum was cropped before.)", "quantifier": "every spectrum and filter grid", "why_tests_cant": "Depends on how spectrum samples fall relative to the edges of the filter.", "anchors": ["corgidrp/fluxcal.py: read_cal_spec lines 101-124"]}
{"id": "C70", "title": "Errors of calibrated fluxes are propagated", "statement": "The error of the calibration factor and MAGERR are first-order propagation, FLUXERR is the standard error of the mean flux of the frames combined with that of the factor. (Last part false: errors are averaged, so they do not fall with the number of frames; MAGERR is negative for negative flux.)", "quantifier": "every number of frames, errors, spectra", "why_tests_cant": "Needs the derivative and all numbers of frames.", "anchors": ["corgidrp/fluxcal.py: calibrate_fluxcal_aper lines 480-498", "corgidrp/l4_to_tda.py: determine_flux lines 337-394"]}
{"id": "C71", "title": "Converting and measuring commute", "statement": "Aperture photometry of the flux-converted image gives the same flux and error as converting the photometry of the image; masked pixels never contribute. (Error: false for an uncertain factor.)", "quantifier": "every aperture, pixels, weights, mask, factor", "why_tests_cant": "Tests compare fluxes of one image.", "anchors": ["corgidrp/fluxcal.py: aper_phot lines 275-343", "corgidrp/l4_to_tda.py: convert_to_flux lines 138-174"]}
{"id": "C72", "title": "The zero point is one number", "statement": "calculate_zero_point returns the number zp with magnitude = zp - 2.5 log10(counts). (False: it returns an array, the second element computed from the error.)", "quantifier": "every image", "why_tests_cant": "A test that compares with numpy broadcasting accepts the array.", "anchors": ["corgidrp/l4_to_tda.py: calculate_zero_point lines 496-537"]}
{"id": "C73", "title": "find_source ends with all sources above the threshold", "statement": "find_source terminates; the sources are the successive maxima of the signal-to-noise map above the threshold and nothing at or above it is left; any PSF shape and source position is accepted. (False: a maximum exactly at the threshold loops forever, sources near the border and even-sized PSFs raise, other PSF sizes get an off-centre mask.)", "quantifier": "every image, PSF size, threshold, source position", "why_tests_cant": "Non-termination needs equality; border positions are not tested.", "anchors": ["corgidrp/l4_to_tda.py: find_source lines 431-494", "corgidrp/find_source.py: psf_scalesub lines 41-73"]}
{"id": "C74", "title": "The flux ratio noise is the planet to star flux ratio", "statement": "The curve is the volume of a 2-D Gaussian with the noise as amplitude over the star's flux corrected for the ND filter and the throughputs, at each frame's own separations, for every star location in the image. (False: the optical density is used as transmission, the first frame's separations are kept, the last row and column fail.)", "quantifier": "every amplitude, width, optical density, frame list and location", "why_tests_cant": "The expected value in the test uses the same wrong transmission.", "anchors": ["corgidrp/l4_to_tda.py: compute_flux_ratio_noise lines 177-318"]}
{"id": "C75", "title": "The measured optical density is the filter's", "statement": "For any dim calibration star, bright star and filter transmission t the calibrated optical density is -log10(t), with irradiance or flux calibration. (False: colour term; in flux mode off by the logarithm of the band width.)", "quantifier": "every band and pair of spectra", "why_tests_cant": "Test stars have the same spectrum.", "anchors": ["corgidrp/nd_filter_calibration.py lines 102-222, 225-307"]}
{"id": "C76", "title": "The ND calibration uses all bright frames and flags variation", "statement": "create_nd_filter_cal accepts ND frames with a flux calibration factor, works with default arguments, returns one row per ND frame with a centroid and sets ODFLAG iff some target varies too much. (False except for the rows.)", "quantifier": "every dataset", "why_tests_cant": "Tests have one arrangement: dim stars present, keywords given, one target flagged last.", "anchors": ["corgidrp/nd_filter_calibration.py lines 164-353, 404-527"]}
{"id": "C77", "title": "The optical density follows the filter", "statement": "A star on the same spot of the filter gets the same optical density after the FPAM has moved, with the displacement convention of the core-throughput code. (False: the offset has the wrong sign.)", "quantifier": "every map, matrix, FPAM positions and star position", "why_tests_cant": "The test uses the same formula with the identity matrix.", "anchors": ["corgidrp/nd_filter_calibration.py: calculate_od_at_new_location lines 355-402", "corgidrp/data.py: GetCTFPMPosition lines 1650-1690"]}
{"id": "C79", "title": "The centroid is the position of the spot", "statement": "centroid_with_roi returns a position inside the frame and within the region of interest, centred exactly for a symmetric spot, moving with the spot and independent of its brightness, for any image, radius (int or float) and guess. (False: negative or NaN pixels, fractional radii and guesses outside the frame.)", "quantifier": "every image, radius and initial guess", "why_tests_cant": "Tests use one Gaussian on a clean background with an integer radius.", "anchors": ["corgidrp/astrom.py: centroid_with_roi lines 38-81"]}
{"id": "C80", "title": "Core throughput is between 0 and 1", "statement": "get_psf_ct returns the flux at or above half the maximum over the unocculted flux, a value in [0,1]. (False: a NaN pixel silently gives 0; with negative pixels the value exceeds 1.)", "quantifier": "every image and normalisation", "why_tests_cant": "Mock PSFs are non-negative and without NaN.", "anchors": ["corgidrp/corethroughput.py: get_psf_ct lines 112-146"]}
{"id": "C81", "title": "Every off-axis frame gets its own estimate", "statement": "estimate_psf_pix_and_ct splits the frames into pupil and off-axis frames, requires one filter and at least one of each, and returns position and throughput of each off-axis frame in order with one normalisation; a pupil image is never measured as an off-axis PSF. (False: incomplete headers; a NaN in a pupil frame voids everything.)", "quantifier": "every dataset", "why_tests_cant": "Mock headers are complete.", "anchors": ["corgidrp/corethroughput.py: estimate_psf_pix_and_ct lines 148-236"]}
{"id": "C82", "title": "The PSF cube is centred on each PSF", "statement": "generate_psf_cube returns one cut-out of 2n+1 by 2n+1 pixels per off-axis frame, centred on the PSF, wherever the PSF is. (False near the edges: it fails, or the PSFs are off-centre.)", "quantifier": "every frame size, location list and half-size", "why_tests_cant": "The mock PSFs are in the middle of the frame.", "anchors": ["corgidrp/corethroughput.py: generate_psf_cube lines 238-324"]}
{"id": "C83", "title": "Core throughput at a separation, and the map on disk", "statement": "get_1d_ct returns the throughput measured nearest to each separation from the mask centre; CreateCTMap samples the requested rectangle and stores the map where asked. (False: the centre is displaced by half a pixel; with a file path nothing is stored.)", "quantifier": "every calibration, mask position, separation, grid and path", "why_tests_cant": "The test compares the half-pixel formula with itself and never passes a path.", "anchors": ["corgidrp/corethroughput.py: get_1d_ct lines 416-455, CreateCTMap lines 457-541"]}
{"id": "C84", "title": "The interpolated core throughput belongs to the target", "statement": "InterpolateCT reports, for requested positions inside the measured radii and in their order, values in [0,1] interpolated at the position's own radius and azimuth; at a measured position it is the measured value. (False: azimuths at or past the largest are looked up elsewhere; the NaN patch writes to the wrong entry or raises.)", "quantifier": "every calibration, interpolant, target list", "why_tests_cant": "Test targets avoid the last azimuth.", "anchors": ["corgidrp/data.py: GetCTFPMPosition lines 1650-1690, InterpolateCT lines 1692-1843"]}
{"id": "C85", "title": "GetPSF returns the nearest PSF", "statement": "The PSF nearest in radius, binned to tenths of a pixel, is returned, among equals the one with the smallest angular distance. (False: binned to whole pixels, angles not wrapped, three equals raise.)", "quantifier": "every calibration and target", "why_tests_cant": "Test radii are whole pixels apart and angles lie in one quadrant.", "anchors": ["corgidrp/data.py: GetPSF lines 1845-1997"]}
{"id": "C78", "title": "Making a calibration product leaves the input frames alone", "statement": "Every calibration product ends with its own DATATYPE and DATALVL, and the headers and data of the frames it was made from keep their values, also when the product is changed later. (False for nine of fourteen creators: they hand the input frame's own header object to the product.)", "quantifier": "every heap of headers, creator and list of extra cards; every list of frames for the on-sky flat", "why_tests_cant": "Tests look at the product and never re-read the headers of the inputs afterwards.", "anchors": ["corgidrp/data.py: Image.__init__ lines 345-346, 389-390", "corgidrp/flat.py: lines 33-34, 232-258", "corgidrp/darks.py: lines 248-255, 440, 749, 802", "corgidrp/calibrate_kgain.py: lines 775-792", "corgidrp/calibrate_nonlin.py: lines 825-830", "corgidrp/fluxcal.py: lines 503-504, 601-602", "corgidrp/nd_filter_calibration.py: lines 332-348", "corgidrp/astrom.py: line 1153", "corgidrp/pump_trap_calibration.py: lines 3292-3297"]}
{"id": "C86", "title": "Position angles and separations are consistent", "statement": "angle_between returns the angle from north (+y) through east (-x) in (0,360], for any two different points; with their distance, seppa2dxdy/seppa2xy lead from the first point to the second, and back; get_polar_dist is the Euclidean distance of the points.", "quantifier": "all pairs of points, separations and angles over the reals", "why_tests_cant": "Tests try a handful of positions.", "anchors": ["corgidrp/astrom.py: angle_between lines 210-237, get_polar_dist lines 239-253, seppa2dxdy/seppa2xy lines 255-291"]}
{"id": "C87", "title": "The north angle of the calibration is the rotation of the frame", "statement": "compute_platescale_and_northangle returns the rotation of the frame as north angle, for all rotations, and match_sources starts from the rotation of the matched triangle. (False: rotations beyond 90 degrees are reported modulo 180; values on both sides of the jump average to nonsense; the initial guess loses its sign; on rectangular images the reference pixel is transposed.)", "quantifier": "all rotations, lists of star pairs, image shapes", "why_tests_cant": "Mock frames are square and rotated by at most a few tens of degrees.", "anchors": ["corgidrp/astrom.py: lines 505-511, 754-800"]}
{"id": "C88", "title": "All combinations are tried exactly once", "statement": "compute_combinations yields every strictly increasing r-tuple of indices below n exactly once, in lexicographic order, and then stops.", "quantifier": "all n and r", "why_tests_cant": "Tests cannot cover all n and r.", "anchors": ["corgidrp/astrom.py: compute_combinations lines 182-208"]}
{"id": "C89", "title": "The boresight offset is the pointing error", "statement": "compute_boresight returns the offset by which the target coordinates have to be corrected, for all pointing errors, declinations and rotations; with no error it returns zero. (False: the right-ascension part has the opposite sign and lacks 1/cos(dec), and a rotation of the frame is applied in the wrong direction.)", "quantifier": "all plate scales, rotations, offsets, non-empty star lists (tangent-plane linearisation)", "why_tests_cant": "The mock frames have almost no pointing error, and the test tolerance is loose.", "anchors": ["corgidrp/astrom.py: compute_boresight lines 803-888, boresight_calibration lines 1113-1120"]}
{"id": "C90", "title": "Distortion coefficients mean the same where fitted and where applied", "statement": "The initial (no-distortion) coefficients describe the identity for every order, and distortion_correction applies to each pixel the displacement that was fitted there. (False: order 0 fails; the fit is centred on pixel 511 and the correction on imgsize//2 = 512; rectangular images fail.)", "quantifier": "all orders, coefficients, pixels and image sizes", "why_tests_cant": "The test compares the corrected image with a tolerance of a fraction of a pixel.", "anchors": ["corgidrp/astrom.py: lines 574-668, 985-992, 1142-1147", "corgidrp/l3_to_l4.py: distortion_correction lines 21-93"]}
{"id": "C91", "title": "find_source_locations finds separate stars, brightest first", "statement": "find_source_locations returns the requested number of different positions; each is the brightest pixel not yet within the mask of an earlier one. (False: with a negative background masked zeros win over real stars; in empty frames a position is repeated; rectangular images fail.)", "quantifier": "all frames, thresholds and widths", "why_tests_cant": "Mock frames are square, with positive noise-free stars.", "anchors": ["corgidrp/astrom.py: find_source_locations lines 293-412"]}
{"id": "C92", "title": "Stars are matched with the right catalogue entries", "statement": "match_sources chooses the field triangle nearest in shape to the image triangle; every detected star is assigned the nearest predicted catalogue star, and no catalogue star twice. (False: the best-shaped triangle can be discarded; two stars can share an entry; the catalogue window ignores the wrap at RA = 0.)", "quantifier": "all triangles, star lists, tolerances", "why_tests_cant": "One star field.", "anchors": ["corgidrp/astrom.py: match_sources lines 414-572"]}
{"id": "C93", "title": "Fitting stamps, grouping of frames and given matches", "statement": "Cut-outs contain the star, have the requested size and give the star's position; every frame belongs to one group of the dither list; a match table given by the user is used as given. (False: frames smaller than the stamp; pair stamps are not centred on either star; zero frames per group; several groups share one file name; matches given as one table; the recorded position card contains one coordinate only.)", "quantifier": "all image sizes, radii, positions, frame counts and group sizes", "why_tests_cant": "Tests use one big frame, one group and no user-given matches.", "anchors": ["corgidrp/astrom.py: lines 83-180, 890-959, 1004-1192"]}
{"id": "C94", "title": "The satellite-spot masks are centred and exact", "statement": "Each pixel of a circle mask holds the fraction of its subpixels within the radius, measured from pixel n//2 plus the shift for even and odd sizes; the mask is point symmetric, and each pair of spots lies symmetrically about the star at the given separation and angle.", "quantifier": "all frame sizes of at least two rows and columns, radii, shifts, subpixel counts, angles and separations", "why_tests_cant": "Tests compare one rendered mask visually; the shortcut for whole pixels needs a proof.", "anchors": ["corgidrp/star_center.py: lines 182-257, 431-483, 723-737, 1015-1026"]}
{"id": "C95", "title": "The star and the spot separation are found at the best-fitting place", "statement": "The one- and two-dimensional optimum finders return the maximum of the fitted parabola, and the iterations end at the star. (False: minima, saddles and places outside the searched interval are returned as well; a cost with largest value zero fails; spot positions are relative to the image centre while the star is absolute; thetaOffsetGuess does not influence the star position.)", "quantifier": "all cost functions, search grids and iteration limits", "why_tests_cant": "Mock spots give well-behaved costs only.", "anchors": ["corgidrp/star_center.py: lines 260-386, 486-1036"]}
{"id": "C96", "title": "find_star reports one position for a well-formed observation and keeps no state", "statement": "find_star returns the science frames (or all) with the star position, uses the parameters of the mode updated by the ones given, rejects ill-formed observations, and does not influence later calls. (False: parameters given once stay in the module-level defaults, even after a failing call; the validation function never accepts anything.)", "quantifier": "all datasets, modes, parameter dictionaries and sequences of calls", "why_tests_cant": "Tests never call find_star twice with different parameters in one session.", "anchors": ["corgidrp/l3_to_l4.py: find_star lines 201-268", "corgidrp/star_center.py: lines 95-179"]}
{"id": "C97", "title": "North-up rotation puts north up and keeps data, errors, flags and header together", "statement": "After northup the CD matrix points north up, data, error and flag arrays are rotated about the same point by the same angle, and the header positions (star location, WCS reference pixel) still belong to the same content, for every rotation centre and orientation.", "quantifier": "all CD matrices, roll angles, rotation centres, array sizes, header contents", "why_tests_cant": "Tests compare the rotated flags with data only roughly and use one square frame with an isotropic CD matrix; offsets of half a pixel and stale header positions are not looked at.", "anchors": ["corgidrp/l3_to_l4.py: northup lines 645-743"]}
{"id": "C98", "title": "PyKLIPDataset keeps images, centres, angles, wavelengths and names aligned and checks its inputs", "statement": "Reading a dataset for pyKLIP accepts exactly the valid frames, gives every integration its own centre, angle, wavelength and name, aligns all images to the middle of the array, puts references and science frames into the library, and records each file once; inner working angle and CD matrix are right.", "quantifier": "all lists of science and reference frames, numbers of integrations, header values", "why_tests_cant": "Tests load a few single-integration frames with equal headers; the inner working angle and the PC/CDELT branch are never compared with anything.", "anchors": ["corgidrp/data.py: PyKLIPDataset lines 1999-2408"]}
{"id": "C99", "title": "PSF subtraction divides the frames, chooses the mode and documents the product correctly", "statement": "do_psf_subtraction uses exactly the science frames as science and the references as references, chooses RDI, ADI or ADI+RDI accordingly, flags exactly the invalid pixels, and its product carries errors, all parent files and a consistent WCS.", "quantifier": "all lists of frames with PSFREF values, reference datasets, modes, pixel values, headers", "why_tests_cant": "Tests use datasets whose PSFREF values are 0 and 1 and never look at errors, parents or WCS of the product.", "anchors": ["corgidrp/l3_to_l4.py: do_psf_subtraction lines 402-643"]}
{"id": "C100", "title": "Injected sources have the requested place and peak, and noise is measured in the annulus without candidates", "statement": "inject_psf takes the nearest calibrated PSF, scales it to the requested peak and puts it where the sky position is in the rolled frame; measure_noise uses exactly the pixels of the annulus which are not near a candidate.", "quantifier": "all calibrations, positions, rolls, amplitudes, separations, candidate lists", "why_tests_cant": "Tests inject a source at the centre of a synthetic PSF grid where a half-pixel choice cannot matter.", "anchors": ["corgidrp/klip_fm.py: lines 12-155"]}
{"id": "C101", "title": "KLIP throughput is the ratio of recovered to injected counts, for each separation", "statement": "meas_klip_thrupt injects the same sources into all frames, none near a candidate, measures the integral of the fitted Gaussian, cuts out the data around each source, and reports for each separation the median throughput of the sources at it.", "quantifier": "all separations, angles, candidate lists, PSF shapes, image sizes, orders of the separations", "why_tests_cant": "Tests use ascending separations, square PSFs and no candidates, so that order, shape and missing values cannot be noticed.", "anchors": ["corgidrp/klip_fm.py: meas_klip_thrupt lines 157-518"]}
{"id": "C102", "title": "Companion photometry recovers the flux ratio and magnitude of a companion", "statement": "measure_companions corrects the host for the ND filter, scales the calibration PSF to the host, corrects the companion for the throughput of PSF subtraction and reports the flux ratio and magnitude at the places given in polar coordinates or in the header; the helper functions keep positions and read the throughput table correctly.", "quantifier": "all fits, optical densities, throughputs, widths, flux ratios, headers", "why_tests_cant": "The end-to-end test allows wide tolerances, uses no ND calibration and never takes the branch with a zero point.", "anchors": ["corgidrp/measure_companions.py: lines 14-494", "corgidrp/nd_filter_calibration.py: line 221"]}
{"id": "C103", "title": "K-gain data are sorted into sub-stacks of equal size and exposure time", "statement": "kgain_dataset_2_list puts every calibration frame into exactly one sub-stack, all of the same size and each of one exposure time, collects the mean frames, and refuses data with inconsistent gains, dates or exposure times; consistent data are accepted.", "quantifier": "all datasets of frames with all header values", "why_tests_cant": "Tests use one simulated TVAC-like dataset in which mean frames have an exposure time of their own.", "anchors": ["corgidrp/calibrate_kgain.py: kgain_dataset_2_list lines 796-915"]}
{"id": "C104", "title": "The photon transfer curve uses all frames and all signals between its limits", "statement": "calibrate_kgain takes the differences of different frames and uses every frame of a sub-stack alike; ptc_bin2 assigns every pixel with a mean signal below the maximum to exactly one bin; every binned mean belongs to one bin of the curve, and all bins with means between min_val and max_val are used; stacks of wrong dimensions are refused.", "quantifier": "all sub-stack sizes, regions, bin widths, signals, curves and limits", "why_tests_cant": "Tests only compare the final gain with a tolerance; losing frames, bins and extreme values does not show in it.", "anchors": ["corgidrp/calibrate_kgain.py: lines 78-130, 372-404, 495-514, 570-627"]}
{"id": "C105", "title": "Gain and read noise are estimated correctly from the photon transfer curve", "statement": "Shot noise is the noise without read noise, the gain of each bin is mean over variance, outliers are clipped without emptying the data, the mask tells which data were clipped, the mode is the gain for exact data, and the read noise is that of all sub-stacks with propagated error.", "quantifier": "all means, deviations, read noises, data lists, numbers of rounds", "why_tests_cant": "Tests accept a gain within a wide tolerance and use simulated data where all sub-stacks have the same read noise.", "anchors": ["corgidrp/calibrate_kgain.py: lines 230-272, 523, 554-560, 647, 676-680, 703-785"]}
{"id": "C106", "title": "Non-linearity data are sorted into one sub-stack per commanded gain and checked", "statement": "nonlin_dataset_2_stack and the checks of calibrate_nonlin put every calibration frame into the sub-stack of its commanded gain, in ascending order of gain, collect the mean frames, record one gain (measured, applied or commanded) for each sub-stack, and accept exactly the consistent data: unit gain and one exposure time for mean frames, distinct and increasing dates, enough frames, a repeated exposure time.", "quantifier": "all datasets of frames with all header values, all minimum numbers and exposure times", "why_tests_cant": "Tests use simulated TVAC-like data without EMGAIN_M, and one violation at a time.", "anchors": ["corgidrp/calibrate_nonlin.py: lines 241-322", "corgidrp/calibrate_nonlin.py: nonlin_dataset_2_stack lines 834-931"]}
{"id": "C107", "title": "Signals of the non-linearity data are measured without bias and corrected for drifts of the lamp", "statement": "The mask is cut at the emptiest histogram bin below the peak; the signal of a frame is the mean of the masked pixels above background; the repeated exposures of the first and second half give the drift of the lamp, and the corrected signals are those of a steady lamp.", "quantifier": "all histograms, masks, frames, numbers of repeated frames, times, exposure times and drifts", "why_tests_cant": "Tests use simulated frames without drift and accept a tolerance.", "anchors": ["corgidrp/calibrate_nonlin.py: lines 442-463, 505-527, 556-576, 585-683"]}
{"id": "C108", "title": "The non-linearity table covers the requested signals, is normalised and corrects the signal", "statement": "The smoothed relative gains belong to their signals; every gain has a column, equal to one at norm_val, and every row a signal from min_write through max_write in steps of 20 DN; the array has the documented layout and is accepted by the non-linearity correction; signal times table entry is proportional to the fitted signal.", "quantifier": "all signals, gains, limits, norm values, smoothing functions and fits", "why_tests_cant": "Tests compare one table with the TVAC result within a tolerance for monotonic signals and default limits.", "anchors": ["corgidrp/calibrate_nonlin.py: lines 326-334, 699-734, 763-776, 804-830", "corgidrp/detector.py: get_relgains lines 16-79"]}
{"id": "C109", "title": "The dipole curves peak where the analysis assumes they do", "statement": "Every single-trap probability function of trap pumping has its maximum at the phase time from which tau is estimated (tau ln 2, tau ln(3/2) and so on); the time constant read from the peak of a fitted curve is that of the trap, with constant and with time-dependent capture.", "quantifier": "all time constants, pump numbers, offsets, capture probabilities and phase times", "why_tests_cant": "Tests compare a few simulated curves; a peak shifted by a few percent stays within tolerance.", "anchors": ["corgidrp/pump_trap_calibration.py: lines 31-186", "corgidrp/pump_trap_calibration.py: lines 1327-1468"]}
{"id": "C110", "title": "Illumination correction subtracts the local background and keeps it for the fit", "statement": "illumination_correction gives, for every pixel, the median of the bin of the image that contains it, every pixel lies in exactly one bin of at least binsize pixels a side, and corrected frame plus illumination is the frame; without correction the whole frame is one bin.", "quantifier": "all images, sizes and bin sizes, all median functions", "why_tests_cant": "Tests use one bin size that divides the image.", "anchors": ["corgidrp/pump_trap_calibration.py: illumination_correction lines 187-260", "corgidrp/pump_trap_calibration.py: lines 2386-2399"]}
{"id": "C111", "title": "Pixels are recognised as traps exactly if enough phase times show the dipole", "statement": "trap_id marks a pixel above (below, both) exactly if the number of phase times at which it is the bright (dark) part of a dipole of at least k_prob deviations reaches length_lim; the three sets are disjoint; the amplitudes belong to the pixel.", "quantifier": "all stacks of frames, thresholds, limits and pixels", "why_tests_cant": "Tests place a few traps; repeated phase times with partly visible dipoles do not occur in them.", "anchors": ["corgidrp/pump_trap_calibration.py: trap_id lines 334-550"]}
{"id": "C112", "title": "The trap fit returns the best model that fits well enough, or nothing", "statement": "trap_fit and trap_fit_const return the one- or two-trap model of the largest adjusted R squared among those above the threshold, whenever one of the curves can be fitted; the adjusted R squared is compared rightly; unfittable curves do not influence the others.", "quantifier": "all fit results, thresholds, schemes and curves, including failing fits", "why_tests_cant": "Tests never make one of the fits fail while another succeeds.", "anchors": ["corgidrp/pump_trap_calibration.py: trap_fit lines 552-1198", "corgidrp/pump_trap_calibration.py: trap_fit_const lines 1200-1989"]}
{"id": "C113", "title": "Fit ranges accepted by the check can be used by every fit", "statement": "Ranges that pass the checks of trap pump calibration give bounds with lower below upper for every parameter, initial guesses within them, and enough data for the number of parameters.", "quantifier": "all ranges, illuminations and numbers of phase times", "why_tests_cant": "Tests use the default ranges.", "anchors": ["corgidrp/pump_trap_calibration.py: lines 552-1198, 2491-2509"]}
{"id": "C114", "title": "Fits of the schemes are assigned to sub-electrode locations", "statement": "Each trap of a location is made of one fit per scheme of the location; every fit is used at most once; the first trap has the smallest spread of tau; the number of traps of a pixel at every location is found if every trap was fitted in each of its schemes.", "quantifier": "all numbers of traps, all fit values and all dictionaries of fits", "why_tests_cant": "Tests simulate a handful of traps in separate pixels.", "anchors": ["corgidrp/pump_trap_calibration.py: lines 2723-3041"]}
{"id": "C115", "title": "The reported number of unused fits is the number of fits not assigned to a trap", "statement": "unused_fit_data equals the number of single-scheme fits left after assigning traps, over all temperatures.", "quantifier": "all dictionaries of left-over fits and numbers of temperatures", "why_tests_cant": "Tests compare with zero.", "anchors": ["corgidrp/pump_trap_calibration.py: lines 2723-3041"]}
{"id": "C116", "title": "Traps at several temperatures are linked into one curve each", "statement": "Every fit of a temperature is appended to exactly one trap, at most one per temperature and in ascending order of temperature, nearest in tau; each linked trap is one physical trap; nothing is left.", "quantifier": "all temperatures, all numbers of traps per temperature and all time constants", "why_tests_cant": "Tests have one trap per location, so the linking is never ambiguous.", "anchors": ["corgidrp/pump_trap_calibration.py: lines 3045-3103"]}
{"id": "C117", "title": "The counters of traps with gaps and with few temperatures are right", "statement": "noncontinuous_count counts exactly the traps that miss a temperature between the first and the last at which they were seen, and two_or_less_count exactly those that cannot be fitted in temperature.", "quantifier": "all lists of temperatures and all traps", "why_tests_cant": "Tests compare with zero for ideal data.", "anchors": ["corgidrp/pump_trap_calibration.py: lines 3104-3119"]}
{"id": "C118", "title": "Trap densities account for every accepted trap", "statement": "A trap enters the densities exactly if its temperature fit has an adjusted R squared of at least cs_fit_thresh; every such trap is in exactly one bin of the histogram, so the densities add up to the number of traps per pixel, and the reported energy and cross section are within half a bin of those of a trap.", "quantifier": "all traps, thresholds, numbers of bins and numbers of pixels", "why_tests_cant": "Tests compare the densities of one simulated set; values near the edges of the histogram range do not occur.", "anchors": ["corgidrp/pump_trap_calibration.py: lines 3109-3157"]}
{"id": "C119", "title": "The trap calibration array represents the traps and can be read back", "statement": "create_TrapCalibration_from_trap_dict writes one line per trap with position, location code, number and values; rebuild_dict reads the same traps back from it; nothing that was measured is lost, and the result can be used again.", "quantifier": "all trap dictionaries with any numbers of temperatures and schemes, including traps without a fit", "why_tests_cant": "Tests read back one array and compare a subset of the values.", "anchors": ["corgidrp/pump_trap_calibration.py: create_TrapCalibration_from_trap_dict lines 3178-3299", "corgidrp/pump_trap_calibration.py: rebuild_dict lines 3301-3336"]}
{"id": "C120", "title": "Energy and cross section follow from the release times, and errors are propagated", "statement": "The release time falls with temperature; two temperatures determine energy and cross section; fit_cs reports the larger of the two error estimates, a time constant that belongs to the reported energy and cross section, and its first-order error.", "quantifier": "all temperatures up to 2900 K, energies, cross sections, errors and covariances", "why_tests_cant": "Tests evaluate one trap with a tolerance.", "anchors": ["corgidrp/pump_trap_calibration.py: tau_temp lines 262-293", "corgidrp/pump_trap_calibration.py: sig_tau_temp lines 295-332", "corgidrp/pump_trap_calibration.py: fit_cs lines 2064-2119"]}
{"id": "C121", "title": "Every trap-pumped frame is analysed with its scheme and number of pumps", "statement": "The frames of a temperature are accepted if each belongs to exactly one scheme and scheme 1 occurs; every scheme is run once, in ascending order, with all its frames and their number of pumps.", "quantifier": "all sets of frames and all values of the four cards", "why_tests_cant": "Tests use equal numbers of frames per scheme and one number of pumps.", "anchors": ["corgidrp/pump_trap_calibration.py: lines 2287-2352"]}
{"id": "C122", "title": "Amplitudes are converted to electrons whatever the units of the frames", "statement": "The factor from scheme 1 makes the median peak equal to the largest number of electrons that can be pumped; all amplitudes that are reported or fitted are in electrons, so the result does not depend on the gain of the camera.", "quantifier": "all series of amplitudes, gains, numbers of pumps and mean fields", "why_tests_cant": "Tests use one gain and do not look at the amplitudes of pixels with two dipoles.", "anchors": ["corgidrp/pump_trap_calibration.py: lines 2424-2474, 2678-2682, 2797-2798"]}
{"id": "C123", "title": "The input checks accept exactly the values they name", "statement": "Each function of check.py returns its argument (or the array made of it) exactly when it is what the name says - a positive finite real, an integer that is not a truth value, a numeric array with so many axes - and otherwise raises the exception class it was given.", "quantifier": "all values that Python and numpy can tell apart here, all names and exception arguments", "why_tests_cant": "Tests try a handful of values per check; NaN, infinities, truth values, arrays of text and ragged lists are not among them.", "anchors": ["corgidrp/check.py: _checkname, _checkexc lines 19-47", "corgidrp/check.py: scalar checks lines 50-72, 202-383", "corgidrp/check.py: array checks lines 75-198"]}
{"id": "C124", "title": "Setting up the configuration keeps what the user has set", "statement": "create_config_dir makes the folder, the default-calibration folder and the configuration file once and for any home directory; existing settings, those of a legacy file included, are kept; update_pipeline_settings reads every spelling of a truth value.", "quantifier": "all states of the home directory, all paths and all contents of the configuration file", "why_tests_cant": "Tests run in one home directory that already has a configuration.", "anchors": ["corgidrp/__init__.py: create_config_dir lines 10-53", "corgidrp/__init__.py: update_pipeline_settings lines 56-75"]}
{"id": "C125", "title": "After set-up the default calibrations and those of the calibration folder are in the database", "statement": "initialize makes the default DetectorParams and FpamFsamCal files if they are missing and registers them; after step_1_initialize and step_2_load_cal both defaults and every calibration in the folder are found in the database under their type.", "quantifier": "all contents of the default folder, the calibration folder and the database", "why_tests_cant": "Tests start from whatever database the machine has; the case of a new database next to existing default files never occurs in them.", "anchors": ["corgidrp/caldb.py: initialize lines 365-392", "corgidrp/caldb.py: scan_dir_for_new_entries lines 330-361", "corgidrp/ops.py: lines 7-33"]}
{"id": "C126", "title": "Detector parameters are the given values or the defaults, and the hash tells them apart", "statement": "DetectorParams(values) has for each of the fourteen parameters the value handed in, else the default; a value that cannot be used is refused; files with the old names can still be read; different parameters have different hashed text.", "quantifier": "all dictionaries of values and all headers", "why_tests_cant": "Tests change one parameter under its new name and compare two hashes.", "anchors": ["corgidrp/data.py: DetectorParams lines 1100-1232"]}
{"id": "C127", "title": "A new calibration product documents its inputs, has a name, or is refused", "statement": "A calibration object made from data and headers lists all input files and their parents in its header; without inputs it is made only if its header has such a list, and otherwise refused with the announced ValueError; what is made has a default name and can be saved.", "quantifier": "all calibration classes, headers with or without a record, and lists of inputs, in any order of the set", "why_tests_cant": "Tests make each class once, from fresh frames, and look at the number of files at most.", "anchors": ["corgidrp/data.py: Image._record_parent_filenames lines 468-490", "corgidrp/data.py: Dark lines 638-666", "corgidrp/data.py: FlatField 697-714, KGain 877-896, BadPixelMap 961-983, DetectorNoiseMaps 1033-1059", "corgidrp/data.py: FluxcalFactor 1406-1435, NDFilterSweetSpotDataset 2468-2481", "corgidrp/darks.py: build_synthesized_dark lines 852-872"]}
{"id": "C128", "title": "Default file names of calibration products follow the convention", "statement": "The default name of a calibration product is the name of the last input with the data level replaced by the tag of the product; different products have different names, and none has the name of its input.", "quantifier": "all file names and all calibration classes", "why_tests_cant": "Tests use one or two file names of the standard form.", "anchors": ["corgidrp/data.py: lines 657-661, 711, 809, 888, 974-977, 1051-1057, 1283-1284, 1332-1334, 1419, 1434-1435, 1634, 2471"]}
{"id": "C129", "title": "Images are made consistent, and saving and loading preserves them", "statement": "The constructor gives every image an error array with layers of the shape of the data and flags of that shape, or refuses; with individual errors switched off only the combined error is kept; what save writes, loading gives back; extensions have different names; the path of a loaded image is that of its file.", "quantifier": "all shapes, layers, names of extensions and paths", "why_tests_cant": "Tests use square frames with one or three layers and paths in one directory.", "anchors": ["corgidrp/data.py: Image.__init__ lines 276-427", "corgidrp/data.py: Image.save lines 436-466", "corgidrp/data.py: KGain.save lines 913-940", "corgidrp/data.py: add_extension_hdu lines 601-617"]}
{"id": "C130", "title": "The hash of a calibration product identifies its contents", "statement": "Two products have the same hash (up to collisions of the hash function) exactly if they have the same contents, also if the hashes were made at different times.", "quantifier": "all contents, hash functions and salts", "why_tests_cant": "Tests compare hashes within one process.", "anchors": ["corgidrp/data.py: Image.get_hash lines 586-599", "corgidrp/caldb.py: line 160"]}
{"id": "C131", "title": "Every recipe template raises its frames to its level and labels the values rightly", "statement": "For each of the recipe templates: the steps can run in order exactly from the level the template is for, the frames end at its target level, and the unit written in the header (image and error) is the unit of the values; the chain of templates that the walker chooses by itself brings L1 frames to L4.", "quantifier": "all templates, all frames and all gains, exposure times and values", "why_tests_cant": "End-to-end tests run some templates on simulated data and look at the values, not at level and units of every template.", "anchors": ["corgidrp/recipe_templates/*.json", "corgidrp/l1_to_l2a.py: update_to_l2a lines 333-364", "corgidrp/l2a_to_l2b.py: update_to_l2b lines 427-457", "corgidrp/l2b_to_l3.py: divide_by_exptime and update_to_l3 lines 104, 112-142", "corgidrp/l3_to_l4.py: update_to_l4 lines 751-789", "corgidrp/walker.py: guess_template"]}
{"id": "C132", "title": "Saved outputs have their own names", "statement": "The file a step saves is the image's name with an underscore and the suffix before the extension, the suffix without underscores at its ends; images with different names are saved to different files; a template given as text is read from that path or from the recipe folder.", "quantifier": "all file names, suffixes and paths", "why_tests_cant": "Tests save frames with two or three names of the standard form.", "anchors": ["corgidrp/walker.py: lines 83-90, 305-344"]}
{"id": "C133", "title": "The frame identifier is the number at the end of the file name", "statement": "`extract_frame_id` gives the number between the last underscore and the extension, for every name that has one; every name of the pipeline has one, and different frames have different identifiers.", "quantifier": "all file names", "why_tests_cant": "Tests use mock frames whose names end in digits.", "anchors": ["corgidrp/sorting.py: extract_frame_id lines 6-20"]}
{"id": "C134", "title": "Pupil counts are translated to imaging counts with the right filter curve", "statement": "`get_cfam` finds the curve of the filter and version asked for; `di_over_pil_transmission` lies between the smallest and the largest ratio of the two lenses in the band and turns pupil counts into the counts the imaging lens would have given.", "quantifier": "all directory listings in any order, all filter and lens curves, all source spectra", "why_tests_cant": "Tests use the shipped curves in the listing order of one machine and do not compare with spectra.", "anchors": ["corgidrp/corethroughput.py: get_cfam lines 11-37", "corgidrp/corethroughput.py: di_over_pil_transmission lines 39-88", "corgidrp/fluxcal.py: get_filter_name lines 64-83"]}
{"id": "C135", "title": "Read noise of a frame from the difference of two", "statement": "`diff2std` gives the noise of one frame if the two are independent and equally noisy; common patterns and offsets drop out. The histogram counts every pixel in range once, at its value; the Gaussian fit to it has one solution. The parameter checks accept exactly usable parameters.", "quantifier": "all frames, histograms, widths and dictionaries", "why_tests_cant": "Tests use simulated frames with one noise level and compare with tolerances; the checks are tested with missing and non-numeric entries.", "anchors": ["corgidrp/calibrate_kgain.py: check_kgain_params lines 32-71", "corgidrp/calibrate_kgain.py: diff2std, gauss, sgaussfit, Single_peakfit, histc_roi lines 132-228", "corgidrp/calibrate_kgain.py: lines 458-459", "corgidrp/calibrate_nonlin.py: check_nonlin_params lines 46-116"]}
{"id": "C136", "title": "Counts and flux ratios of companions without throughput correction", "statement": "The measured counts are the light in the aperture above the background; the flux ratio of a companion that is a scaled copy of the star is the scale; there is one row for each companion, and wrong arguments are refused.", "quantifier": "all images, apertures, background estimators that follow scale and offset, and all combinations of arguments", "why_tests_cant": "The test uses one scene with three companions.", "anchors": ["corgidrp/measure_companions.py: lines 106-242", "corgidrp/measure_companions.py: measure_counts, get_photometry_kwargs, simplified_psf_sub lines 259-320", "corgidrp/measure_companions.py: extract_single_frame lines 498-520", "corgidrp/fluxcal.py: aper_phot lines 322-338"]}
{"id": "C137", "title": "Fit of the distortion coefficients", "statement": "The cost of the distortion fit is zero exactly for the coefficients that undistort every pair of stars to its expected separation and direction; these coefficients are the ones used for the correction later, and the fit starts for every order and number of stars that determines them.", "quantifier": "all pairs, coefficients, errors, orders, numbers of stars and frames", "why_tests_cant": "The tests fit one simulated field and compare the corrected positions in the central region with a tolerance.", "anchors": ["corgidrp/astrom.py: lines 574-668", "corgidrp/astrom.py: lines 890-959", "corgidrp/astrom.py: lines 961-1001", "corgidrp/astrom.py: lines 1135-1140"]}
{"id": "C138", "title": "Inner mask, PSF subtraction and header cards of the source search", "statement": "The mask of the S/N map reaches to the innermost finite pixel; a detected source that has the shape of the PSF is removed completely, nothing outside its window changes and its core cannot be found again; the header lists exactly the sources found, at the positions found.", "quantifier": "all images, PSFs, widths, positions and earlier headers", "why_tests_cant": "Tests inject sources into one simulated frame and accept a fraction of missed and false detections.", "anchors": ["corgidrp/find_source.py: make_snmap lines 5-38", "corgidrp/find_source.py: psf_scalesub lines 41-73", "corgidrp/l4_to_tda.py: find_source lines 467-494", "corgidrp/measure_companions.py: parse_companions lines 247-255"]}
{"id": "C139", "title": "Interpolation in the ND sweet-spot calibration", "statement": "The density at a position is defined exactly where the calibration covers it, equals the measured value at measured points, is exact for densities that vary linearly, lies between the values around it, follows the requested method, and is defined for every calibration that was accepted; bright and dim frames are told apart by their filter.", "quantifier": "all sets of measured points, triangulations, positions, argument shapes, methods and frame headers", "why_tests_cant": "Tests query one synthetic raster of five points at a few positions.", "anchors": ["corgidrp/data.py: NDFilterSweetSpotDataset.interpolate_od lines 2488-2502", "corgidrp/nd_filter_calibration.py: group_by_keyword lines 33-65", "corgidrp/nd_filter_calibration.py: interpolate_od lines 68-95", "corgidrp/nd_filter_calibration.py: lines 436-452", "corgidrp/l4_to_tda.py: line 290"]}
{"id": "C140", "title": "First moments of an image", "statement": "The centroid does not depend on the brightness of the star, is the pixel of a one-pixel star, lies inside the image and is that of the star also on a uniform background; the offset of two equal stars does not depend on where the centroid was taken.", "quantifier": "all image sizes, images, brightnesses, backgrounds and offsets", "why_tests_cant": "Tests use simulated fields without background, where the bias is zero.", "anchors": ["corgidrp/astrom.py: centroid lines 17-35", "corgidrp/astrom.py: measure_offset lines 150-178"]}
{"id": "C141", "title": "Companion cards after cropping", "statement": "When an image is cropped around its star, the card of a companion is moved by the same number of pixels as the companion; the signal-to-noise text stays; cards are read as they were written.", "quantifier": "all cards, positions, star positions and header texts", "why_tests_cant": "The test uses one frame with the star at the position that is hard-coded in the function.", "anchors": ["corgidrp/measure_companions.py: update_companion_location_in_cropped_image lines 467-494", "corgidrp/measure_companions.py: forward_model_psf lines 424-425", "corgidrp/measure_companions.py: forward_model_psf lines 458-461"]}
{"id": "C142", "title": "File of the calibration database", "statement": "A database that is saved and opened again has the same columns and rows, whatever characters its texts hold; opening a path without a file makes an empty database with the standard columns; a product can be entered exactly if its header has the columns of the file beyond the eleventh.", "quantifier": "all tables with at least two columns, all texts, paths, default paths and files", "why_tests_cant": "Tests reload databases whose paths and modes hold no special characters and are never empty.", "anchors": ["corgidrp/caldb.py: column_dtypes lines 11-28", "corgidrp/caldb.py: CalDB.__init__ lines 60-82", "corgidrp/caldb.py: CalDB.load, save lines 84-94", "corgidrp/caldb.py: lines 153-156, 190-193"]}
{"id": "C143", "title": "Spectra of the standard stars", "statement": "A known star gives its own file with the content of the archive, an unknown star a ValueError without side effects; a spectrum that was downloaded before stays available, and a failed download does not damage it; the error says what failed.", "quantifier": "all star names, archive contents, states of the disk and outcomes of the download", "why_tests_cant": "Tests download two spectra with a working network into a fresh directory.", "anchors": ["corgidrp/fluxcal.py: calspec_names lines 18-36", "corgidrp/fluxcal.py: get_calspec_file lines 40-62"]}
{"id": "C144", "title": "The recipe from L1 to L2b returns the scene", "statement": "On frames without noise from a detector with a bias in every row, a non-linear response, pixel sensitivities, light during read-out, dark current, clock-induced charge, fixed pattern, EM gain and k-gain, and with calibrations that describe this detector, the value-changing steps of l1_to_l2b.json in their order succeed and return, in every pixel of non-zero sensitivity, exactly the electrons of the scene; divided by the exposure time they are the rate. The noise maps asked for are those calibrate_darks_lsq makes of dark frames of the same detector. Flat division before desmearing does not have the property.", "quantifier": "for every non-empty dataset of equal settings, every scene of each frame, every detector with gain at least 1, k-gain not 0 and invertible smear, every usable non-linearity table, bias and offset", "why_tests_cant": "End-to-end tests compare a few mock frames with tolerances wide enough for the noise, and take each calibration from the same mock functions.", "anchors": ["corgidrp/recipe_templates/l1_to_l2b.json", "corgidrp/l1_to_l2a.py: prescan_biassub lines 6-157", "corgidrp/l1_to_l2a.py: correct_nonlinearity lines 288-331", "corgidrp/l2a_to_l2b.py: convert_to_electrons lines 256-286", "corgidrp/l2a_to_l2b.py: em_gain_division lines 288-327", "corgidrp/l2a_to_l2b.py: dark_subtraction lines 45-115", "corgidrp/l2a_to_l2b.py: desmear lines 388-425", "corgidrp/l2a_to_l2b.py: flat_division lines 118-155"]}
{"id": "C145", "title": "Conversion of a dataset to flux units", "statement": "convert_to_flux multiplies data and errors of every frame by the flux factor divided by the colour correction of that frame, adds the uncertainty of the factor in quadrature (relative uncertainties add in quadrature), converts every tracked error layer, accepts two- and three-dimensional frames, and converts a dataset only once. (False: the colour correction of the first frame is used for all; three-dimensional frames are refused; converted data are converted again.)", "quantifier": "every dataset of frames of equal shape, every factor, uncertainty, colour correction and pixel, with and without tracking of errors", "why_tests_cant": "The test converts one mock image with a factor and looks at a few pixels; datasets of different colour corrections, cubes and repeated conversions do not occur.", "anchors": ["corgidrp/l4_to_tda.py: convert_to_flux lines 138-174", "corgidrp/data.py: Dataset.rescale_error lines 175-198", "corgidrp/data.py: Image.rescale_error lines 562-583"]}
{"id": "C146", "title": "Calibration objects that are accepted can be used", "statement": "What the constructors of calibration classes accept is exactly the documented format, is refused with ValueError otherwise, and can be used by the steps it is meant for; a flux factor names the neutral density filter in the beam. (False: the documented smallest non-linearity table and the documented length of an astrometric calibration cannot be used; incomplete core throughput files raise IndexError or KeyError; a filter in FSAM is overlooked when FPAM has a name.)", "quantifier": "every shape, list of extensions, table, list of coefficients, order and pair of names", "why_tests_cant": "Tests construct each class from one valid array and a few invalid ones; acceptance and use are tested apart.", "anchors": ["corgidrp/data.py: NonLinearityCalibration lines 773-781", "corgidrp/data.py: DetectorNoiseMaps lines 1018-1028", "corgidrp/data.py: AstrometricCalibration lines 1234-1266", "corgidrp/data.py: FluxcalFactor lines 1366-1386", "corgidrp/data.py: FpamFsamCal lines 1484-1489", "corgidrp/data.py: CoreThroughputCalibration lines 1565-1607", "corgidrp/data.py: NDFilterSweetSpotDataset lines 2455-2459", "corgidrp/l3_to_l4.py: distortion_correction lines 35-73"]}
{"id": "C147", "title": "Errors of the recipe from L1 to L2b", "statement": "The error of an L2b frame is the propagated error: in every pixel the independent contributions of the read-out, the k-gain, the photons (with the excess noise of the gain register), the dark and the flat, each carried through all later steps. (False: it is NaN wherever the value was negative before the dark was subtracted; the non-linearity correction and the desmearing change values and not errors; the photon noise includes the fixed pattern.)", "quantifier": "every dataset, detector, set of calibrations and pixel; every table of non-linearities", "why_tests_cant": "Tests check the error of one step at a time, on frames with positive values; no test follows an error through the recipe.", "anchors": ["corgidrp/recipe_templates/l1_to_l2b.json", "corgidrp/l1_to_l2a.py: prescan_biassub lines 127-150", "corgidrp/l1_to_l2a.py: correct_nonlinearity lines 288-331", "corgidrp/l2a_to_l2b.py: add_photon_noise lines 8-42", "corgidrp/l2a_to_l2b.py: dark_subtraction lines 45-115", "corgidrp/l2a_to_l2b.py: flat_division lines 118-155", "corgidrp/l2a_to_l2b.py: convert_to_electrons lines 256-286", "corgidrp/l2a_to_l2b.py: desmear lines 388-425"]}
{"id": "C148", "title": "Magnitudes, colour corrections and apertures of datasets", "statement": "The magnitude and the colour correction written into a frame are those of its own filter: datasets of several filters or targets are refused, the star is the file or the standard star that was named, and the aperture is centred on the star. (False: determine_color_cor uses the filter of the first frame for all; a path that does not end in lower-case .fits is taken for the name of a star; an input of another type fails on a name that was never set; an aperture placed with the world coordinates is one pixel off in both directions.)", "quantifier": "every dataset, image, star, scale factor, set of filter curves and spectra", "why_tests_cant": "Tests use one filter per dataset, files with the suffix .fits, and only the centring method xy.", "anchors": ["corgidrp/l4_to_tda.py: determine_app_mag lines 15-84", "corgidrp/l4_to_tda.py: determine_color_cor lines 87-135", "corgidrp/fluxcal.py: get_filter_name lines 64-83", "corgidrp/fluxcal.py: aper_phot lines 308-319", "corgidrp/fluxcal.py: phot_by_gauss2d_fit lines 373-384"]}
{"id": "C149", "title": "The raster kernel of flat fields", "statement": "raster_kernel is a disc of the given radius (or a Gaussian of the given width) of the size of the image and in its middle. (False: it is one row and one column larger than the image; its centre is one pixel from the middle in both directions; the width is the diameter of the disc; and for widths below two the second assignment clears what the first has marked, so that the kernel is zero everywhere.)", "quantifier": "every width, every size of the image, every pixel", "why_tests_cant": "Tests use one radius of 40 pixels on one image size, inside a simulation whose result is compared with a tolerance.", "anchors": ["corgidrp/flat.py: raster_kernel lines 43-74", "corgidrp/mocks.py: create_onsky_rasterscans line 939"]}
{"id": "C150", "title": "Newton's method of the photometric correction converges to the flux that explains the counts", "statement": "Repeating the Newton step of the photometric correction brings the mean towards the one flux that explains the detections, from below and without error; the number of iterations only decides how close it comes. (True for pixels that a flux explains, once the first step gives a flux that is not negative, which holds exactly up to a limit that depends on the threshold and lies between 86 and 100 per cent of corrected detections; the result after any number of steps is below the true flux. False for pixels that no flux explains: their result grows with the number of iterations beyond every bound and no error is raised.)", "quantifier": "every number of frames and detections, every threshold up to the gain, every number of iterations", "why_tests_cant": "Tests run two iterations on simulated frames of one flux and compare with a tolerance; a limit over the number of iterations and a bound on the side of the error cannot be sampled.", "anchors": ["corgidrp/photon_counting.py: corr_photon_count lines 337-358", "corgidrp/photon_counting.py: calc_lam_approx lines 361-392", "corgidrp/photon_counting.py: lam_newton_fit lines 395-428"]}
{"id": "C151", "title": "Photon-counted light frames minus a photon-counted master dark give the flux of the scene", "statement": "A master dark made by get_pc_mean can be used by get_pc_mean for light frames taken with the same settings and is refused for others; with enough iterations each pixel of the result is the flux that explains its light counts minus the flux that explains the dark counts. (Accepted exactly if threshold and number of frames fit; the limit is right, with negative differences set to 0. False for the settings: the master dark keeps no trace of exposure time and conversion gain that get_pc_mean would look at, so darks of every exposure time are accepted and the result is wrong by the dark current times the difference.)", "quantifier": "every dataset of darks and light frames, every bin size, every pixel, every number of iterations", "why_tests_cant": "Tests make light frames and darks with the same settings from one simulation and compare means over all pixels; no test uses a dark of another exposure time or gain.", "anchors": ["corgidrp/photon_counting.py: get_pc_mean lines 62-335", "corgidrp/photon_counting.py: corr_photon_count lines 337-358", "corgidrp/recipe_templates/l2a_to_l2b_pc.json"]}
{"id": "C152", "title": "The automatically chosen dark can be used by the step it is chosen for", "statement": "If the database has a dark that fits the frames, the dark chosen by get_calib for a recipe step can be used by that step. (False: the choice looks only at type, exposure time and date; if the nearest dark of that exposure time has another gain or is of the other kind (analog or photon-counted), dark_subtraction or get_pc_mean raises, however many fitting darks there are. It works if all darks of that exposure time fit.)", "quantifier": "every database, every frame, every dark product", "why_tests_cant": "Tests choose from a database with one or two darks of the same kind and gain and never run a step with the chosen one together with an unsuitable nearer one.", "anchors": ["corgidrp/caldb.py: get_calib lines 260-328", "corgidrp/l2a_to_l2b.py: dark_subtraction lines 85-96", "corgidrp/photon_counting.py: get_pc_mean lines 273-286", "corgidrp/walker.py: line 210", "corgidrp/recipe_templates/l2a_to_l2b_pc.json"]}
{"id": "C153", "title": "The star is where the regions of interest hold most light", "statement": "The mask of the regions of interest has values between 0 and 1; no other place or separation has more energy than the true one if the light lies within the regions; started at the star, the search returns the star for every image that is symmetric about it, and finds it for every spot size. (False: overlapping regions count light twice, and spots that stay inside their regions for all offsets tried end the search with an error.)", "quantifier": "all frame sizes of at least two rows and columns, images, angles, separations, radii, subpixel counts, grids and iteration counts, and every least-squares solver", "why_tests_cant": "test_find_star.py uses mock Gaussian spots of one size at a few positions per mode and accepts 0.1 pixel.", "anchors": ["corgidrp/star_center.py: _roi_mask_for_spots and _cost_func_spots lines 443-505", "corgidrp/star_center.py: calc_star_location_from_spots lines 706-763", "corgidrp/star_center.py: find_optimum_2d lines 336-386"]}
{"id": "C154", "title": "From raw counts to flux and magnitude", "statement": "From raw frames of a standard star and of a target, through L1 to L2b, the division by the exposure time, aperture photometry and the flux calibration factor, determine_flux writes the band flux of the target and its Vega magnitude, whatever the exposure times, gains, bias, dark, flat, smear, skies and numbers of frames of the two observations; with a colour correction it is the flux density at the reference wavelength, times the ratio of band flux to flux density of the standard. Observations with another throughput than that of the standard are not given a flux. (The last part is false: the flux is right exactly if efficiency times the measured part of the light, over the enclosed energy, agree; a neutral density filter of transmission t on the standard alone makes all fluxes too high by 1/t.)", "quantifier": "all detectors, calibrations, settings, scenes of a star on a uniform sky, apertures with weights and flagged pixels, spectra, filters and numbers of frames", "why_tests_cant": "test_fluxcal.py calibrates and measures the same mock star, on frames that are already rates; no test composes the detector steps with the photometry or measures another star than the standard.", "anchors": ["corgidrp/fluxcal.py: calibrate_fluxcal_aper lines 412-517 and aper_phot lines 275-343", "corgidrp/l4_to_tda.py: determine_flux lines 320-394", "corgidrp/l2b_to_l3.py: divide_by_exptime lines 73-110", "corgidrp/recipe_templates/l1_to_l2b.json"]}
{"id": "C155", "title": "Plate scale and north angle of a field of stars", "statement": "For an image of the sky with one scale and one rotation about the middle, the returned plate scale is the scale and the north angle the rotation, whatever random pairs are drawn; with measurement errors the plate scale lies within the bounds of the ratios of all pairs. All stars within the documented fraction center_radius of the image are used. (The last part is false: the crop agrees with it only for 1; below 0.5 no star is used and both results are NaN.)", "quantifier": "all fields, scales, rotations below a quarter turn, image sizes, fractions and random draws", "why_tests_cant": "test_astrom.py uses one mock field with the default fraction and accepts 0.5 mas per pixel; the random draw differs from run to run.", "anchors": ["corgidrp/astrom.py: compute_platescale_and_northangle lines 670-801", "corgidrp/astrom.py: boresight_calibration lines 1021 and 1115"]}
{"id": "C156", "title": "The optimiser of the satellite spots moves off its guess towards the star", "statement": "calc_star_location_and_spot_separation returns, within the tolerances around the guess, the place and separation whose regions of interest hold the most light, so that for an image whose light lies in the regions around the star it returns regions that hold that light; the result depends on the image and not only on the guess", "quantifier": "for all images, guesses, radii, numbers of subpixels, angles, tolerances, and all minimisers with the stated property", "why_tests_cant": "the function has no test and no caller in the repository; a test would run one image with one method of scipy", "anchors": ["corgidrp/star_center.py:508-620", "corgidrp/star_center.py:486-505", "corgidrp/star_center.py:443-483"]}
{"id": "C157", "title": "A calibration made again replaces the old one; the flat recipe uses its own flat", "statement": "A calibration that was just saved is the one the database returns for its own date, also if the same frames were processed before; the bad pixel map of the recipe for flat and bad pixels is made with the flat of the same run; registering a calibration leaves the choice of the other types unchanged, so several recipes may be filled in before the first is run", "quantifier": "for all databases, calibrations, names, dates, exposure times and reference frames", "why_tests_cant": "the end-to-end test of the flat recipe clears its flats from the database or uses one run; it compares one flat and one bad pixel map", "anchors": ["corgidrp/caldb.py:201-328", "corgidrp/walker.py:336-344", "corgidrp/walker.py:405-432", "corgidrp/walker.py:92-104", "corgidrp/recipe_templates/l1_flat_and_bp.json"]}
{"id": "C158", "title": "From a calibration field to the position angle of a companion", "statement": "With plate scale and north angle measured on a calibration field, the WCS of create_wcs and the frame turned by northup show an object at its separation and position angle from the star, whatever the rolls at which the calibration field and the target were observed", "quantifier": "for all detector angles, scales, rolls of calibration and target, calibration fields, frame sizes, star positions, separations and position angles", "why_tests_cant": "every simulated calibration field has ROLL 0 (mocks.py 1716: assume a telescope roll = 0 for now), so a roll that stays in the north angle cannot show", "anchors": ["corgidrp/astrom.py:1094-1133", "corgidrp/astrom.py:670-801", "corgidrp/l2b_to_l3.py:20-60", "corgidrp/l3_to_l4.py:645-743"]}
{"id": "C159", "title": "The recipe in the headers of a product is the one that made it", "statement": "The card RECIPE of every product names exactly the calibrations that were loaded for the steps before it, and running the recorded recipe on the same inputs repeats the run, whatever has been added to the calibration database since. (True when calibrations are resolved as the recipe is made, and with resolution just in time if no optional calibration was missing and missing ones do not mark steps. False for bad pixel maps, which carry the recipe of the dark; for runs just in time with an optional calibration missing, whose recorded recipe raises; and for steps marked to be skipped just in time.)", "quantifier": "for all recipes, step functions, databases, calibration files, settings and data, at every save", "why_tests_cant": "the tests check that the card is there and that the recipe object has no AUTOMATIC left (test_walker.py 479 looks at the object, not at the card it has just loaded); none runs a recorded recipe or reads the card of a bad pixel map", "anchors": ["corgidrp/walker.py:348-441", "corgidrp/walker.py:183-228", "corgidrp/bad_pixel_calibration.py:24-58"]}
{"id": "C160", "title": "An interrupted save of the calibration database loses nothing", "statement": "If the process ends while the calibration database is being saved, opening it again gives the table from before the save or the one from after it. (False: the file is emptied and written again, so what is left is a number of rows as they were and at most one that is cut off; all others are lost. If the save adds a row, the table is the old one or the new one exactly at four places of the interruption: the end of the old text and of the new one, with or without the last line end. The cut row makes the file impossible to open unless something of NAXIS2 was written, and then it is opened without an error with values that were never stored.)", "quantifier": "for all tables of fields without commas, quotes and line ends and all places of the interruption", "why_tests_cant": "the tests save databases to the end; none stops in a save or opens a file that was cut off", "anchors": ["corgidrp/caldb.py:11-26", "corgidrp/caldb.py:84-94"]}
{"id": "C161", "title": "Rounding does not spoil the steps from L1 to L2b", "statement": "With a rounding after every operation, a desmeared frame differs from the exact result by no more than a small multiple of the precision times the largest value of the column, however many rows there are, and the value of a pixel after bias, non-linearity, gains, dark and flat by no more than six roundings of the sum of its terms; in float64 these are 2e-12 of the largest value (up to 1024 rows) and 2e-15. (False for frames of integers: the array of the smear takes the type of the frame, so its fraction is cut off, and a smear of less than one count is not removed at all.)", "quantifier": "for all columns, row times, exposure times, precisions and roundings to nearest, and all values of the corrections", "why_tests_cant": "the test of desmear compares one simulated float frame with a tolerance; no test looks at the growth of rounding errors with the rows or desmears a frame of integers", "anchors": ["corgidrp/l2a_to_l2b.py:405-419", "corgidrp/l2a_to_l2b.py:45-116", "corgidrp/l2a_to_l2b.py:118-160", "corgidrp/l2a_to_l2b.py:256-330"]}
{"id": "C162", "title": "Sums, means and errors with rounding", "statement": "Whatever the order in which numpy adds, a sum or mean of frames differs from the exact one by at most as many roundings as the longest way has additions, relative to the sum of absolute values; sums of values that are not negative, the error of a mean and the total of error terms are right to a small relative error; counts of photons and frames are exact; and the result does not depend on the order. (The last is false for equality: the sum of 2^53, 1 and -2^53 depends on the order and its relative error has no bound; two orders differ by no more than the sum of their errors.)", "quantifier": "for all lists of values, orders of addition, precisions and roundings to nearest", "why_tests_cant": "tests compare sums of a few frames with a tolerance; no test bounds the error for all orders and numbers of frames", "anchors": ["corgidrp/combine.py:24-47", "corgidrp/data.py:545-549", "corgidrp/photon_counting.py:239-249"]}
{"id": "C163", "title": "The photometric correction returns the mean number of electrons", "statement": "Let a pixel receive a Poisson number of electrons of mean l per frame, and let the gain register turn k electrons into a sum of k exponential variables of mean g. If the number of frames above the threshold t is the expected one, the photometric correction (its equation solved exactly) returns l. (False for every l > 0: the code's probability eps leaves out four and more electrons, so it is too small, by at most l^4/24, and the solution is too large; by at most l^4 e^(t/g)/3, and below 1e-4 up to l = 0.1 with t <= g. The first guess has a bias of its own; with threshold 0 it is exact and Newton's steps move away from it.)", "quantifier": "for all means l > 0, thresholds t >= 0, gains g > 0, numbers of frames and all solutions", "why_tests_cant": "the tests compare means over simulated frames with the illumination to 1 and 6 percent (test_photon_counting.py 82, 142, 179); noise hides the bias, and they do not know the probabilities", "anchors": ["corgidrp/photon_counting.py:337-358", "corgidrp/photon_counting.py:361-392", "corgidrp/photon_counting.py:395-428", "corgidrp/photon_counting.py:430-453"]}
{"id": "C164", "title": "Errors of combined frames are standard deviations", "statement": "If the errors of frames are the standard deviations of their values, so is the error of their combination. (True of the mean of frames with uncorrelated errors. False after the subtraction of one dark from all frames: the variance is larger than the squared error by the variance of the dark times 1 - 1/m, with m frames that are not flagged; so the error is right exactly for one frame or an exact dark, and goes to 0 with more frames while the standard deviation stays above that of the dark. Likewise after multiplication by one measured k-gain. False of the median of one or two frames, which is their mean, but with a squared error of pi/2 times the variance.)", "quantifier": "for all numbers of frames, flags, random variables with finite variance and pairwise uncorrelated frames", "why_tests_cant": "the tests check the errors of frames of constants against the formula in the code (test_combine.py 39, 56, 86, 94, 125, 157, 188); none compares an error with a scatter", "anchors": ["corgidrp/combine.py:8-49", "corgidrp/l2a_to_l2b.py:45-116", "corgidrp/l2a_to_l2b.py:256-286"]}
{"id": "C165", "title": "The table of companions gives measured places and corrected values", "statement": "With the throughput of the L4 product, measure_companions returns one row for each candidate, in order, with the fitted place, the flux ratio corrected by the throughput of the KL mode and separation of the companion, and its magnitude. (True: rows and order; frame and throughput are of the same mode for indices from both ends; at separations of the table, with the width kept, ratio and magnitude relative to the host are exact; between them the throughput is off by at most half the spacing times its slope. False: the place is the guess whatever the fit finds; inside the first separation the throughput of the first is used; the magnitude from a zero point lacks the corrections for PSF subtraction and mask, and is right exactly if their product is 1.)", "quantifier": "for all products, KL mode indices, candidates, fit results, throughput curves and scenes", "why_tests_cant": "the test gives the true places as candidates and checks that they come back to 5 pixels (test_measure_companions.py 351-353, 384-385), has two candidates, at 13 and 18 pixels, and never uses the zero point", "anchors": ["corgidrp/measure_companions.py:93-156", "corgidrp/measure_companions.py:208-234"]}
{"id": "C166", "title": "The result does not depend on the order of the input files", "statement": "Products made of several frames are the same for every order of the input files. (True: combined images with errors and flags when all are combined, traditional darks with errors and flags and whether they can be made, pixels of the flat field, the stacks for the nonlinearity when both orders are accepted. Photon-counted means if the frames that come first agree in measured gain and ISPC. False: the name and the headers of a combined frame; a photon-counted bin whose frames differ in measured gain is made in one order and refused in the other; frames corrected with noise maps differ, exactly where the dark of the gains of the two first frames differs; sub-stacks for the k-gain pair other frames.)", "quantifier": "for all lists of frames and all permutations of them", "why_tests_cant": "no test of these steps gives the same frames in two orders; only the sorting of pupil images is tested with a shuffled list (test_sort_pupilimg_frames.py 374-375)", "anchors": ["corgidrp/combine.py:8-108", "corgidrp/darks.py:127-263", "corgidrp/photon_counting.py:136-312", "corgidrp/l2a_to_l2b.py:45-116", "corgidrp/flat.py:17-41", "corgidrp/calibrate_nonlin.py:854-931", "corgidrp/calibrate_kgain.py:815-915"]}
{"id": "C167", "title": "A step applied to its own result is refused or changes nothing", "statement": "Recipes are files that users edit and products can be sent through a recipe again, so every step either refuses frames that it has processed already or leaves them as they are. This holds for the level upgrades, the bias subtraction (refused once the image is cut out, no change of the data otherwise), the selection of frames, the flags of all steps, and the rotation to north by the WCS; exact conditions are given for cropping, for which a second identical call can be refused. It fails for the steps that rescale or subtract: dark, flat, k gain, EM gain, exposure time, photon noise, desmearing and the rotation by the roll angle are applied again, although BUNIT and HISTORY record the first time.", "quantifier": "all frames, calibrations, datasets and shipped recipes", "why_tests_cant": "The unit tests apply each step once to fresh mock frames; that a second application corrupts the data for every gain but 1, or that a second crop fails only for stars at whole pixels, is a statement about all values.", "anchors": ["corgidrp/l2a_to_l2b.py:8-116", "corgidrp/l2a_to_l2b.py:118-327", "corgidrp/l2a_to_l2b.py:388-425", "corgidrp/l2b_to_l3.py:73-110", "corgidrp/l1_to_l2a.py:6-158", "corgidrp/l3_to_l4.py:271-400", "corgidrp/l3_to_l4.py:645-743", "corgidrp/walker.py:431-441"]}
{"id": "C168", "title": "The k-gain found from the photon transfer curve is, on average, the number of electrons per DN", "statement": "Let every pixel of a frame have a mean of lam/K DN and the variance lam/K^2 of shot noise and r^2 of read noise, uncorrelated between pixels and frames. The local mean of a bin has the expectation (mean lam)/K; the squared deviation of the difference of two frames, over 2, less the squared read noise of the prescan, has the expectation of the shot variance, however different the pixels of the bin are; the quotient of both is K, for every number of pixels in a bin, every read noise and every EM gain that the function accepts; and averaging the results of several bins keeps it K.", "quantifier": "all probability spaces and random frames with these means and variances (Poisson electrons among them), all numbers of pixels per bin, all patterns of illumination, all K and r", "why_tests_cant": "tests/test_kgain_cal.py runs one simulated data set of K = 8.7 and allows an error of 0.5: a bias of five percent passes.", "anchors": ["corgidrp/calibrate_kgain.py:123-125", "corgidrp/calibrate_kgain.py:147-151", "corgidrp/calibrate_kgain.py:512-558", "corgidrp/calibrate_kgain.py:567-594", "corgidrp/calibrate_kgain.py:645-647", "corgidrp/calibrate_kgain.py:867-870"]}
{"id": "C169", "title": "The errors of the noise maps, and of a dark made of them, are the standard deviations of these values", "statement": "Let the means of the sub-stacks follow the noise model F + g C + g t D on average, with uncorrelated noise. The fitted maps are unbiased; the square of each error stored with the noise maps is, on average, the variance of the map; the square of the error of a dark synthesised for any gain and exposure time is the variance of that dark; and replacing negative values by zero does not change the average.", "quantifier": "all sets of sub-stacks that determine the fit, all probability spaces and random means with finite variance, equal or not, all true noise maps, all gains and times of the dark", "why_tests_cant": "tests/test_calibrate_darks_lsq.py checks one simulated data set and asks of the errors only that the mean error of the dark current is below its mean; tests/test_build_synthesized_dark.py uses given errors.", "anchors": ["corgidrp/darks.py:586-617", "corgidrp/darks.py:711-722", "corgidrp/darks.py:864"]}
{"id": "C170", "title": "The flux of aperture photometry is right on average and its error is its standard deviation", "statement": "Let the pixels of a frame be uncorrelated random variables whose recorded errors are their standard deviations, around a star on a flat sky. The flux of aper_phot, with an unbiased local background, is that of the star on average; the square of its error is its variance, with and without background subtraction; the same holds of the calibrated mean flux of several frames; and the calibration factor is right on average.", "quantifier": "all apertures (weights, errors, flags), all probability spaces and random pixels with finite variance, all stars, skies and enclosed fractions, all background estimates uncorrelated with the aperture or linear in the pixels, all numbers of frames", "why_tests_cant": "tests/test_fluxcal.py 176-182 compares the error of one noiseless image of unit errors with the root of the area, within 5 %; line 250 even asks that background subtraction leaves the error unchanged. No test draws frames and compares spread and error.", "anchors": ["corgidrp/fluxcal.py:321-344", "corgidrp/fluxcal.py:497-498", "corgidrp/l4_to_tda.py:342-343", "corgidrp/l4_to_tda.py:375-382"]}
{"id": "C171", "title": "Forward modelling returns the throughput of the KL mode of its image", "statement": "forward_model_psf injects the PSF into every frame, subtracts the PSF, and returns the image of the KL mode kl_mode_idx together with the KLIP throughput of that mode at the sampled separation nearest to the companion, and the core throughput; it fails only if the subtraction fails, no separation was sampled or there is no such mode.", "quantifier": "all datasets, all injections and PSF subtractions, all numbers of modes and separations, all separations of the companion, all integers kl_mode_idx, positive or negative", "why_tests_cant": "No test calls forward_model_psf; measure_companions, whose call of it is commented out, raises NotImplementedError for KLIP-FM.", "anchors": ["corgidrp/measure_companions.py:324-463"]}
{"id": "C172", "title": "Frames together and one at a time", "statement": "What a step makes of a frame does not depend on the other frames of the dataset: a dataset passes a step exactly if each of its frames passes it alone, with the same result. This holds for every step, for the recipe from L1 to L2b, and for steps with an automatically chosen calibration.", "quantifier": "all datasets of any number of frames, all headers, images and calibrations, all contents of the calibration database, all orders and divisions of the frames", "why_tests_cant": "The tests call a step either on one frame or on frames of equal headers; only test_emgain_div.py has two frames with different gains. test_crop.py crops only datasets of one frame. No test compares a dataset with its frames processed one by one, which would have to be done for every pair of headers.", "anchors": ["corgidrp/l1_to_l2a.py:205-250", "corgidrp/l1_to_l2a.py:305-320", "corgidrp/l2a_to_l2b.py:52-88", "corgidrp/l2a_to_l2b.py:157-254", "corgidrp/darks.py:806-871", "corgidrp/l3_to_l4.py:305-395", "corgidrp/walker.py:126-210", "corgidrp/walker.py:410-418"]}
{"id": "C173", "title": "The value of a flagged pixel is irrelevant", "statement": "A pixel that is flagged (saturated, hit by a cosmic ray) carries no information: two runs that differ only in the raw values of flagged pixels agree in every other pixel of the L2b frames and of the photon-counted image, in value and error, and one run is rejected exactly if the other one is.", "quantifier": "all pairs of raw frames of the right size that differ only in flagged image pixels, all non-linearity tables, bias offsets, gains, noise maps, flats and read-out times; all prescan rows; all lists of frames for photon counting", "why_tests_cant": "The desmearing test and the end-to-end tests use frames without flags (test_desmear.py sets dq to zeros), and the photon counting test masks pixels with ordinary values. Only a comparison of pairs of runs for all values shows that the column sum of desmear carries a flagged value into all later rows, that the error of the bias has no bound under a single hit, and that the safety check averages over flagged pixels.", "anchors": ["corgidrp/l2a_to_l2b.py:388-425", "corgidrp/l1_to_l2a.py:6-157", "corgidrp/photon_counting.py:217-226"]}
{"id": "C174", "title": "Distortion correction moves the image and nothing else", "statement": "distortion_correction reads every output pixel off the cubic spline through the pixels of the frame: whole positions copy the pixel, a frame without distortion is unchanged, constant frames stay constant, the result is linear in the frame. A pixel without value affects only its surroundings, errors and flags move with the values, and pixels whose light lies outside the frame are flagged.", "quantifier": "all frame sizes, all frames with and without NaN, all real positions, all distortion coefficients (for the flags: all shifts by whole pixels); scipy.ndimage.map_coordinates with its default settings is modelled from its documentation", "why_tests_cant": "The tests of the step and of the recipes from L2b to L4 use mock frames without NaN and compare the mean of the difference image only. That the recursive filter carries one NaN through the whole frame, and that it inverts the sampling for every length of a line, are statements about all frames.", "anchors": ["corgidrp/l3_to_l4.py:21-92", "corgidrp/l2a_to_l2b.py:347-385", "corgidrp/recipe_templates/l2b_to_l4.json", "corgidrp/recipe_templates/l3_to_l4.json"]}
{"id": "C175", "title": "Concurrent programs leave the database as whole calls made one after the other would", "statement": "Several processes work on one calibration database file, each with a program of its own that registers products, removes products and looks calibrations up, every call being chosen after the replies to the earlier ones. Whatever the interleaving of their moves, the file is at all times the one a single client would have left that made some of the changes, in the order in which they were written, the last change among them; so no path is registered twice and no row is mixed from two products, the product registered last is in the file and the one removed last is not, and every lookup is answered from such a state. If no process moves during a call of another, it is all of the changes. Otherwise changes that were answered with success may be missing: a removed product comes back, the removal of another product undoes a registration, and one slow registration undoes any number of registrations.", "quantifier": "every number of processes, every adaptive program of each, every interleaving, every initial file", "why_tests_cant": "tests/test_caldb.py has a single client and one call at a time; which changes survive depends on the interleaving of file accesses of several processes.", "anchors": ["corgidrp/caldb.py:84-94", "corgidrp/caldb.py:201-258", "corgidrp/caldb.py:260-325"]}
{"id": "C176", "title": "Rows of the database describe completely written files, also after a crash", "statement": "Any number of processes save datasets with save_data, each of them possibly stopping for ever at any point. At every moment, every row of the database carries the values of a product whose file had been written completely; and as long as no file name has been used twice, that file is still there, whole and with the product of the row, so that the calibration get_calib selects can be loaded. When a product is saved again under its registered path, the row names a torn file until the writing has ended, and then has the values of the old product while the file holds the new one, until the database has been written; a stop in between leaves it so. A product that lacks a header value ends its process: it and the products after it are not registered, though their files are whole.", "quantifier": "every number of processes and datasets, every interleaving, every point at which processes stop, every initial database", "why_tests_cant": "Tests run one process to its end; none stops a process between the writing of a file and its registration.", "anchors": ["corgidrp/walker.py:305-346", "corgidrp/data.py:93-94", "corgidrp/data.py:436-466", "corgidrp/caldb.py:201-231"]}
{"id": "C177", "title": "Correlation of the pixels of an L2b frame", "statement": "Let the raw pixels of a science frame and the biases of its rows be uncorrelated random variables (variances v of the pixels, b of the biases), the detector linear, headers and calibrations fixed. Then the covariance of any two pixels (r,c), (r',c') after the recipe from L1 to L2b is exactly (k/g)^2/(F F') times the sum over rows s up to min(r,r') of w(r,s) w(r',s) (b_s + [c=c'] v_sc), w(r,s) = [s=r] - rho (1+rho)^(s-r-1). Pixels of different rows are uncorrelated if desmearing does nothing. Pixels of one row are always positively correlated if the bias of the row is noisy; with light during the read-out the first row is anticorrelated with every other pixel of its column. The variance of the flux in an aperture of whole pixels is the square of the error that aper_phot reports plus the covariances of all pairs, although the error of every pixel is right: n pixels of one row have n(n-1) (k/g)^2 b more. The noise (k/gF)^2 (b_r + v_rc) of the pixel itself, which desmearing leaves in the error map, is less than the variance of the pixel exactly if (1 - 1/(1+rho)^2) (b_r + v_rc) is less than the sum over the rows s < r of rho^2 (1+rho)^(2(s-r-1)) (b_s + v_sc).", "quantifier": "all linear tables, gains, calibrations, random frames on any probability space with any variances, all pairs of pixels and all apertures of whole pixels", "why_tests_cant": "the tests compare values with simulated frames; none of them mentions a covariance or a correlation, and no finite set of random frames gives the exact value", "anchors": ["corgidrp/l1_to_l2a.py:104-118", "corgidrp/l2a_to_l2b.py:388-425", "corgidrp/fluxcal.py:328-339"]}
{"id": "C178", "title": "A recipe that runs while the disk changes", "statement": "A recipe names calibration files by path; run_recipe reads a file when the step that uses it begins, once per step. For any changes that other processes make to the disk between the steps: if they leave the files alone that the recipe reads, the run has the same data, calls and error as the undisturbed one; every step uses the contents that its files have when it begins, not those when the recipe was generated; if a calibration that two steps name is replaced in between, the product is made with both versions, which no undisturbed run on any disk does, and the recipe in its header does not show it; ten of the 29 shipped templates load some calibration in more than one step; a file that cannot be read when its step begins ends the run there, also with skip_missing_cal_steps.", "quantifier": "all recipes with named calibrations, step functions, disks and all changes of the disk between the steps", "why_tests_cant": "a test runs one recipe on a disk that nobody else writes to; the tests of the walker never change a calibration file between generating a recipe and its last step", "anchors": ["corgidrp/walker.py:183-228", "corgidrp/walker.py:385-441"]}
{"id": "C179", "title": "Errors of the calibrations that drop out of a measured flux", "statement": "Take any raw frames of a standard star and of a target and any calibrations, and repeat both runs (L1 to L2b, division by the exposure time, aperture photometry, flux factor, flux of the target) with a k-gain wrong by alpha > 0, noise maps made with that k-gain, and a flat field wrong by a factor phi > 0. Every run raises the same exception as before or all its values and error layers are multiplied by alpha/phi, with the same flags and headers (except KGAINPAR). The flux of the target and its error are multiplied by the ratio of alpha/phi of the target to alpha/phi of the standard star, the error of the magnitude stays; so flux, magnitude and both errors are unchanged if the calibrations are wrong by the same alpha/phi in both runs, and a flux other than zero is unchanged only then. Limits: noise maps made with another k-gain than the frames are not refused and add (alpha-1) times the desmeared dark to every pixel; the photon noise term has no common factor with the values unless there is no light.", "quantifier": "all raw frames (any shape and values), all calibrations, all factors alpha, phi > 0, all apertures, weights, flags and exceptions", "why_tests_cant": "The flux calibration tests use simulated images in electrons per second (tests/test_fluxcal.py) and never repeat a measurement from raw frames with other calibrations; the statement relates two runs for all frames and factors.", "anchors": ["corgidrp/l2a_to_l2b.py:45-155", "corgidrp/l2a_to_l2b.py:256-327", "corgidrp/l2a_to_l2b.py:388-425", "corgidrp/fluxcal.py:275-343", "corgidrp/fluxcal.py:412-517", "corgidrp/l4_to_tda.py:320-394", "corgidrp/darks.py:724-731"]}
{"id": "C180", "title": "The choice of a calibration is consistent between databases and frames", "statement": "For every database and class: rows other than the chosen one can be removed without changing the choice; after adding a row anywhere in the table the choice is the old one or the new row (with a frame and without); a later frame never gets an earlier calibration; the times at which a calibration is chosen form an interval, so all files of a dataset have the same closest calibration exactly if the earliest and the latest file have, and exactly then the calibration of a recipe (that of its first file) does not depend on the order of the files. Of two calibrations the later is chosen exactly for frames after the middle between them. Limit: for a dataset with files on both sides of the middle the recipe uses, in either order, for some file a calibration that is not its closest.", "quantifier": "all databases, classes, frames with the cards that the database reads, positions of the added row, datasets and orders of the files (for darks: files of one exposure time)", "why_tests_cant": "tests/test_caldb.py asks for a calibration with one frame on one small database; no test changes the database or compares the answers for the frames of one dataset, and the statement is about all databases and orders.", "anchors": ["corgidrp/caldb.py:260-328", "corgidrp/walker.py:119-126", "corgidrp/walker.py:161-169", "corgidrp/walker.py:408-421"]}
{"id": "C181", "title": "Registering a folder does not depend on the order in which its files are found", "statement": "After a scan of a folder the database has exactly the rows of the calibrations in the folder and the rows it had for other paths. So files found in another order, two folders scanned in either order or together, give a database with the same rows; whether the scan succeeds does not depend on the order; a second scan changes nothing. For every frame two databases with the same rows answer with calibrations that are equally close in time, and with the same one if no two are equally close. Limits: between two equally close calibrations the order in which the file system lists the files decides; rows of files that are no longer there stay, and are returned if they are closest.", "quantifier": "all databases with distinct absolute paths, all folders (lists of products with distinct paths and complete or incomplete headers), all permutations, all frames with the cards the database reads", "why_tests_cant": "The tests (test_caldb.py, test_ops.py, test_err_dq.py) scan folders with whatever order the file system of the test machine gives; the second scan in test_err_dq.py asserts nothing about the rows, and no test varies the order or compares the answers.", "anchors": ["corgidrp/caldb.py:201-231", "corgidrp/caldb.py:260-361", "corgidrp/ops.py:20-33"]}
{"id": "C182", "title": "From raw files and a database to the scene", "statement": "Let walk_corgidrp run l1_to_l2b.json on raw frames of a scene, and let the calibrations that are closest in time to the first frame describe the detector. Then, whatever the settings are (calibrations looked up when the recipe is made or right before each step), the walk succeeds and writes an L2a and an L2b product; every pixel of L2b with flag zero has the value of the scene and every other one is NaN; the flag is zero exactly when raw frame, cosmic rays, noise maps and bad pixel map have none of the lower eight flags there and the flat field is not zero. Running l1_to_l2a_basic.json and then l2a_to_l2b.json gives the same products or the same exception. If a calibration is missing, no recipe is made; with skip_missing_cal_steps the walk gives exactly what the template without the step gives, under the same level: without a flat field an L2b file with the scene times the sensitivity.", "quantifier": "all scenes, detectors, noise maps, non-linearity tables, numbers of frames, settings, flags found by the cosmic ray search and contents of the database in which the calibrations are the closest ones; for the first part, all templates with automatic calibrations", "why_tests_cant": "The end-to-end test runs two frames of test data and compares with files of another pipeline; the walker tests check that steps are marked to be skipped, and no test looks at the values of a product from which a step was left out or compares one walk with two.", "anchors": ["corgidrp/walker.py:65-104", "corgidrp/walker.py:106-228", "corgidrp/walker.py:348-441", "corgidrp/caldb.py:260-328", "corgidrp/l1_to_l2a.py:6-157", "corgidrp/l1_to_l2a.py:288-356", "corgidrp/l2a_to_l2b.py:8-155", "corgidrp/l2a_to_l2b.py:256-450"]}
{"id": "C183", "title": "The bias offset of the noise maps carries no information about the offset of the prescan", "statement": "The card B_O that calibrate_darks_lsq writes is computed from residuals of its own least-squares fit in the prescan. It therefore does not change when any fixed-pattern noise, clock-induced charge and dark current, different in every pixel, are added to the sub-stacks; the addition goes into the noise maps exactly. It is zero when the sub-stacks follow the noise model in the prescan, whatever the maps are; the residuals of every pixel sum to zero over the sub-stacks. The loop closes nevertheless where the response is linear: with the maps made from dark frames of a detector whose prescan is off by any number of counts, and this zero as offset, science frames of the detector give the scene. With the same maps and another offset, for instance the one that the prescan has, every pixel is wrong by a stated amount that is not zero. With a response that is not linear, what is corrected for non-linearity is the signal less the offset.", "quantifier": "all numbers of sub-stacks with settings that determine the fit, prescans of any size with any telemetry rows, data, maps, offsets, scenes, detectors with linear response (last part: any response)", "why_tests_cant": "test_calibrate_darks_lsq.py checks that the offset is within 1 or 5 counts of zero for simulated frames whose prescan has no offset, and test_prescan_sub.py sets offsets by hand; no test makes maps from frames with an offset in the prescan, and none feeds maps made from darks back into science frames with such an offset.", "anchors": ["corgidrp/darks.py:361-363", "corgidrp/darks.py:588-602", "corgidrp/darks.py:640-668", "corgidrp/darks.py:738-743", "corgidrp/l1_to_l2a.py:104-117"]}
{"id": "C184", "title": "What a pixel of an L2b frame depends on, and which datasets are processed", "statement": "The steps from L1 to L2b (bias, non-linearity, electrons, gain, noise maps, desmearing, flat) process a dataset exactly when its frames have one exposure time and one commanded gain, the first one has a gain of at least one, the noise maps are not negative and the shapes of errors, maps and flat fit; no pixel value matters. Then the value of pixel (r, c) of a frame depends on nothing but the headers and flags, columns 800 to 999 of the prescan and column c of the image, both in rows up to r of the same frame: everything else, in this frame and in the others, can be changed to any values or NaN. Every part of this cone does matter for a linear response: a change of one image pixel or of the bias of one row changes the pixel by a stated amount, which is zero only if the change is, or if it is in an earlier row and there is no light during the read-out.", "quantifier": "all datasets of raw science frames of any length, pairs of datasets with the same headers, noise maps, flats, non-linearity tables with increasing axes, offsets, settings of error tracking", "why_tests_cant": "The tests run the steps on single simulated datasets; independence of the other pixels needs pairs of runs, for all values of all other pixels.", "anchors": ["corgidrp/l1_to_l2a.py:6-157", "corgidrp/l1_to_l2a.py:288-356", "corgidrp/l2a_to_l2b.py:45-155", "corgidrp/l2a_to_l2b.py:256-327", "corgidrp/l2a_to_l2b.py:388-425"]}
{"id": "C185", "title": "Raw pixels that are rounded or otherwise off by a bounded amount change L2b by a bounded amount", "statement": "If the pixels of a raw frame that matter for pixel (r, c) of the L2b frame are changed by at most e counts each, in any way, then that pixel changes by at most |k / gain / flat| times 2 e L times 2/(1+q) - (1+q)^-(r+1), where q is the read-out time of a row over the exposure time and L bounds the slope of the corrected response; the bias taken from the prescan moves by at most e, and the errors do not build up over the rows. Frames of a scene whose pixels were rounded to integers therefore give the scene up to less than two counts, converted to electrons and divided by gain and flat. The bound is the best possible: for a linear response, every frame has a change by e that reaches it in all columns of a row at once.", "quantifier": "all datasets of raw science frames of any length, all bounded changes, scenes, noise maps, flats, non-linearity tables with increasing axes, offsets, non-negative read-out times, settings of error tracking", "why_tests_cant": "The tests compare single runs with stored or simulated frames; a bound for all changes of all pixels that matter, and that none is larger, needs a proof about the median and the sum over rows.", "anchors": ["corgidrp/l1_to_l2a.py:6-157", "corgidrp/l1_to_l2a.py:288-356", "corgidrp/l2a_to_l2b.py:45-155", "corgidrp/l2a_to_l2b.py:256-327", "corgidrp/l2a_to_l2b.py:388-425"]}
{"id": "C186", "title": "Cosmic rays that saturate many pixels: what is found and masked, and what the step flags", "statement": "A lone plateau of saturated pixels in a row, not at the ends of the row, is found exactly when it has more than half of cosm_filter pixels; its first column is returned, and for an odd cosm_filter also the second column after its end. In image mode the mask is exactly the streak from these columns and the boxes around them. So for an even cosm_filter the tail is counted from the start: all cosm_tail pixels after the end of the plateau are masked exactly when it has at most cosm_filter+1 pixels; for an odd one, with a box, they always are. detect_cosmic_rays only adds flags: 32 to pixels of at least the saturation threshold of the frame, 128 to the mask; all pixels of plateaus are flagged, also those the mask leaves out. The mask of a row depends on the rows within the box only. More light does not always mean more flags: for every filter and tail, and any box, saturating one more pixel before a long plateau removes the flag of a pixel in the next row.", "quantifier": "all frames and rows of any size, plateau lengths and positions, filter sizes, boxes, tails, thresholds, gains, detector geometries, datasets of any length", "why_tests_cant": "The tests use cosm_filter=2 and plateaus of 2 to 4 pixels, and take the masks of longer ones from the same formula; all lengths and filter sizes, and pairs of frames, are not covered.", "anchors": ["corgidrp/detector.py:376-551", "corgidrp/l1_to_l2a.py:160-286"]}
{"id": "C187", "title": "Full pixels from L1 to L2b", "statement": "For a detector with a linear response whose pixels hold at most `cap` counts, the L1 to L2b recipe gives every pixel exactly the scene minus its own lost counts over (1+rho), plus rho times the lost counts of the earlier rows of the column with weights (1+rho)^-(r+1-i), all times kgain/gain/flat. A pixel that is not full is therefore never too small, and is too large exactly when an earlier pixel of its column is full; a full pixel with none before it is too small. detect_cosmic_rays sets 32 exactly where the (possibly full) pixel reaches the threshold of the gain of the frame: every full pixel is flagged when the threshold is at most `cap`, and no pixel gets any flag when it is above. The pixels that are too large get no flag unless they are near a hit: a star that fills one pixel leaves a pixel fifteen rows later too large without a flag.", "quantifier": "for all detectors, scenes, capacities, datasets, biases, calibrations, wells and parameters of the search", "why_tests_cant": "No test has a saturated pixel in a recipe from L1 to L2b and compares the result with the scene; the tests of detect_cosmic_rays look at the mask, those of desmear have no saturated pixels.", "anchors": ["corgidrp/l1_to_l2a.py:6-157", "corgidrp/l1_to_l2a.py:160-286", "corgidrp/l2a_to_l2b.py:388-425", "corgidrp/detector.py:376-570"]}
{"id": "C188", "title": "From raw darks and raw science frames to the scene", "statement": "Let the noise map recipe (bias of full frames without offset, non-linearity, electrons, mean of the unflagged frames of each sub-stack, least squares) run on raw frames without light of a detector, in sub-stacks whose settings pass the checks and determine the fit, each pixel unflagged in some frame of each sub-stack. It succeeds, its maps in the image area are the fixed pattern, clock-induced charge and dark current of the detector, and its bias offset is 0. The science recipe with this product (maps and bias offset) returns the scene, for frames of any gain and exposure time. With a linear response this holds whatever the offset between prescan and image is, although no step knows it: the map of the fixed pattern becomes fpn - kgain*offset. With a response that is not linear it fails as soon as the offset is not zero.", "quantifier": "for all detectors, row biases, offsets, noise in the prescan, sub-stacks with any flags, scenes, datasets, gains and exposure times", "why_tests_cant": "The end-to-end test of noise maps compares them with those of another program, within tolerances; no test makes noise maps from raw darks and uses them to recover a known scene.", "anchors": ["corgidrp/darks.py:440-753", "corgidrp/darks.py:806-871", "corgidrp/l1_to_l2a.py:6-157", "corgidrp/recipe_templates/l1_to_l2a_noisemap.json:1-53"]}
{"id": "C189", "title": "Dark campaigns and science walks on one database", "statement": "Let a database hold the other calibrations of a detector, and no noise maps or only such that fit it. Any number of runs of the noise map recipe on raw darks of the detector, one after the other, then succeed; each takes its calibrations from the database, writes its product and registers it. Afterwards the database still has only maps that fit, nothing but noise maps has changed, and a science walk of raw frames gives the scene at unflagged pixels and NaN at flagged ones, whatever the dates of darks and science frames are and even if products overwrite each other. Which maps a frame gets is also exact: new maps, under a new path, are used for a frame if and only if the first frame of the first sub-stack is strictly nearer to it in time than every noise map registered before; if not, every recipe on the frame has the outcome it had before the darks were processed.", "quantifier": "for all detectors, databases, lists of campaigns, dates, paths, scenes, datasets, settings of the walker and search results for cosmic rays", "why_tests_cant": "Tests register hand-made calibrations in a fresh database and run one recipe; no test makes noise maps with the walker and then runs a science recipe that finds them, let alone several campaigns in one database.", "anchors": ["corgidrp/walker.py:305-344", "corgidrp/walker.py:185-230", "corgidrp/caldb.py:201-231", "corgidrp/caldb.py:286-325", "corgidrp/darks.py:723-754", "corgidrp/recipe_templates/l1_to_l2a_noisemap.json:1-53"]}
{"id": "C190", "title": "Photon counting from raw light frames and raw darks to the scene", "statement": "Take raw light frames and raw darks with the same read noise and settings within each stack, at least as many darks as light frames, every pixel valid in some frame of each, corrected fractions of detections at most the limit of C150 or at least 1 (also with the errors added and subtracted), and means within the allowed one. Then the photon counting recipe for darks and the one for light frames with the resulting master dark succeed for every number of Newton iterations. If the light of the scene (sensitivity, and smear of the rows before) plus a dark signal explains the numbers of detections in the light frames, and the dark signal alone those in the darks, the product tends to the scene with the number of iterations in every pixel with nonzero sensitivity; exposure time and gain of the darks need not be those of the light frames. And the limit of the method: where light frames and darks of the same gain have the same numbers of valid frames and of detections, as where the fixed pattern alone exceeds the threshold, in a pixel and the rows before it, the product is exactly 0 whatever the scene.", "quantifier": "for all raw frames and darks, flags, thresholds, gains, biases, non-linearity tables, flat fields, scenes and numbers of iterations", "why_tests_cant": "The end-to-end test compares the mean of one product of evenly lit frames with the mean put in, to 2 per cent, at the default of 2 iterations; values of single pixels, scenes with structure and the limit are not tested.", "anchors": ["corgidrp/recipe_templates/l1_to_l2b_pc.json:1-81", "corgidrp/recipe_templates/l1_to_l2b_pc_dark.json:1-54", "corgidrp/photon_counting.py:64-335", "corgidrp/l2a_to_l2b.py:118-155", "corgidrp/l2a_to_l2b.py:256-286", "corgidrp/l2a_to_l2b.py:388-425"]}
{"id": "C191", "title": "With the default number of iterations the photon counting product is near the scene", "statement": "If a flux s of at most 0.4 electrons per pixel and frame explains the detections of a pixel, then the photometric correction raises no error for that pixel, every iterate after the first step lies in [0, s], and after k steps the distance is at most s^(2^(k+1)). End to end: raw light frames and raw darks as in C190, fluxes of at most M <= 0.4, and flux of the light frames minus flux of the darks equal to the light of the scene up to delta: the product of the two recipes with k iterations is the scene up to 2 (delta + M^(2^(k+1))) / |flat| in every pixel. With the 2 iterations that the recipes make, at most 0.1 electrons per pixel and frame and as many detections as expected for Poisson distributed electrons, the product is the scene up to 0.00021 electrons over the flat.", "quantifier": "every stack of raw light frames and raw darks, every scene, dark signal, flat, threshold, gain and number of iterations within the stated fluxes", "why_tests_cant": "Tests compare the mean of a simulated frame with its input at a relative tolerance of 1 to 6 percent; the statistical noise of the simulated counts hides the distance that the iterations leave, and one flux says nothing about a rate.", "anchors": ["corgidrp/photon_counting.py:64-65", "corgidrp/photon_counting.py:337-358", "corgidrp/photon_counting.py:361-392", "corgidrp/photon_counting.py:395-428", "corgidrp/recipe_templates/l1_to_l2b_pc.json:1-81", "corgidrp/recipe_templates/l1_to_l2b_pc_dark.json:1-54"]}
{"id": "C192", "title": "Photon counting many random frames gives the scene almost surely", "statement": "Let the raw light frames and the raw darks be random, independent and identically distributed in every pixel within each sequence, with the same threshold, with flags that do not depend on the detections, detection probabilities (also with the errors added and subtracted) whose corrected value is below 1 - exp(-2), and a mean below the allowed one. If the probabilities of a detection are those of fluxes S and D of at most M < 0.4 whose difference is the light of the scene up to delta, then almost surely, for all sufficiently large numbers of light frames and at least as many darks, both photon counting recipes succeed, and with k iterations the product is the scene up to 2 (delta + M^(2^(k+1)) + epsilon) / |flat| in every pixel, for every epsilon > 0. For Poisson distributed electrons of at most 0.1 per pixel and frame and the 2 iterations of the recipes this is 0.00021 electrons over the flat.", "quantifier": "every probability space, every pair of sequences of random raw frames, every scene, dark signal, flat, threshold, gain, number of iterations and number of darks within the stated limits", "why_tests_cant": "A test simulates one finite stack with one seed and compares a mean at a few percent; that the calls succeed and the values settle for almost every realisation as the number of frames grows cannot be run.", "anchors": ["corgidrp/photon_counting.py:64-335", "corgidrp/photon_counting.py:337-358", "corgidrp/photon_counting.py:395-428", "corgidrp/recipe_templates/l1_to_l2b_pc.json:1-81", "corgidrp/recipe_templates/l1_to_l2b_pc_dark.json:1-54"]}
{"id": "C193", "title": "The error of a photon counted dark has a floor that more frames do not lower", "statement": "For random raw darks, independent and alike in every pixel, let S, U and W be the fluxes that give the probabilities of a detection of the electrons, of the electrons plus the error of the frame and of the electrons minus it. Almost surely, for enough darks, l1_to_l2b_pc_dark makes a master dark whose reported error in every pixel is max(U - S, S - W) up to M ^ (2 ^ (niter + 1)) and any positive epsilon, M the largest of the fluxes. The variance of the counts goes away with the number of frames, the part from the errors of the frames does not.", "quantifier": "every probability space and sequence of random raw darks, every detector of the model, threshold below the gain, fluxes below 0.4, number of iterations of at least 1, every pixel", "why_tests_cant": "The tests compare the error of a heavily masked pixel with the other errors of one stack of 160 frames; no test has two stacks of different length, and none knows what the error should be.", "anchors": ["corgidrp/photon_counting.py:11-33", "corgidrp/photon_counting.py:236-270", "corgidrp/recipe_templates/l1_to_l2b_pc_dark.json:1-54"]}
{"id": "C194", "title": "Photon counted darks and light frames on one database", "statement": "Any number of runs of l1_to_l2b_pc_dark on one database succeed one after the other and change nothing but darks. If every dark of the exposure time of some light frames, old or new, was counted from raw darks that fit them (same threshold, at least as many, and the flux of the light frames minus that of the darks is the light of the scene up to delta), l1_to_l2b_pc gives one image after all these runs, whatever their dates: a pixel is valid exactly if the flat is not 0 and the map of bad pixels has no flag there, a valid pixel is the scene up to 2 (delta + M^8) / |flat|, the others are NaN. A new dark is used exactly if it has the exposure time of the frame and is strictly nearer in time than all darks of this time. Nothing else is asked: if the dark nearest in time is not photon counted, has another threshold or fewer frames than the light frames, the recipe fails, also if older darks would fit.", "quantifier": "every database with plain paths, every list of dark campaigns, every detector of the model, threshold below the gain, fluxes M up to 0.4, every pixel", "why_tests_cant": "The end-to-end test makes one dark and one light product in a database that has no other dark; no test has two darks of one exposure time with different numbers of frames.", "anchors": ["corgidrp/caldb.py:201-231", "corgidrp/caldb.py:300-313", "corgidrp/photon_counting.py:182-188", "corgidrp/photon_counting.py:273-292", "corgidrp/walker.py:206-210", "corgidrp/walker.py:336-344", "corgidrp/recipe_templates/l1_to_l2b_pc_dark.json:1-54", "corgidrp/recipe_templates/l1_to_l2b_pc.json:1-81"]}
{"id": "C195", "title": "A cosmic ray from L1 to L2b", "statement": "If the raw frame is that of a scene with extra charge h (in counts of a linear detector) from cosmic rays, the L1 to L2b recipe gives every pixel exactly the scene plus kgain/gain/flat times (h(r,c)/(1+rho) minus rho times the sum over the earlier rows i of (1+rho)^-(r+1-i) h(i,c)): desmear takes the charge of a ray for light and subtracts it from all later rows of the column. For one ray with a plateau that the search finds and whose charge is within the start of the plateau and cosm_filter+cosm_tail columns after it: earlier rows and other columns are exactly the scene, every pixel with charge of the ray is flagged, and every later row of these columns is too small by the charge times kgain/gain/flat rho (1+rho)^-(r+1-i), which is never zero for a positive charge and decreases from row to row. In rows behind the box of the mask these pixels get no flag from the search. A ray on a dark detector gives a negative pixel without flag fifteen rows later.", "quantifier": "for all detectors, response tables, scenes, charges of rays, datasets, biases, calibrations, wells and parameters of the search", "why_tests_cant": "The tests of detect_cosmic_rays look only at the mask of a frame, those of desmear have no cosmic rays; no test follows a ray through the recipe and compares the other pixels with the scene.", "anchors": ["corgidrp/l1_to_l2a.py:6-157", "corgidrp/l1_to_l2a.py:160-286", "corgidrp/l2a_to_l2b.py:388-425", "corgidrp/detector.py:376-570"]}
{"id": "C196", "title": "Templates call their steps with the arguments they take", "statement": "run_recipe passes the calibrations of a step by position, in the order in which the recipe lists them, and the keywords by name. For every template but l2b_to_l4.json, every recipe made from it and every run, each call binds as python requires (no missing, unknown or doubly given parameter), every calibration goes to a parameter for calibrations of its class, and a parameter gets None only if the step can do without: a pipeline whose steps check all this before they begin runs exactly like the real one. This needs that missing calibrations are looked up in advance or are errors (not jit_calib_id together with skip_missing_cal_steps, see C10). A recipe is made for every template if the database has all calibrations. l2b_to_l4.json calls do_psf_subtraction without the core throughput calibration that the step asserts: no run of it succeeds, update_to_l4 is never reached and at most the L3 frames are saved, for all data, databases and settings.", "quantifier": "for all templates, databases, settings, input files, data, states of the disk and results of the steps", "why_tests_cant": "The e2e tests run a few templates with databases that hold all calibrations; no test runs l2b_to_l4.json, and no test looks at the binding of positional calibrations to parameters.", "anchors": ["corgidrp/walker.py:25-61", "corgidrp/walker.py:385-441", "corgidrp/recipe_templates/l2b_to_l4.json:1-46", "corgidrp/l3_to_l4.py:402-416", "corgidrp/l3_to_l4.py:466-468"]}
{"id": "C197", "title": "The bad pixel map recipe, which has no input files", "statement": "walk_corgidrp with an empty file list and the template bp_map.json ends without exception if and only if calibrations are not resolved just in time, the most recently created Dark and the most recently created FlatField of the database (the first registered among equals) are on disk as files of their class, have the same shape, and the new map can be registered. create_bad_pixel_map is then called once, with these two files, and the saved map has 8 exactly at the pixels more than 5 standard deviations above the mean of the dark and 4 exactly at the pixels below 80 % of the mean of the flat in the 32-pixel box. Exposure times, gains and observation dates of the rows have no influence. With jit_calib_id the walk ends with AttributeError before anything is done, for every database: run_recipe passes the empty list instead of None to get_calib. Without a dark or a flat the walk ends with ValueError, or with skip_missing_cal_steps with AttributeError, since the empty list is then saved. Without a template the empty list raises UnboundLocalError.", "quantifier": "for all databases, files on disk, settings, headers and images", "why_tests_cant": "No test runs bp_map.json or any walk with an empty file list; get_calib(None) is tested for one database with two darks.", "anchors": ["corgidrp/walker.py:120-130", "corgidrp/walker.py:366-373", "corgidrp/walker.py:406-418", "corgidrp/walker.py:319-344", "corgidrp/caldb.py:113-134", "corgidrp/caldb.py:291-300", "corgidrp/recipe_templates/bp_map.json:1-21", "corgidrp/bad_pixel_calibration.py:5-58"]}
{"id": "C198", "title": "Raw frames become rates on the sky, the same ones for every exposure time and detector", "statement": "The walk over l1_to_l2b.json followed by the walk over l2b_to_l3.json on its products, each with its own settings and database: when the closest calibrations of each class describe the detector and the second database has an astrometric calibration, both walks end without exception. Each frame of L3 is NaN where its flag is not zero and elsewhere the scene divided by the exposure time; every total error of L2b is divided by the exposure time, flags and pointing are those of L2b, the unit is photoelectrons/s and the world coordinates are those of the astrometric calibration and the pointing of the frame. Two observations of the same rates with different detectors, gains, exposure times, databases and settings therefore agree in every pixel whose flags are zero in both. A frame with exposure time zero makes divide_by_exptime raise for the whole dataset.", "quantifier": "for all scenes, detectors, exposure times other than zero, tables, databases, settings, pointings and frames", "why_tests_cant": "The l2b_to_l3 recipe is only run by end-to-end scripts on simulated data that is not in the repository; unit tests call divide_by_exptime and create_wcs on their own, never on the products of the earlier steps.", "anchors": ["corgidrp/l2b_to_l3.py:7-71", "corgidrp/l2b_to_l3.py:73-110", "corgidrp/l2b_to_l3.py:112-142", "corgidrp/recipe_templates/l2b_to_l3.json:1-26", "corgidrp/recipe_templates/l1_to_l2b.json:1-92", "corgidrp/walker.py:348-441"]}
{"id": "C199", "title": "The three steps of operations turn folders of calibration files and raw frames into the scene", "statement": "step_1_initialize, step_2_load_cal and step_3_process_data with l1_to_l2b.json, for any old database: the first two steps register the files of the default folder (if one of the two default files was missing there) and of the given folder, as one scan. If for each of DetectorNoiseMaps, DetectorParams, NonLinearityCalibration, KGain, FlatField and BadPixelMap the file taken closest to the frame, among the registered files and the rows that the database had under other paths, describes the detector, and there is no calibration of traps, then step 3 ends without exception for all settings, writes an L2a and an L2b product, and every pixel of L2b has the value of the scene where its flag is zero and is NaN elsewhere. Other files, farther in time, and the order in which the files are found have no influence. One calibration file without a keyword that the database needs ends the operation before any frame is processed, and rows of files that no longer exist take part in the choice.", "quantifier": "for all databases, folders, files, settings, detectors, scenes and frames", "why_tests_cant": "The one test of ops uses l1_to_l2a_basic.json with a single nonlinearity file and only checks that the output files exist.", "anchors": ["corgidrp/ops.py:7-49", "corgidrp/caldb.py:330-361", "corgidrp/caldb.py:365-392", "corgidrp/walker.py:65-104", "corgidrp/recipe_templates/l1_to_l2b.json:1-92"]}
{"id": "C200", "title": "The gain of a sub-stack of darks is that of its first frame", "statement": "calibrate_darks_lsq groups darks by exposure time, commanded gain and k-gain and fits each group with the gain of its first frame (measured, else applied if positive, else commanded). If every dark of the groups follows the detector with the gain of its own header, the groups are accepted and determine the parameters, and the mean gain of every group is rho times that of its first frame, then the fixed pattern is exact and clock induced charge and dark current come out as exactly rho times the true ones; the dark synthesized for a frame of gain g and time t is then wrong by (rho - 1)(C + t D). With one gain in each group (rho = 1) the maps are those of the detector. The same frames in another order, whose first frames have mu times the gains, give maps divided by mu: the result depends on the order of the files. Groups with different commanded gains whose first frames have the same measured gain and exposure time are refused.", "quantifier": "for all numbers of groups and frames, gains, exposure times, k-gains and noise parameters", "why_tests_cant": "The tests set the commanded gain only, the same for all frames of a group, so the measured and applied gains of later frames are never looked at.", "anchors": ["corgidrp/darks.py:440-443", "corgidrp/darks.py:473-484", "corgidrp/darks.py:500-500", "corgidrp/darks.py:536-553", "corgidrp/darks.py:586-600"]}
{"id": "C201", "title": "The two modes of the cosmic ray search on a full frame differ only by hits and squares outside the image area", "statement": "Run detect_cosmic_rays' search on one full frame in mode full and in mode image, with rows that go on beyond the image area by at least filter + tail pixels. Mode full flags exactly the streaks of the hits that start in the image area (ends inclusive) and the parts of their squares in it. Mode image flags exactly this and, in addition, the streaks and squares of the hits that start outside the area and the parts of all squares outside the area. So the two agree in the image area when no hit starts outside it; a pixel of the image area that only mode image flags is always reached by a hit from the prescan or overscan. On science frames with the default filter and tail no streak is continued on the next row, and mode full flags a subset of mode image. A geometry without image area is refused in mode full and accepted in mode image.", "quantifier": "all frames over any linear order, all thresholds, filter, box and tail sizes, all geometries whose rows are long enough", "why_tests_cant": "tests/test_cr_detection.py runs mode full on one frame with one expected mask and mode image on image-area frames with hits at random places; no test runs both modes on one frame, none puts a hit next to the image area in mode image, although five recipe templates search full frames in mode image", "anchors": ["corgidrp/detector.py:376-507", "corgidrp/l1_to_l2a.py:160-286", "corgidrp/recipe_templates/l1_to_l2a_eng.json"]}
{"id": "C202", "title": "Cutting the image area out and searching for cosmic rays commute when the border is dark", "statement": "If no pixel outside the image area, in its first column or in its last two columns reaches the plateau threshold, then cutting the image area out and searching it, searching the full frame in mode full and searching the full frame in mode image give the same mask on the image area, for every cosm_filter, cosm_box and tail that ends before the row does. The border of two columns cannot be reduced to one: a plateau that ends in the last column but one gets, with odd cosm_filter, a second start behind it that only the full frame search accepts, and a pixel of the image area is flagged only there.", "quantifier": "all frames over any linear order, all thresholds with plateau threshold at most the saturation threshold, all filter, box and tail sizes, all geometries with rows long enough", "why_tests_cant": "tests/test_cr_detection.py compares masks with expected masks or a reference implementation on one frame at a time; no test compares the search on a frame with the search on its image area", "anchors": ["corgidrp/detector.py:376-507", "corgidrp/detector.py:511-551", "corgidrp/l1_to_l2a.py:160-286"]}
{"id": "C203", "title": "Setting negative photon counts to zero biases the mean of many products by the expected negative part", "statement": "Let light frames be random, independent and alike from observation to observation, and let each be photon counted with the same master dark. In every pixel where both are valid the product is max(L - b, 0), with the counted light L and the dark b. Its expected value is E[L] - b plus E[max(b - L, 0)], and equals E[L] - b exactly if L is almost surely at least b. The mean of the products tends almost surely to this biased value, so averaging does not remove the bias; without light (E[L] = b) the limit is half the mean deviation of L, which is positive unless L does not vary.", "quantifier": "all random light frames with integrable counts, all master darks made by get_pc_mean, all parameters for which the bins are counted", "why_tests_cant": "the tests compare one product with one simulated flux within a tolerance; a bias in the limit of many observations and its exact value are statements about distributions", "anchors": ["corgidrp/photon_counting.py:255-305"]}
{"id": "C204", "title": "The error of photon counted light frames has a floor: the floors of light and dark in quadrature", "statement": "For random raw light frames and at least as many random raw darks of the same threshold, independent and alike in every pixel, let S, U, W be the fluxes that give the probabilities of a detection of the electrons of the light frames, of these plus the error of the frame and of these minus it, and D, V, X those of the darks. Almost surely, for enough frames, the darks give a master dark, the light frames are photon counted with it, and the reported error in every pixel is sqrt(max(U - S, S - W)^2 + max(V - D, D - X)^2) up to 2 (M ^ (2 ^ (niter + 1)) + epsilon) for any positive epsilon, M the largest of the fluxes. More frames of either kind do not lower it further.", "quantifier": "every probability space and sequences of random raw light frames and darks, every detector of the model, threshold below the gains, fluxes below 0.4, number of iterations of at least 1, every number of darks at least that of light frames, every pixel", "why_tests_cant": "The tests compare the error of one heavily masked pixel with the other errors of one stack; no test compares the error of light frames with that of the dark, or stacks of different length.", "anchors": ["corgidrp/photon_counting.py:236-302", "corgidrp/photon_counting.py:11-33"]}
{"id": "C205", "title": "How many wrong frames without a flag a combined pixel withstands", "statement": "Let some frames of a stack have any wrong value (a number or NaN) in a pixel, with the flags they had. With collapse=median the combined value stays within bounds, whatever the wrong values are and whichever m frames have them, exactly if 2 m is less than the number of valid samples of the pixel (not flagged and not NaN); it is then between the smallest and the largest right value (times the number of frames, with scaling). With collapse=mean, the default and the choice of the recipe templates, it stays within bounds only for m = 0. The reported error is in no case influenced by the wrong values. If groups are combined by medians and the results by a median again, the value is in the interval of the right values as long as fewer than half of the groups have half or more of their samples outside; this is less than one median of all frames withstands: nine frames withstand four wrong ones, three groups of three do not.", "quantifier": "all stacks, all flags, all numbers of frames, all wrong values, both settings of num_frames_scaling, all groups", "why_tests_cant": "The tests combine frames with equal values, or with flagged or NaN pixels, or four different values of which two are flagged; no frame has a wrong value without a flag.", "anchors": ["corgidrp/combine.py:8-49", "corgidrp/combine.py:53-108"]}
{"id": "C206", "title": "Combining in two stages instead of at once", "statement": "Let a dataset be combined in groups of equal size and the results combined again, with the same settings. In every pixel the result is NaN, and has the same flags, exactly as if all frames had been combined at once, for mean and median. The mean is the same for all values of the valid samples exactly if all groups that have a valid sample have equally many; otherwise groups with fewer samples get too much weight. If moreover all unflagged samples are numbers with an error, the reported error of the mean is the same, and that of the median is larger by the factor sqrt(pi/2). Medians of medians are not the median, even without flags.", "quantifier": "all groups of any number and any equal size, all flags, values and errors, both settings of num_frames_scaling, every pixel and error layer", "why_tests_cant": "The tests combine four frames in two stages by mean and by median, but all frames are equal, so weights cannot show; flags in two stages are tried for the median only.", "anchors": ["corgidrp/combine.py:8-49", "corgidrp/combine.py:53-108"]}
{"id": "C207", "title": "Medians of medians, frame counts and parents after two stages of combination", "statement": "Let a dataset be combined in groups of equal size and the results combined again. In a pixel where all groups with a valid sample have equally many, a median of medians has at least a quarter of all valid samples, scaled like it, on either side. Without scaling, if n groups have k valid samples each and fewer than ceil(k/2)*ceil(n/2) of the samples are wrong, it stays between the smallest and the largest right sample; with as many wrong samples, about a quarter, it can take arbitrarily large values, where the median of all frames at once withstands almost a half. The second stage cannot fail if its collapse is mean or median. The result records as parents exactly the input files and the files recorded in these. Its card NUM_FR, however, is the number of groups: it is smaller than the number of frames that went in whenever groups have more than one frame.", "quantifier": "all groups of any number and any equal size, all values and flags, both settings of num_frames_scaling in the ranks and any settings in both stages for the headers, all file names and recorded parents, any order of the set of parents", "why_tests_cant": "The tests of two stages use four equal frames, so a median has every sample on both sides, and they read NUM_FR after the first stage only.", "anchors": ["corgidrp/combine.py:53-108", "corgidrp/combine.py:93"]}
