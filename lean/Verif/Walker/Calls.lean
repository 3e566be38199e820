import Verif.Common.Forall2
import Verif.Walker.Record
import Verif.Walker.Templates
import Verif.Walker.Among

/-!
# The arguments of the steps of a recipe (walker.py 405-441): C196

`run_recipe` calls `step_func(curr_dataset, *other_args, **kwargs)`: the dataset, the calibrations of the step in the order of the recipe,
and its keywords. Which parameter gets which calibration depends on their order only. The model has python's binding of arguments to
parameters, the parameters of all functions of `all_steps`, and the steps of all templates with their calibrations and keywords.

Simplifications: values of keywords and defaults are texts, a dictionary is the text "dict"; all errors of binding are one `TypeError`;
`skip` is not set in any template.
-/

namespace Corgi.Calls

open Corgi.Walker

/-! ## Model -/

/-- How an argument list can fail to match the parameters: all of them are `TypeError` in python. -/
inductive BindErr
  | tooMany
  | multiple (k : String)
  | unexpected (k : String)
  | missing (p : String)
  deriving DecidableEq, Repr

/-- The call `f(*args, **kw)` of a python function with the parameters `ps` (name, default): the value of every parameter. -/
def bindArgs {α : Type} (ps : List (String × Option α)) (args : List α) (kw : List (String × α)) : Except BindErr (List (String × α)) :=
  if ps.length < args.length then .error .tooMany
  else
    match kw.find? fun k => (ps.take args.length).any fun p => p.1 == k.1 with
    | some k => .error (.multiple k.1)
    | none =>
      match kw.find? fun k => !(ps.any fun p => p.1 == k.1) with
      | some k => .error (.unexpected k.1)
      | none =>
        match (ps.drop args.length).mapM (m := Except BindErr) fun p =>
          match getKey kw p.1 with
          | some v => .ok (p.1, v)
          | none =>
            match p.2 with
            | some v => .ok (p.1, v)
            | none => .error (.missing p.1) with
        | .ok rest => .ok ((ps.map Prod.fst).zip args ++ rest)
        | .error e => .error e

/-- A parameter: its name and its default, `some none` is `None`. -/
abbrev Param := String × Option (Option String)

def req (n : String) : Param := (n, none)
def nil (n : String) : Param := (n, some none)
def opt (n v : String) : Param := (n, some (some v))

/-- The parameters of the functions of `all_steps` (walker.py 25-61). -/
def params : String → Option (List Param)
  | "prescan_biassub" => some [req "input_dataset", nil "noise_maps", opt "return_full_frame" "False", nil "detector_regions",
      opt "use_imaging_area" "False"]  -- l1_to_l2a.py 6
  | "detect_cosmic_rays" => some [req "input_dataset", req "detector_params", nil "k_gain", opt "sat_thresh" "0.7", opt "plat_thresh" "0.7",
      opt "cosm_filter" "1", opt "cosm_box" "3", opt "cosm_tail" "10", opt "mode" "'image'", nil "detector_regions"]  -- l1_to_l2a.py 160
  | "calibrate_nonlin" => some [req "dataset_nl", opt "n_cal" "20", opt "n_mean" "30", opt "norm_val" "2500", opt "min_write" "800.0",
      opt "max_write" "10000.0", opt "lowess_frac" "0.1", opt "rms_low_limit" "0.004", opt "rms_upp_limit" "0.2",
      opt "pfit_upp_cutoff1" "-2", opt "pfit_upp_cutoff2" "-3", opt "pfit_low_cutoff1" "2", opt "pfit_low_cutoff2" "1",
      opt "make_plot" "True", opt "plot_outdir" "'figures'", opt "show_plot" "False", opt "verbose" "False", nil "nonlin_params"]  -- calibrate_nonlin.py 122
  | "correct_nonlinearity" => some [req "input_dataset", req "non_lin_correction", opt "threshold" "np.inf"]  -- l1_to_l2a.py 288
  | "update_to_l2a" => some [req "input_dataset"]  -- l1_to_l2a.py 333
  | "add_photon_noise" => some [req "input_dataset"]  -- l2a_to_l2b.py 8
  | "dark_subtraction" => some [req "input_dataset", req "dark", nil "detector_regions", nil "outputdir"]  -- l2a_to_l2b.py 45
  | "flat_division" => some [req "input_dataset", req "flat_field"]  -- l2a_to_l2b.py 118
  | "frame_select" => some [req "input_dataset", opt "bpix_frac" "1.0", opt "allowed_bpix" "0", opt "overexp" "False", nil "tt_rms_thres",
      nil "tt_bias_thres", opt "discard_bad" "True"]  -- l2a_to_l2b.py 157
  | "convert_to_electrons" => some [req "input_dataset", req "k_gain"]  -- l2a_to_l2b.py 256
  | "em_gain_division" => some [req "input_dataset"]  -- l2a_to_l2b.py 288
  | "cti_correction" => some [req "input_dataset", req "pump_trap_cal"]  -- l2a_to_l2b.py 329
  | "correct_bad_pixels" => some [req "input_dataset", req "bp_mask"]  -- l2a_to_l2b.py 347
  | "desmear" => some [req "input_dataset", req "detector_params"]  -- l2a_to_l2b.py 388
  | "update_to_l2b" => some [req "input_dataset"]  -- l2a_to_l2b.py 427
  | "boresight_calibration" => some [req "input_dataset", opt "field_path" "'JWST_CALFIELD2020.csv'", nil "field_matches", opt "find_threshold" "10",
      opt "fwhm" "7", opt "mask_rad" "1", opt "comparison_threshold" "50", opt "search_rad" "0.012",
      opt "platescale_guess" "21.8", opt "platescale_tol" "0.1", opt "center_radius" "0.9", nil "frames_to_combine",
      opt "find_distortion" "False", opt "fitorder" "3", nil "position_error", nil "initial_dist_guess"]  -- astrom.py 1004
  | "calibrate_trap_pump" => some [req "input_dataset", opt "time_head" "'TPTAU'", nil "mean_field", opt "length_lim" "5", opt "thresh_factor" "1.5",
      opt "k_prob" "1", opt "ill_corr" "True", opt "tfit_const" "True", opt "tau_fit_thresh" "0.8", opt "tau_min" "7e-07",
      opt "tau_max" "0.013", opt "tauc_min" "0", opt "tauc_max" "1e-05", opt "pc_min" "0", opt "pc_max" "2",
      opt "offset_min" "10", opt "offset_max" "10", opt "cs_fit_thresh" "0.8", opt "E_min" "0", opt "E_max" "1",
      opt "cs_min" "0", opt "cs_max" "50", opt "bins_E" "100", opt "bins_cs" "10", opt "input_T" "180",
      opt "sample_data" "False", opt "verbose" "False", opt "bin_size" "10"]  -- pump_trap_calibration.py 2122
  | "create_bad_pixel_map" => some [req "dataset", req "master_dark", req "master_flat", opt "dthresh" "5.0", opt "ffrac" "0.8", opt "fwidth" "32",
      nil "dark_outputdir"]  -- bad_pixel_calibration.py 5
  | "calibrate_kgain" => some [req "dataset_kgain", opt "n_cal" "10", opt "n_mean" "30", opt "min_val" "800", opt "max_val" "3000", opt "binwidth" "68",
      opt "make_plot" "True", opt "plot_outdir" "'figures'", opt "show_plot" "False", opt "logspace_start" "-1",
      opt "logspace_stop" "4", opt "logspace_num" "200", opt "verbose" "False", nil "detector_regions", nil "kgain_params"]  -- calibrate_kgain.py 275
  | "calibrate_darks" => some [req "dataset", req "detector_params", nil "detector_regions"]  -- darks.py 266
  | "create_onsky_flatfield" => some [req "dataset", nil "planet", nil "band", opt "up_radius" "55", nil "im_size", opt "N" "1", nil "rad_mask",
      nil "planet_rad", opt "n_pix" "44", nil "n_pad", opt "sky_annulus_rin" "2", opt "sky_annulus_rout" "4"]  -- flat.py 180
  | "combine_subexposures" => some [req "input_dataset", nil "num_frames_per_group", opt "collapse" "'mean'", opt "num_frames_scaling" "True"]  -- combine.py 53
  | "build_trad_dark" => some [req "dataset", req "detector_params", nil "detector_regions", opt "full_frame" "False"]  -- darks.py 127
  | "sort_pupilimg_frames" => some [req "dataset_in", opt "cal_type" "''"]  -- sorting.py 22
  | "get_pc_mean" => some [req "input_dataset", nil "pc_master_dark", nil "T_factor", nil "pc_ecount_max", opt "niter" "2", nil "mask_filepath",
      opt "safemode" "True", opt "inputmode" "'illuminated'", nil "bin_size"]  -- photon_counting.py 64
  | "divide_by_exptime" => some [req "input_dataset"]  -- l2b_to_l3.py 73
  | "northup" => some [req "input_dataset", opt "use_wcs" "True", opt "rot_center" "'im_center'"]  -- l3_to_l4.py 645
  | "calibrate_fluxcal_aper" => some [req "dataset_or_image", opt "flux_or_irr" "'flux'", nil "phot_kwargs"]  -- fluxcal.py 412
  | "update_to_l3" => some [req "input_dataset"]  -- l2b_to_l3.py 112
  | "create_wcs" => some [req "input_dataset", req "astrom_calibration"]  -- l2b_to_l3.py 7
  | "distortion_correction" => some [req "input_dataset", req "astrom_calibration"]  -- l3_to_l4.py 21
  | "find_star" => some [req "input_dataset", nil "star_coordinate_guess", opt "thetaOffsetGuess" "0", nil "satellite_spot_parameters",
      opt "drop_satspots_frames" "True"]  -- l3_to_l4.py 95
  | "do_psf_subtraction" => some [req "input_dataset", nil "ct_calibration", nil "reference_star_dataset", nil "mode", opt "annuli" "1",
      opt "subsections" "1", opt "movement" "1", opt "numbasis" "[1, 4, 8, 16]", nil "outdir", opt "fileprefix" "''",
      opt "do_crop" "True", nil "crop_sizexy", opt "measure_klip_thrupt" "True", opt "measure_1d_core_thrupt" "True",
      opt "cand_locs" "[]", nil "kt_seps", nil "kt_pas", opt "kt_snr" "20.0", nil "num_processes"]  -- l3_to_l4.py 402
  | "update_to_l4" => some [req "input_dataset", req "corethroughput_cal", req "flux_cal"]  -- l3_to_l4.py 751
  | "generate_ct_cal" => some [req "dataset_in", opt "roi_radius" "3", opt "cfam_version" "0"]  -- corethroughput.py 326
  | _ => none

/-- The steps of the templates (recipe_templates/*.json). -/
def stepsOf : String → List Step
  | "bp_map.json" => [
      ⟨"create_bad_pixel_map", some [("Dark", some "AUTOMATIC"), ("FlatField", some "AUTOMATIC")], false, none⟩,
      ⟨"save", none, false, none⟩]
  | "build_trad_dark_full_frame.json" => [
      ⟨"prescan_biassub", some [("DetectorNoiseMaps", some "AUTOMATIC")], false, some [("return_full_frame", "true")]⟩,
      ⟨"detect_cosmic_rays", some [("DetectorParams", some "AUTOMATIC"), ("KGain", some "AUTOMATIC, OPTIONAL")], false, some [("mode", "full")]⟩,
      ⟨"correct_nonlinearity", some [("NonLinearityCalibration", some "AUTOMATIC")], false, none⟩,
      ⟨"update_to_l2a", none, false, none⟩,
      ⟨"convert_to_electrons", some [("KGain", some "AUTOMATIC")], false, none⟩,
      ⟨"em_gain_division", none, false, none⟩,
      ⟨"build_trad_dark", some [("DetectorParams", some "AUTOMATIC")], false, some [("full_frame", "true")]⟩,
      ⟨"save", none, false, none⟩]
  | "build_trad_dark_image.json" => [
      ⟨"prescan_biassub", some [("DetectorNoiseMaps", some "AUTOMATIC")], false, some [("return_full_frame", "true")]⟩,
      ⟨"detect_cosmic_rays", some [("DetectorParams", some "AUTOMATIC"), ("KGain", some "AUTOMATIC, OPTIONAL")], false, some [("mode", "full")]⟩,
      ⟨"correct_nonlinearity", some [("NonLinearityCalibration", some "AUTOMATIC")], false, none⟩,
      ⟨"update_to_l2a", none, false, none⟩,
      ⟨"convert_to_electrons", some [("KGain", some "AUTOMATIC")], false, none⟩,
      ⟨"em_gain_division", none, false, none⟩,
      ⟨"build_trad_dark", some [("DetectorParams", some "AUTOMATIC")], false, none⟩,
      ⟨"save", none, false, none⟩]
  | "l1_flat_and_bp.json" => [
      ⟨"prescan_biassub", none, false, some [("return_full_frame", "false")]⟩,
      ⟨"detect_cosmic_rays", some [("DetectorParams", some "AUTOMATIC"), ("KGain", some "AUTOMATIC, OPTIONAL")], false, none⟩,
      ⟨"correct_nonlinearity", some [("NonLinearityCalibration", some "AUTOMATIC")], false, none⟩,
      ⟨"update_to_l2a", none, false, none⟩,
      ⟨"save", none, false, none⟩,
      ⟨"frame_select", none, false, none⟩,
      ⟨"convert_to_electrons", some [("KGain", some "AUTOMATIC")], false, none⟩,
      ⟨"em_gain_division", none, false, none⟩,
      ⟨"add_photon_noise", none, false, none⟩,
      ⟨"dark_subtraction", some [("DetectorNoiseMaps", some "AUTOMATIC")], false, some [("outputdir", "AUTOMATIC")]⟩,
      ⟨"desmear", some [("DetectorParams", some "AUTOMATIC")], false, none⟩,
      ⟨"cti_correction", some [("TrapCalibration", some "AUTOMATIC,OPTIONAL")], false, none⟩,
      ⟨"combine_subexposures", none, false, some [("num_frames_per_group", "6")]⟩,
      ⟨"create_onsky_flatfield", none, false, some [("up_radius", "60")]⟩,
      ⟨"save", none, false, none⟩,
      ⟨"create_bad_pixel_map", some [("DetectorNoiseMaps", some "AUTOMATIC"), ("FlatField", some "AUTOMATIC")], false, none⟩,
      ⟨"save", none, false, none⟩]
  | "l1_to_boresight.json" => [
      ⟨"prescan_biassub", some [("DetectorNoiseMaps", some "AUTOMATIC")], false, some [("return_full_frame", "false")]⟩,
      ⟨"detect_cosmic_rays", some [("DetectorParams", some "AUTOMATIC"), ("KGain", some "AUTOMATIC, OPTIONAL")], false, none⟩,
      ⟨"correct_nonlinearity", some [("NonLinearityCalibration", some "AUTOMATIC")], false, none⟩,
      ⟨"update_to_l2a", none, false, none⟩,
      ⟨"save", none, false, none⟩,
      ⟨"frame_select", none, false, none⟩,
      ⟨"convert_to_electrons", some [("KGain", some "AUTOMATIC")], false, none⟩,
      ⟨"em_gain_division", none, false, none⟩,
      ⟨"add_photon_noise", none, false, none⟩,
      ⟨"dark_subtraction", some [("DetectorNoiseMaps", some "AUTOMATIC")], false, some [("outputdir", "AUTOMATIC")]⟩,
      ⟨"desmear", some [("DetectorParams", some "AUTOMATIC")], false, none⟩,
      ⟨"cti_correction", some [("TrapCalibration", some "AUTOMATIC,OPTIONAL")], false, none⟩,
      ⟨"flat_division", some [("FlatField", some "AUTOMATIC")], false, none⟩,
      ⟨"correct_bad_pixels", some [("BadPixelMap", some "AUTOMATIC")], false, none⟩,
      ⟨"update_to_l2b", none, false, none⟩,
      ⟨"save", none, false, none⟩,
      ⟨"boresight_calibration", none, false, some [("frames_to_combine", "24"), ("find_threshold", "5")]⟩,
      ⟨"save", none, false, none⟩]
  | "l1_to_kgain.json" => [
      ⟨"sort_pupilimg_frames", none, false, some [("cal_type", "k-gain")]⟩,
      ⟨"prescan_biassub", none, false, some [("return_full_frame", "true"), ("detector_regions", "dict")]⟩,
      ⟨"detect_cosmic_rays", some [("DetectorParams", some "AUTOMATIC"), ("KGain", some "AUTOMATIC, OPTIONAL")], false, none⟩,
      ⟨"calibrate_kgain", none, false, some [("detector_regions", "dict")]⟩,
      ⟨"save", none, false, none⟩]
  | "l1_to_l2a_basic.json" => [
      ⟨"prescan_biassub", some [("DetectorNoiseMaps", some "AUTOMATIC,OPTIONAL")], false, some [("return_full_frame", "false")]⟩,
      ⟨"detect_cosmic_rays", some [("DetectorParams", some "AUTOMATIC"), ("KGain", some "AUTOMATIC, OPTIONAL")], false, none⟩,
      ⟨"correct_nonlinearity", some [("NonLinearityCalibration", some "AUTOMATIC")], false, none⟩,
      ⟨"update_to_l2a", none, false, none⟩,
      ⟨"save", none, false, none⟩]
  | "l1_to_l2a_eng.json" => [
      ⟨"prescan_biassub", some [("DetectorNoiseMaps", some "AUTOMATIC,OPTIONAL")], false, some [("return_full_frame", "true")]⟩,
      ⟨"detect_cosmic_rays", some [("DetectorParams", some "AUTOMATIC"), ("KGain", some "AUTOMATIC, OPTIONAL")], false, none⟩,
      ⟨"correct_nonlinearity", some [("NonLinearityCalibration", some "AUTOMATIC")], false, none⟩,
      ⟨"update_to_l2a", none, false, none⟩,
      ⟨"save", none, false, none⟩]
  | "l1_to_l2a_noisemap.json" => [
      ⟨"prescan_biassub", none, false, some [("return_full_frame", "true")]⟩,
      ⟨"detect_cosmic_rays", some [("DetectorParams", some "AUTOMATIC"), ("KGain", some "AUTOMATIC, OPTIONAL")], false, some [("mode", "full")]⟩,
      ⟨"correct_nonlinearity", some [("NonLinearityCalibration", some "AUTOMATIC")], false, none⟩,
      ⟨"update_to_l2a", none, false, none⟩,
      ⟨"save", none, false, none⟩,
      ⟨"convert_to_electrons", some [("KGain", some "AUTOMATIC")], false, none⟩,
      ⟨"calibrate_darks", some [("DetectorParams", some "AUTOMATIC")], false, none⟩,
      ⟨"save", none, false, none⟩]
  | "l1_to_l2a_nonlin.json" => [
      ⟨"sort_pupilimg_frames", none, false, some [("cal_type", "non-lin")]⟩,
      ⟨"prescan_biassub", none, false, some [("return_full_frame", "true"), ("detector_regions", "dict")]⟩,
      ⟨"detect_cosmic_rays", some [("DetectorParams", some "AUTOMATIC"), ("KGain", some "AUTOMATIC, OPTIONAL")], false, none⟩,
      ⟨"calibrate_nonlin", none, false, none⟩,
      ⟨"save", none, false, none⟩]
  | "l1_to_l2a_tdd_vap.json" => [
      ⟨"prescan_biassub", some [("DetectorNoiseMaps", some "AUTOMATIC,OPTIONAL")], false, some [("return_full_frame", "false"), ("detector_regions", "dict")]⟩,
      ⟨"detect_cosmic_rays", some [("DetectorParams", some "AUTOMATIC"), ("KGain", some "AUTOMATIC, OPTIONAL")], false, none⟩,
      ⟨"correct_nonlinearity", some [("NonLinearityCalibration", some "AUTOMATIC")], false, none⟩,
      ⟨"update_to_l2a", none, false, none⟩,
      ⟨"save", none, false, none⟩]
  | "l1_to_l2a_tdd_vap_full.json" => [
      ⟨"prescan_biassub", some [("DetectorNoiseMaps", some "AUTOMATIC,OPTIONAL")], false, some [("return_full_frame", "true"), ("detector_regions", "dict")]⟩,
      ⟨"detect_cosmic_rays", some [("DetectorParams", some "AUTOMATIC"), ("KGain", some "AUTOMATIC, OPTIONAL")], false, none⟩,
      ⟨"correct_nonlinearity", some [("NonLinearityCalibration", some "AUTOMATIC")], false, none⟩,
      ⟨"update_to_l2a", none, false, none⟩,
      ⟨"save", none, false, none⟩]
  | "l1_to_l2b.json" => [
      ⟨"prescan_biassub", some [("DetectorNoiseMaps", some "AUTOMATIC")], false, some [("return_full_frame", "false")]⟩,
      ⟨"detect_cosmic_rays", some [("DetectorParams", some "AUTOMATIC"), ("KGain", some "AUTOMATIC, OPTIONAL")], false, none⟩,
      ⟨"correct_nonlinearity", some [("NonLinearityCalibration", some "AUTOMATIC")], false, none⟩,
      ⟨"update_to_l2a", none, false, none⟩,
      ⟨"save", none, false, none⟩,
      ⟨"frame_select", none, false, none⟩,
      ⟨"convert_to_electrons", some [("KGain", some "AUTOMATIC")], false, none⟩,
      ⟨"em_gain_division", none, false, none⟩,
      ⟨"add_photon_noise", none, false, none⟩,
      ⟨"dark_subtraction", some [("DetectorNoiseMaps", some "AUTOMATIC")], false, some [("outputdir", "AUTOMATIC")]⟩,
      ⟨"desmear", some [("DetectorParams", some "AUTOMATIC")], false, none⟩,
      ⟨"cti_correction", some [("TrapCalibration", some "AUTOMATIC,OPTIONAL")], false, none⟩,
      ⟨"flat_division", some [("FlatField", some "AUTOMATIC")], false, none⟩,
      ⟨"correct_bad_pixels", some [("BadPixelMap", some "AUTOMATIC")], false, none⟩,
      ⟨"update_to_l2b", none, false, none⟩,
      ⟨"save", none, false, none⟩]
  | "l1_to_l2b_pc.json" => [
      ⟨"prescan_biassub", some [("DetectorNoiseMaps", some "AUTOMATIC")], false, some [("return_full_frame", "false")]⟩,
      ⟨"detect_cosmic_rays", some [("DetectorParams", some "AUTOMATIC"), ("KGain", some "AUTOMATIC")], false, none⟩,
      ⟨"correct_nonlinearity", some [("NonLinearityCalibration", some "AUTOMATIC")], false, none⟩,
      ⟨"update_to_l2a", none, false, none⟩,
      ⟨"frame_select", none, false, none⟩,
      ⟨"convert_to_electrons", some [("KGain", some "AUTOMATIC")], false, none⟩,
      ⟨"get_pc_mean", some [("Dark", some "AUTOMATIC")], false, none⟩,
      ⟨"desmear", some [("DetectorParams", some "AUTOMATIC")], false, none⟩,
      ⟨"cti_correction", some [("TrapCalibration", some "AUTOMATIC,OPTIONAL")], false, none⟩,
      ⟨"flat_division", some [("FlatField", some "AUTOMATIC")], false, none⟩,
      ⟨"correct_bad_pixels", some [("BadPixelMap", some "AUTOMATIC")], false, none⟩,
      ⟨"update_to_l2b", none, false, none⟩,
      ⟨"save", none, false, none⟩]
  | "l1_to_l2b_pc_dark.json" => [
      ⟨"prescan_biassub", some [("DetectorNoiseMaps", some "AUTOMATIC")], false, some [("return_full_frame", "false")]⟩,
      ⟨"detect_cosmic_rays", some [("DetectorParams", some "AUTOMATIC"), ("KGain", some "AUTOMATIC")], false, none⟩,
      ⟨"correct_nonlinearity", some [("NonLinearityCalibration", some "AUTOMATIC")], false, none⟩,
      ⟨"update_to_l2a", none, false, none⟩,
      ⟨"frame_select", none, false, none⟩,
      ⟨"convert_to_electrons", some [("KGain", some "AUTOMATIC")], false, none⟩,
      ⟨"get_pc_mean", none, false, some [("inputmode", "darks")]⟩,
      ⟨"save", none, false, none⟩]
  | "l2a_build_trad_dark_image.json" => [
      ⟨"convert_to_electrons", some [("KGain", some "AUTOMATIC")], false, none⟩,
      ⟨"em_gain_division", none, false, none⟩,
      ⟨"build_trad_dark", some [("DetectorParams", some "AUTOMATIC")], false, none⟩,
      ⟨"save", none, false, none⟩]
  | "l2a_to_l2a_noisemap.json" => [
      ⟨"convert_to_electrons", some [("KGain", some "AUTOMATIC")], false, none⟩,
      ⟨"calibrate_darks", some [("DetectorParams", some "AUTOMATIC")], false, none⟩,
      ⟨"save", none, false, none⟩]
  | "l2a_to_l2b.json" => [
      ⟨"frame_select", none, false, none⟩,
      ⟨"convert_to_electrons", some [("KGain", some "AUTOMATIC")], false, none⟩,
      ⟨"em_gain_division", none, false, none⟩,
      ⟨"add_photon_noise", none, false, none⟩,
      ⟨"dark_subtraction", some [("DetectorNoiseMaps", some "AUTOMATIC")], false, some [("outputdir", "AUTOMATIC")]⟩,
      ⟨"desmear", some [("DetectorParams", some "AUTOMATIC")], false, none⟩,
      ⟨"cti_correction", some [("TrapCalibration", some "AUTOMATIC,OPTIONAL")], false, none⟩,
      ⟨"flat_division", some [("FlatField", some "AUTOMATIC")], false, none⟩,
      ⟨"correct_bad_pixels", some [("BadPixelMap", some "AUTOMATIC")], false, none⟩,
      ⟨"update_to_l2b", none, false, none⟩,
      ⟨"save", none, false, none⟩]
  | "l2a_to_l2b_pc.json" => [
      ⟨"frame_select", none, false, none⟩,
      ⟨"convert_to_electrons", some [("KGain", some "AUTOMATIC")], false, none⟩,
      ⟨"get_pc_mean", some [("Dark", some "AUTOMATIC")], false, none⟩,
      ⟨"desmear", some [("DetectorParams", some "AUTOMATIC")], false, none⟩,
      ⟨"cti_correction", some [("TrapCalibration", some "AUTOMATIC,OPTIONAL")], false, none⟩,
      ⟨"flat_division", some [("FlatField", some "AUTOMATIC")], false, none⟩,
      ⟨"correct_bad_pixels", some [("BadPixelMap", some "AUTOMATIC")], false, none⟩,
      ⟨"update_to_l2b", none, false, none⟩,
      ⟨"save", none, false, none⟩]
  | "l2a_to_l2b_pc_dark.json" => [
      ⟨"frame_select", none, false, none⟩,
      ⟨"convert_to_electrons", some [("KGain", some "AUTOMATIC")], false, none⟩,
      ⟨"get_pc_mean", none, false, some [("inputmode", "darks")]⟩,
      ⟨"save", none, false, none⟩]
  | "l2a_to_l2b_tdd_vap.json" => [
      ⟨"frame_select", none, false, none⟩,
      ⟨"convert_to_electrons", some [("KGain", some "AUTOMATIC")], false, none⟩,
      ⟨"em_gain_division", none, false, none⟩,
      ⟨"add_photon_noise", none, false, none⟩,
      ⟨"dark_subtraction", some [("DetectorNoiseMaps", some "AUTOMATIC")], false, some [("outputdir", "AUTOMATIC")]⟩,
      ⟨"desmear", some [("DetectorParams", some "AUTOMATIC")], false, none⟩,
      ⟨"cti_correction", some [("TrapCalibration", some "AUTOMATIC,OPTIONAL")], false, none⟩,
      ⟨"flat_division", some [("FlatField", some "AUTOMATIC")], false, none⟩,
      ⟨"correct_bad_pixels", some [("BadPixelMap", some "AUTOMATIC")], false, none⟩,
      ⟨"update_to_l2b", none, false, none⟩,
      ⟨"save", none, false, none⟩]
  | "l2b_to_corethroughput.json" => [
      ⟨"divide_by_exptime", none, false, none⟩,
      ⟨"generate_ct_cal", none, false, none⟩,
      ⟨"save", none, false, none⟩]
  | "l2b_to_fluxcal_factor.json" => [
      ⟨"divide_by_exptime", none, false, none⟩,
      ⟨"calibrate_fluxcal_aper", none, false, some [("phot_kwargs", "dict")]⟩,
      ⟨"save", none, false, none⟩]
  | "l2b_to_l3.json" => [
      ⟨"create_wcs", some [("AstrometricCalibration", some "AUTOMATIC")], false, none⟩,
      ⟨"divide_by_exptime", none, false, none⟩,
      ⟨"update_to_l3", none, false, none⟩,
      ⟨"save", none, false, none⟩]
  | "l2b_to_l4.json" => [
      ⟨"create_wcs", some [("AstrometricCalibration", some "AUTOMATIC")], false, none⟩,
      ⟨"divide_by_exptime", none, false, none⟩,
      ⟨"update_to_l3", none, false, none⟩,
      ⟨"save", none, false, none⟩,
      ⟨"distortion_correction", some [("AstrometricCalibration", some "AUTOMATIC")], false, none⟩,
      ⟨"find_star", none, false, none⟩,
      ⟨"do_psf_subtraction", none, false, none⟩,
      ⟨"update_to_l4", some [("CoreThroughputCalibration", some "AUTOMATIC"), ("FluxcalFactor", some "AUTOMATIC")], false, none⟩,
      ⟨"save", none, false, none⟩]
  | "l3_to_l4.json" => [
      ⟨"distortion_correction", some [("AstrometricCalibration", some "AUTOMATIC")], false, none⟩,
      ⟨"find_star", none, false, none⟩,
      ⟨"do_psf_subtraction", some [("CoreThroughputCalibration", some "AUTOMATIC")], false, none⟩,
      ⟨"update_to_l4", some [("CoreThroughputCalibration", some "AUTOMATIC"), ("FluxcalFactor", some "AUTOMATIC")], false, none⟩,
      ⟨"save", none, false, none⟩]
  | "l3_to_l4_nopsfsub.json" => [
      ⟨"distortion_correction", some [("AstrometricCalibration", some "AUTOMATIC")], false, none⟩,
      ⟨"northup", none, false, none⟩,
      ⟨"combine_subexposures", none, false, some [("num_frames_scaling", "false")]⟩,
      ⟨"update_to_l4", some [("CoreThroughputCalibration", some "AUTOMATIC,OPTIONAL"), ("FluxcalFactor", some "AUTOMATIC")], false, none⟩,
      ⟨"save", none, false, none⟩]
  | "test.json" => [
      ⟨"prescan_biassub", none, false, some [("return_full_frame", "true"), ("detector_regions", "dict")]⟩,
      ⟨"detect_cosmic_rays", some [("DetectorParams", some "AUTOMATIC"), ("KGain", some "AUTOMATIC, OPTIONAL")], false, none⟩,
      ⟨"sort_pupilimg_frames", none, false, some [("cal_type", "non-lin")]⟩,
      ⟨"calibrate_nonlin", none, false, none⟩,
      ⟨"save", none, false, none⟩]
  | "trap_pump_cal.json" => [
      ⟨"prescan_biassub", some [("DetectorNoiseMaps", some "AUTOMATIC,OPTIONAL")], false, some [("use_imaging_area", "true")]⟩,
      ⟨"correct_nonlinearity", some [("NonLinearityCalibration", some "AUTOMATIC")], false, none⟩,
      ⟨"update_to_l2a", none, false, none⟩,
      ⟨"em_gain_division", none, false, none⟩,
      ⟨"calibrate_trap_pump", none, false, none⟩,
      ⟨"save", none, false, none⟩]
  | _ => []

/-- The entries `drpconfig` of the templates. -/
def configOf (t : String) : List (String × Bool) :=
  if t = "l1_flat_and_bp.json" then [("track_individual_errors", false), ("jit_calib_id", true)] else [("track_individual_errors", false)]

/-- A template as `autogen_recipe` reads it. Its name is not used here. -/
def templateOf (t : String) : Recipe := ⟨t, true, configOf t, [], "", stepsOf t⟩

/-! ## Specification -/

/-- What a parameter is bound to: the dataset, a calibration, `None`, or something else. -/
inductive Val (C : Type)
  | data
  | cal (c : C)
  | nothing
  | text (s : String)

/-- A parameter for a calibration: the classes it takes, and whether the step can do without it. -/
structure Rule where
  param : String
  classes : List String
  orNone : Bool

/-- What the steps need, from their documentation and their code: l1_to_l2a.py 15, 107; 171-172, 219-223; 294; l2a_to_l2b.py 53; 125; 264; 338, 344; 358;
397; darks.py 165; 315; bad_pixel_calibration.py 12-15, 24; photon_counting.py 96, 273; l2b_to_l3.py 14; l3_to_l4.py 28; 428-429, 467-468 (the defaults
measure both throughputs); 759-760, 777-781. Lines 294 and 760 name classes `NonLinearityCorrection` and `FluxCalibration` that do not exist in
data.py; those of the templates are the ones that do. -/
def rules : String → List Rule
  | "prescan_biassub" => [⟨"noise_maps", ["DetectorNoiseMaps"], true⟩]
  | "detect_cosmic_rays" => [⟨"detector_params", ["DetectorParams"], false⟩, ⟨"k_gain", ["KGain"], true⟩]
  | "correct_nonlinearity" => [⟨"non_lin_correction", ["NonLinearityCalibration"], false⟩]
  | "dark_subtraction" => [⟨"dark", ["Dark", "DetectorNoiseMaps"], false⟩]
  | "flat_division" => [⟨"flat_field", ["FlatField"], false⟩]
  | "convert_to_electrons" => [⟨"k_gain", ["KGain"], false⟩]
  | "cti_correction" => [⟨"pump_trap_cal", ["TrapCalibration"], true⟩]
  | "correct_bad_pixels" => [⟨"bp_mask", ["BadPixelMap"], false⟩]
  | "desmear" => [⟨"detector_params", ["DetectorParams"], false⟩]
  | "build_trad_dark" => [⟨"detector_params", ["DetectorParams"], false⟩]
  | "calibrate_darks" => [⟨"detector_params", ["DetectorParams"], false⟩]
  | "create_bad_pixel_map" => [⟨"master_dark", ["Dark", "DetectorNoiseMaps"], false⟩, ⟨"master_flat", ["FlatField"], false⟩]
  | "get_pc_mean" => [⟨"pc_master_dark", ["Dark"], true⟩]
  | "create_wcs" => [⟨"astrom_calibration", ["AstrometricCalibration"], false⟩]
  | "distortion_correction" => [⟨"astrom_calibration", ["AstrometricCalibration"], false⟩]
  | "do_psf_subtraction" => [⟨"ct_calibration", ["CoreThroughputCalibration"], false⟩]
  | "update_to_l4" => [⟨"corethroughput_cal", ["CoreThroughputCalibration"], true⟩, ⟨"flux_cal", ["FluxcalFactor"], false⟩]
  | _ => []

variable {D C W : Type}

def Rule.Takes (cls : C → String) (r : Rule) : Val C → Prop
  | .cal c => cls c ∈ r.classes
  | .nothing => r.orNone = true
  | _ => False

def ofDefault : Option String → Val C
  | none => .nothing
  | some s => .text s

def ofArg : Option C → Val C
  | none => .nothing
  | some c => .cal c

/-- A call that python accepts, that gives every calibration to a parameter for calibrations of its class, and that gives every such parameter a
calibration if the step cannot do without. -/
def Good (cls : C → String) (name : String) (args : List (Option C)) (kw : List (String × String)) : Prop :=
  ∃ ps vs, params name = some ps ∧
    bindArgs (ps.map fun p => (p.1, p.2.map ofDefault)) (Val.data :: args.map ofArg) (kw.map fun k => (k.1, Val.text k.2)) = .ok vs ∧
    (∀ r ∈ rules name, ∃ v, (r.param, v) ∈ vs ∧ r.Takes cls v) ∧ ∀ p c, (p, Val.cal c) ∈ vs → ∃ r ∈ rules name, r.param = p

open Classical in
/-- The same pipeline, whose steps raise at once if the call is not good. -/
noncomputable def checked (cls : C → String) (env : Env D C W) : Env D C W :=
  { env with func := fun n => (env.func n).map fun f w d args kw => if Good cls n args kw then f w d args kw else .error .other }

/-! ## Binding -/

theorem mapM_ok {α β ε : Type} {f : α → Except ε β} {l : List α} {r : List β} : l.mapM f = .ok r ↔ List.Forall₂ (fun a b => f a = .ok b) l r :=
  mapM_ok_iff

/-- **C196** A call is accepted exactly when there are not too many arguments, every keyword is the name of a parameter that has no positional
argument, and all other parameters have a default; then the first parameters have the arguments in their order, the others the value
of the keyword or the default. -/
theorem C196_bind {α : Type} (ps : List (String × Option α)) (args : List α) (kw vs : List (String × α)) :
    bindArgs ps args kw = .ok vs ↔ args.length ≤ ps.length ∧
      (∀ k ∈ kw, (∃ p ∈ ps, p.1 = k.1) ∧ ∀ i (h : i < ps.length), i < args.length → ps[i].1 ≠ k.1) ∧
      ∃ rest, vs = (ps.map Prod.fst).zip args ++ rest ∧
        List.Forall₂ (fun p v => v.1 = p.1 ∧ (getKey kw p.1 = some v.2 ∨ getKey kw p.1 = none ∧ p.2 = some v.2)) (ps.drop args.length) rest := by
  unfold bindArgs
  by_cases h1 : ps.length < args.length
  · rw [if_pos h1]
    simp only [reduceCtorEq, false_iff, not_and]
    omega
  rw [if_neg h1]
  cases h2 : kw.find? fun k => (ps.take args.length).any fun p => p.1 == k.1 with
  | some k =>
    simp only [reduceCtorEq, false_iff, not_and]
    intro _ h
    have hk := List.mem_of_find?_eq_some h2
    have h3 := List.find?_some h2
    simp only [List.any_eq_true, beq_iff_eq] at h3
    obtain ⟨p, hp, h4⟩ := h3
    obtain ⟨i, hi, rfl⟩ := List.getElem_of_mem hp
    rw [List.length_take] at hi
    rw [List.getElem_take] at h4
    exact absurd h4 ((h k hk).2 i (by omega) (by omega))
  | none =>
    dsimp only
    rw [List.find?_eq_none] at h2
    cases h3 : kw.find? fun k => !(ps.any fun p => p.1 == k.1) with
    | some k =>
      simp only [reduceCtorEq, false_iff, not_and]
      intro _ h
      have hk := List.mem_of_find?_eq_some h3
      have h4 := List.find?_some h3
      obtain ⟨⟨p, hp, h5⟩, -⟩ := h k hk
      simp only [Bool.not_eq_true', List.any_eq_false, beq_iff_eq] at h4
      exact absurd h5 (h4 p hp)
    | none =>
      dsimp only
      rw [List.find?_eq_none] at h3
      have hkw : ∀ k ∈ kw, (∃ p ∈ ps, p.1 = k.1) ∧ ∀ i (h : i < ps.length), i < args.length → ps[i].1 ≠ k.1 := by
        intro k hk
        refine ⟨?_, fun i hi hia he => ?_⟩
        · have := h3 k hk
          simpa using this
        · refine h2 k hk ?_
          simp only [List.any_eq_true, beq_iff_eq]
          exact ⟨ps[i], List.mem_take_iff_getElem.2 ⟨i, by omega, rfl⟩, he⟩
      have hone : ∀ (p : String × Option α) (v : String × α),
          ((match getKey kw p.1 with
            | some v => .ok (p.1, v)
            | none =>
              match p.2 with
              | some v => .ok (p.1, v)
              | none => .error (.missing p.1) : Except BindErr (String × α)) = .ok v) ↔
            v.1 = p.1 ∧ (getKey kw p.1 = some v.2 ∨ getKey kw p.1 = none ∧ p.2 = some v.2) := by
        rintro ⟨n, dv⟩ ⟨a, b⟩
        dsimp only
        cases getKey kw n with
        | some x =>
          simp only [Except.ok.injEq, Prod.mk.injEq, Option.some.injEq, reduceCtorEq, false_and, or_false]
          exact ⟨fun h => ⟨h.1.symm, h.2⟩, fun h => ⟨h.1.symm, h.2⟩⟩
        | none =>
          cases dv with
          | some x =>
            simp only [Except.ok.injEq, Prod.mk.injEq, Option.some.injEq, reduceCtorEq, false_or, true_and]
            exact ⟨fun h => ⟨h.1.symm, h.2⟩, fun h => ⟨h.1.symm, h.2⟩⟩
          | none => simp
      split
      · rename_i rest hrest
        rw [mapM_ok] at hrest
        constructor
        · rintro h
          cases h
          exact ⟨by omega, hkw, rest, rfl, hrest.imp fun p v h => (hone p v).1 h⟩
        · rintro ⟨-, -, rest', rfl, h⟩
          have h' := mapM_ok.2 (h.imp fun p v h => (hone p v).2 h)
          have := h'.symm.trans (mapM_ok.2 hrest)
          cases this
          rfl
      · rename_i e he
        simp only [reduceCtorEq, false_iff]
        rintro ⟨-, -, rest', -, h⟩
        have h' := mapM_ok.2 (h.imp fun p v h => (hone p v).2 h)
        have := h'.symm.trans he
        cases this

/-- The binding does not look at the values. -/
theorem bindArgs_map {α β : Type} (f : α → β) {ps : List (String × Option α)} {args : List α} {kw vs : List (String × α)}
    (h : bindArgs ps args kw = .ok vs) :
    bindArgs (ps.map fun p => (p.1, p.2.map f)) (args.map f) (kw.map fun k => (k.1, f k.2)) = .ok (vs.map fun v => (v.1, f v.2)) := by
  obtain ⟨h1, h2, rest, rfl, h3⟩ := (C196_bind _ _ _ _).1 h
  have hkey : ∀ n, getKey (kw.map fun k => (k.1, f k.2)) n = (getKey kw n).map f := by
    intro n
    unfold getKey
    rw [List.find?_map, Option.map_map, Option.map_map]
    rfl
  refine (C196_bind _ _ _ _).2 ⟨by simpa using h1, ?_, rest.map fun v => (v.1, f v.2), ?_, ?_⟩
  · intro k hk
    obtain ⟨k', hk', rfl⟩ := List.mem_map.1 hk
    obtain ⟨⟨p, hp, e⟩, h4⟩ := h2 k' hk'
    refine ⟨⟨_, List.mem_map_of_mem hp, e⟩, fun i hi hia => ?_⟩
    rw [List.getElem_map]
    exact h4 i (by simpa using hi) (by simpa using hia)
  · rw [List.map_append, List.map_map, List.zip_map_right]
    rfl
  · rw [List.length_map, ← List.map_drop, List.forall₂_map_left_iff, List.forall₂_map_right_iff]
    refine h3.imp fun p v h => ⟨h.1, ?_⟩
    rw [hkey]
    rcases h.2 with h | ⟨h, h'⟩
    · exact .inl (by rw [h]; rfl)
    · exact .inr ⟨by rw [h]; rfl, by rw [h']; rfl⟩

/-! ## Calls, before anything is known about the arguments -/

/-- Where the value of a parameter comes from. -/
inductive Src
  | arg (i : ℕ)
  | kw (k : String)
  | dflt (v : Option String)
  deriving DecidableEq

def eval (args : List (Val C)) (kw : List (String × String)) : Src → Val C
  | .arg i => args.getD i .nothing
  | .kw k => .text ((getKey kw k).getD "")
  | .dflt v => ofDefault v

/-- Whether the calls of a step of a template are good, whatever the calibrations are. -/
def shapeOk (name : String) (cs : List (String × Option String)) (keys : List String) : Bool :=
  match params name with
  | none => false
  | some ps =>
    match bindArgs (ps.map fun p => (p.1, p.2.map Src.dflt)) ((List.range (cs.length + 1)).map Src.arg) (keys.map fun k => (k, Src.kw k)) with
    | .error _ => false
    | .ok vs =>
      ((rules name).all fun r => match getKey vs r.param with
        | some (.arg (i + 1)) => match cs[i]? with
          | some (k, some v) => r.classes.contains k && (r.orNone || !mentions "OPTIONAL" v)
          | _ => false
        | some (.dflt none) => r.orNone
        | _ => false) &&
      vs.all fun v => match v.2 with
        | .arg (_ + 1) => (rules name).any fun r => r.param == v.1
        | _ => true

/-- The calibrations that a step of a template is called with: of the classes it lists, `None` only for those that are optional. -/
def Fits (cls : C → String) (cs : List (String × Option String)) (args : List (Option C)) : Prop :=
  List.Forall₂ (fun c a => (∃ x, a = some x ∧ cls x = c.1) ∨ a = none ∧ ∃ v, c.2 = some v ∧ mentions "OPTIONAL" v = true) cs args

theorem getKey_mem {β : Type} {d : List (String × β)} {k : String} {v : β} (h : getKey d k = some v) : (k, v) ∈ d := by
  unfold getKey at h
  rw [Option.map_eq_some_iff] at h
  obtain ⟨p, h1, rfl⟩ := h
  have := List.find?_some h1
  rw [beq_iff_eq] at this
  subst this
  exact List.mem_of_find?_eq_some h1

theorem shape_good {cls : C → String} {name : String} {cs : List (String × Option String)} {kw : List (String × String)}
    (hn : (kw.map Prod.fst).Nodup) (h : shapeOk name cs (kw.map Prod.fst) = true) {args : List (Option C)} (hf : Fits cls cs args) :
    Good cls name args kw := by
  unfold shapeOk at h
  cases hp : params name with
  | none => rw [hp] at h; cases h
  | some ps =>
    rw [hp] at h
    dsimp only at h
    cases hb : bindArgs (ps.map fun p => (p.1, p.2.map Src.dflt)) ((List.range (cs.length + 1)).map Src.arg)
        ((kw.map Prod.fst).map fun k => (k, Src.kw k)) with
    | error e => rw [hb] at h; cases h
    | ok vs =>
      rw [hb] at h
      dsimp only at h
      rw [Bool.and_eq_true, List.all_eq_true, List.all_eq_true] at h
      obtain ⟨h1, h2⟩ := h
      have hl := hf.length_eq
      have hm := bindArgs_map (eval (Val.data :: args.map ofArg) kw) hb
      have e1 : ((List.range (cs.length + 1)).map Src.arg).map (eval (Val.data :: args.map ofArg) kw) = Val.data :: args.map ofArg := by
        refine List.ext_getElem (by simp [hl]) fun i hi hi' => ?_
        rw [List.getElem_map, List.getElem_map, List.getElem_range]
        exact (List.getElem_eq_getD _).symm
      have e2 : (((kw.map Prod.fst).map fun k => (k, Src.kw k)).map fun k => (k.1, eval (Val.data :: args.map ofArg) kw k.2)) =
          kw.map fun k => (k.1, Val.text k.2) := by
        rw [List.map_map, List.map_map]
        refine List.map_congr_left fun k hk => ?_
        have : getKey kw k.1 = some k.2 := (getKey_some_iff hn).2 hk
        simp only [Function.comp, eval, this, Option.getD_some]
      have e3 : ((ps.map fun p => (p.1, p.2.map Src.dflt)).map fun p => (p.1, p.2.map (eval (Val.data :: args.map ofArg) kw))) =
          ps.map fun p => (p.1, p.2.map ofDefault) := by
        rw [List.map_map]
        refine List.map_congr_left fun p _ => ?_
        simp only [Function.comp, Option.map_map]
        rfl
      rw [e1, e2, e3] at hm
      refine ⟨ps, _, hp, hm, fun r hr => ?_, fun p c hc => ?_⟩
      · have := h1 r hr
        cases hk : getKey vs r.param with
        | none => rw [hk] at this; cases this
        | some s =>
          rw [hk] at this
          refine ⟨_, List.mem_map.2 ⟨_, getKey_mem hk, rfl⟩, ?_⟩
          match s, this with
          | .arg (i + 1), this =>
            dsimp only at this ⊢
            match hc : cs[i]?, this with
            | some (k, some v), this =>
              dsimp only at this
              rw [Bool.and_eq_true, List.contains_iff_mem] at this
              obtain ⟨hi, hi'⟩ := List.getElem?_eq_some_iff.1 hc
              have hx := hf.get hi (by omega)
              simp only [List.get_eq_getElem, hi'] at hx
              have hev : eval (Val.data :: args.map ofArg) kw (.arg (i + 1)) = ofArg (args[i]'(by omega)) := by
                simp only [eval, List.getD_cons_succ]
                rw [← List.getElem_eq_getD (h := by rw [List.length_map]; omega), List.getElem_map]
              rw [hev]
              rcases hx with ⟨x, hx, hcl⟩ | ⟨hx, v', hv, ho⟩
              · rw [hx]
                show cls x ∈ r.classes
                rw [hcl]
                exact this.1
              · rw [hx]
                show r.orNone = true
                cases hv
                rw [ho] at this
                simpa using this.2
          | .dflt none, this => exact this
      · obtain ⟨v, hv, he⟩ := List.mem_map.1 hc
        have := h2 v hv
        obtain ⟨n, s⟩ := v
        simp only [Prod.mk.injEq] at he
        obtain ⟨rfl, he⟩ := he
        match s, this, he with
        | .arg 0, _, he => simp [eval] at he
        | .arg (i + 1), this, _ =>
          dsimp only at this
          rw [List.any_eq_true] at this
          obtain ⟨r, hr, h3⟩ := this
          exact ⟨r, hr, beq_iff_eq.1 h3⟩
        | .kw k, _, he => simp [eval] at he
        | .dflt none, _, he => simp [eval, ofDefault] at he
        | .dflt (some _), _, he => simp [eval, ofDefault] at he

/-! ## The templates -/

/-- A step that is a `save`, or whose calls are good. -/
def stepOk (s : Step) : Bool :=
  s.name.toLower == "save" || shapeOk s.name (s.calibs.getD []) ((s.keywords.getD []).map Prod.fst)

/-- The tables agree with the names of the steps and of the calibrations in `Templates.lean` and `Among.lean`. -/
theorem tables : ∀ t ∈ Templates.files, Templates.steps t = some ((stepsOf t).map Step.name) ∧
    stepCalibs t = (stepsOf t).filterMap fun s => s.calibs.map fun cs => (s.name, cs.map Prod.fst) := by
  decide +kernel

/-- Every step of every template is a `save`, or good, but one. -/
theorem templates_ok : ∀ t ∈ Templates.files, ∀ s ∈ stepsOf t, stepOk s = true ∨ t = "l2b_to_l4.json" ∧ s.name = "do_psf_subtraction" := by
  decide +kernel

theorem templates_wf (t : String) (ht : t ∈ Templates.files) : WellFormed (templateOf t) := by
  refine ⟨?_, ?_⟩
  · unfold templateOf configOf
    dsimp only
    split <;> decide
  · revert t
    unfold templateOf
    dsimp only
    have : ∀ t ∈ Templates.files, ∀ s ∈ stepsOf t, ((s.keywords.getD []).map Prod.fst).Nodup := by decide +kernel
    intro t ht s hs kw hk
    have := this t ht s hs
    rw [hk] at this
    exact this

/-! ## Runs -/

theorem fits_of_resolved {cls : C → String} {env : Env D C W} (hcls : ∀ w k p c, env.load w k p = .ok c → cls c = k) {lookup : String → Except Err String}
    {sk : Bool} {cs : List (String × Option String)} {r : List ((String × Option String) × Bool)}
    (h : List.Forall₂ (fun c x => Resolved lookup sk c x.1 x.2) cs r) (hs : ∀ x ∈ r, x.2 = false) {w : W} {args : List (Option C)}
    (ha : loadCalibs env w (r.map Prod.fst) = .ok args) : Fits cls cs args := by
  unfold loadCalibs at ha
  rw [mapM_ok, List.forall₂_map_left_iff] at ha
  unfold Fits
  induction h generalizing args with
  | nil =>
    cases ha
    exact .nil
  | @cons c x cs r h1 _ ih =>
    cases ha with
    | cons h2 h3 =>
      refine .cons ?_ (ih (fun y hy => hs y (List.mem_cons_of_mem _ hy)) h3)
      have hx := hs x List.mem_cons_self
      obtain ⟨⟨k, v⟩, b⟩ := x
      dsimp only at hx h1 h2
      subst hx
      have hload : ∀ p, v = some p → ∃ a, ‹Option C› = some a ∧ cls a = k := by
        rintro p rfl
        dsimp only at h2
        cases hl : env.load w k p with
        | error e => rw [hl] at h2; cases h2
        | ok a =>
          rw [hl] at h2
          cases h2
          exact ⟨a, rfl, hcls _ _ _ _ hl⟩
      cases h1 with
      | explicit _ => exact .inl (hload _ rfl)
      | found _ _ => exact .inl (hload _ rfl)
      | @optional _ v _ _ ho =>
        cases h2
        exact .inr ⟨rfl, v, rfl, mentions_iff.2 ho⟩

theorem jit_iff {cfg : List (String × Bool)} (hc : (cfg.map Prod.fst).Nodup) (g : Settings) :
    jitNow cfg (applyConfig cfg g) = true ↔ Deferred cfg g := by
  have h1 := fillsNow_iff hc (g := g)
  have h2 : jitNow cfg (applyConfig cfg g) = !fillsNow cfg g := by
    unfold jitNow fillsNow
    cases hk : getKey cfg "jit_calib_id" with
    | some b => simp
    | none =>
      dsimp only
      rw [applyConfig_eq cfg hc g, hk]
      simp
  rw [h2, Bool.not_eq_true', ← Bool.not_eq_true, h1, not_not]

/-- A step of a recipe made from a good step of a template is called well, in every state. -/
theorem called_well {cls : C → String} {env : Env D C W} (hcls : ∀ w k p c, env.load w k p = .ok c → cls c = k) {lookup : String → Except Err String}
    {cfg : List (String × Bool)} {g : Settings} (hm : ¬ (Deferred cfg g ∧ g "skip_missing_cal_steps" = true)) {o : String} {s s' : Step} (hn : ((s.keywords.getD []).map Prod.fst).Nodup)
    (hok : shapeOk s.name (s.calibs.getD []) ((s.keywords.getD []).map Prod.fst) = true)
    (hf : StepFilled lookup (g "skip_missing_cal_steps") (Deferred cfg g) o s s') {st : St D C W} (hset : st.settings "skip_missing_cal_steps" =
      g "skip_missing_cal_steps") (hjit : jitNow cfg st.settings = true ↔ Deferred cfg g) (hrun : s'.skip = false)
    {args : List (Option C)} (ha : stepArgs env cfg st s' = .ok args) : Good cls s'.name args (s'.keywords.getD []) := by
  have hkeys : (s'.keywords.getD []).map Prod.fst = (s.keywords.getD []).map Prod.fst := by
    by_cases hd : s.name.toLower = "dark_subtraction"
    · obtain ⟨kw, v, h1, -, h3⟩ := hf.darkdir hd
      rw [h1, h3]
      simp only [Option.getD_some, List.map_map]
      refine List.map_congr_left fun p _ => ?_
      simp only [Function.comp]
      split <;> rfl
    · rw [hf.keywords hd]
  rw [hf.name]
  refine shape_good (cs := s.calibs.getD []) (by rw [hkeys]; exact hn) (by rw [hkeys]; exact hok) ?_
  cases hcs : s.calibs with
  | none =>
    have := (hf.untouched (.inr hcs)).1
    unfold stepArgs at ha
    rw [this, hcs] at ha
    cases ha
    exact .nil
  | some cs =>
    rw [Option.getD_some]
    by_cases hd : Deferred cfg g
    · have hsk : g "skip_missing_cal_steps" = false := by
        rw [← Bool.not_eq_true]
        exact fun h => hm ⟨hd, h⟩
      have h1 := (hf.untouched (.inl hd)).1
      unfold stepArgs at ha
      rw [h1, hcs] at ha
      dsimp only at ha
      rw [if_pos (hjit.2 hd), hset, hsk] at ha
      cases hfill : fillStep (env.lookup st.world st.data) false s' with
      | error e =>
        rw [hfill] at ha
        cases ha
      | ok s2 =>
        rw [hfill] at ha
        obtain ⟨-, -, -, h4⟩ := fillStep_iff.1 hfill
        obtain ⟨r, h5, h6, -⟩ := h4 cs (by rw [h1, hcs])
        have ha' : loadCalibs env st.world (r.map Prod.fst) = .ok args := by
          have : loadCalibs env st.world (s2.calibs.getD []) = .ok args := ha
          rw [h6] at this
          exact this
        refine fits_of_resolved hcls h5 (fun x hx => ?_) ha'
        obtain ⟨i, hi, rfl⟩ := List.getElem_of_mem hx
        have := h5.get (by rw [h5.length_eq]; exact hi) hi
        simp only [List.get_eq_getElem] at this
        generalize r[i] = x at this
        obtain ⟨y, b⟩ := x
        dsimp only at this ⊢
        generalize cs[i]'(by rw [h5.length_eq]; exact hi) = c at this
        cases this with
        | explicit _ => rfl
        | found _ _ => rfl
        | optional _ _ _ => rfl
        | skipped _ _ _ h => cases h
    · obtain ⟨r, h5, h6, h7⟩ := hf.resolved hd cs hcs
      unfold stepArgs at ha
      rw [h6] at ha
      dsimp only at ha
      rw [if_neg (fun h => hd (hjit.1 h))] at ha
      have ha' : loadCalibs env st.world (r.map Prod.fst) = .ok args := by
        have : loadCalibs env st.world (s'.calibs.getD []) = .ok args := ha
        rw [h6] at this
        exact this
      refine fits_of_resolved hcls h5 (fun x hx => ?_) ha'
      rw [← Bool.not_eq_true]
      intro hb
      have := h7.2 (.inr ⟨x, hx, hb⟩)
      rw [hrun] at this
      cases this

theorem checked_args (cls : C → String) (env : Env D C W) (cfg : List (String × Bool)) (st : St D C W) (s : Step) :
    stepArgs (checked cls env) cfg st s = stepArgs env cfg st s := rfl

theorem runStep_checked {cls : C → String} {env : Env D C W} {cfg : List (String × Bool)} {o : String} {st : St D C W} {s : Step}
    (h : s.name.toLower ≠ "save" → s.skip = false → ∀ args, stepArgs env cfg st s = .ok args → Good cls s.name args (s.keywords.getD [])) :
    runStep (checked cls env) cfg o st s = runStep env cfg o st s := by
  unfold runStep
  by_cases hs : s.name.toLower = "save"
  · rw [if_pos (beq_iff_eq.2 hs), if_pos (beq_iff_eq.2 hs)]
    rfl
  · rw [if_neg (by rwa [beq_iff_eq]), if_neg (by rwa [beq_iff_eq]), checked_args]
    cases hf : env.func s.name with
    | none =>
      have : (checked cls env).func s.name = none := by simp [checked, hf]
      rw [this]
    | some f =>
      have : (checked cls env).func s.name = some fun w d args kw => open Classical in if Good cls s.name args kw then f w d args kw else .error .other := by
        simp [checked, hf]
      rw [this]
      dsimp only
      by_cases hk : s.skip = true
      · rw [if_pos hk, if_pos hk]
      · rw [if_neg hk, if_neg hk]
        cases ha : stepArgs env cfg st s with
        | error e => rfl
        | ok args =>
          dsimp only
          rw [if_pos (h hs (by simpa using hk) args ha)]

/-- Recipes made from a template with good steps are called well from beginning to end. -/
theorem run_checked {cls : C → String} {env : Env D C W} (hcls : ∀ w k p c, env.load w k p = .ok c → cls c = k) {lookup : String → Except Err String}
    {cfg : List (String × Bool)} {g : Settings} (hm : ¬ (Deferred cfg g ∧ g "skip_missing_cal_steps" = true))
    {o o' : String} {ss ss' : List Step} (hs : ∀ s ∈ ss, ((s.keywords.getD []).map Prod.fst).Nodup ∧ stepOk s = true)
    (hf : List.Forall₂ (StepFilled lookup (g "skip_missing_cal_steps") (Deferred cfg g) o) ss ss') (st : St D C W)
    (hset : st.settings "skip_missing_cal_steps" = g "skip_missing_cal_steps") (hjit : jitNow cfg st.settings = true ↔ Deferred cfg g) :
    runSteps (checked cls env) cfg o' st ss' = runSteps env cfg o' st ss' := by
  induction hf generalizing st with
  | nil => rfl
  | @cons s s' ss ss' h1 _ ih =>
    obtain ⟨a2, a3⟩ := hs s List.mem_cons_self
    have hstep : runStep (checked cls env) cfg o' st s' = runStep env cfg o' st s' := runStep_checked fun hns hsk args ha => by
      unfold stepOk at a3
      rw [← h1.name] at a3
      rw [Bool.or_eq_true, beq_iff_eq] at a3
      rw [h1.name] at a3
      exact called_well hcls hm a2 (a3.resolve_left (by rw [← h1.name]; exact hns)) h1 hset hjit hsk ha
    have hset' := runSteps_settings env cfg o' st [s']
    simp only [runSteps] at hset' ⊢
    rw [hstep]
    rcases hr : runStep env cfg o' st s' with ⟨st1, _ | e⟩
    · rw [hr] at hset'
      dsimp only at hset' ⊢
      exact ih (fun x hx => hs x (List.mem_cons_of_mem _ hx)) st1 (by rw [hset']; exact hset) (by rw [hset']; exact hjit)
    · rfl

theorem config_skip (t : String) (g : Settings) : applyConfig (configOf t) g "skip_missing_cal_steps" = g "skip_missing_cal_steps" := by
  unfold configOf
  split <;> simp [applyConfig, Function.update]

/-- **C196** Whatever is in the database, on the disk and in the data: in recipes made from all templates but `l2b_to_l4.json`, no call of a
step fails to bind, passes a calibration to a parameter that is not for it, or lacks a calibration the step needs. Steps with a check of
their arguments run exactly as those without. Calibrations are found in advance, or a missing one is an error. -/
theorem C196_calls {cls : C → String} {env : Env D C W} (hcls : ∀ w k p c, env.load w k p = .ok c → cls c = k) {t : String} (ht : t ∈ Templates.files)
    (hne : t ≠ "l2b_to_l4.json") {lookup : String → Except Err String} {g : Settings} (hm : ¬ (Deferred (configOf t) g ∧ g "skip_missing_cal_steps" = true))
    {files : List String} {o : String} {r t' : Recipe} (hgen : autogen lookup g files o (templateOf t) = .ok (r, t')) (w : W) (d : D) :
    runRecipe (checked cls env) g w d r = runRecipe env g w d r := by
  have hwf := templates_wf t ht
  obtain ⟨-, -, h3, -, -, h6⟩ := (C07_autogen_iff lookup g files o _ r hwf).1 ⟨t', hgen⟩
  unfold runRecipe
  rw [h3]
  have hskip : ∀ t ∈ Templates.files, ∀ s ∈ stepsOf t, ((s.keywords.getD []).map Prod.fst).Nodup := by decide +kernel
  refine run_checked hcls hm (fun s hs => ?_) h6 _ (config_skip t g) (jit_iff hwf.config g)
  exact ⟨hskip t ht s hs, (templates_ok t ht s hs).resolve_right fun h => hne h.1⟩

theorem mapM_all {α β ε : Type} {f : α → Except ε β} {l : List α} (h : ∀ a ∈ l, ∃ b, f a = .ok b) : ∃ r, l.mapM f = .ok r := by
  induction l with
  | nil => exact ⟨[], rfl⟩
  | cons a l ih =>
    obtain ⟨b, hb⟩ := h a List.mem_cons_self
    obtain ⟨r, hr⟩ := ih fun x hx => h x (List.mem_cons_of_mem _ hx)
    refine ⟨b :: r, ?_⟩
    rw [mapM_ok] at hr ⊢
    exact .cons hb hr

/-- **C196** With a database that has all calibrations, or none that is not looked up in advance, there is a recipe for every template. -/
theorem C196_made {t : String} (ht : t ∈ Templates.files) {lookup : String → Except Err String} {g : Settings}
    (hl : Deferred (configOf t) g ∨ ∀ k, ∃ p, lookup k = .ok p) (files : List String) (o : String) :
    ∃ r t', autogen lookup g files o (templateOf t) = .ok (r, t') := by
  have hdark : ∀ t ∈ Templates.files, ∀ s ∈ stepsOf t, (s.name.toLower ≠ "dark_subtraction" ∨
      ∃ v ∈ getKey (s.keywords.getD []) "outputdir", s.keywords ≠ none ∧ v = v) ∧ ∀ c ∈ s.calibs.getD [], c.2 ≠ none := by decide +kernel
  have hwf := templates_wf t ht
  have hstep : ∀ s ∈ (templateOf t).steps, ∃ s', fillAndSet lookup (configOf t) g o s = .ok s' := by
    intro s hs
    obtain ⟨h1, h2⟩ := hdark t ht s hs
    have hset : ∀ s2 : Step, s2.name = s.name → s2.keywords = s.keywords → ∃ s', setDarkDir o s2 = .ok s' := by
      intro s2 e1 e2
      unfold setDarkDir
      by_cases hd : s.name.toLower = "dark_subtraction"
      · obtain ⟨v, hv, hk, -⟩ := h1.resolve_left (fun h => h hd)
        rw [e1, e2, if_pos (beq_iff_eq.2 hd)]
        cases hkw : s.keywords with
        | none => exact absurd hkw hk
        | some kw =>
          rw [hkw, Option.getD_some, Option.mem_def] at hv
          dsimp only
          rw [hv]
          dsimp only
          split <;> exact ⟨_, rfl⟩
      · rw [e1, if_neg (by rwa [beq_iff_eq])]
        exact ⟨_, rfl⟩
    unfold fillAndSet
    by_cases hn : fillsNow (configOf t) g = true
    · rw [if_pos hn]
      have hall : ∀ k, ∃ p, lookup k = .ok p := hl.resolve_left ((fillsNow_iff hwf.config).1 hn)
      have hfill : ∃ s2, fillStep lookup (g "skip_missing_cal_steps") s = .ok s2 := by
        unfold fillStep
        cases hc : s.calibs with
        | none => exact ⟨s, rfl⟩
        | some cs =>
          rw [hc, Option.getD_some] at h2
          obtain ⟨r, hr⟩ := mapM_all (f := fillOne lookup (g "skip_missing_cal_steps")) (l := cs) fun c hc => by
            unfold fillOne
            cases hv : c.2 with
            | none => exact absurd hv (h2 c hc)
            | some v =>
              dsimp only
              obtain ⟨p, hp⟩ := hall c.1
              rw [hp]
              split <;> exact ⟨_, rfl⟩
          refine ⟨{ s with calibs := some (r.map Prod.fst), skip := s.skip || r.any Prod.snd }, ?_⟩
          show (cs.mapM (fillOne lookup (g "skip_missing_cal_steps")) >>= _) = _
          rw [hr]
          rfl
      obtain ⟨s2, hs2⟩ := hfill
      obtain ⟨a1, a2, -, -⟩ := fillStep_iff.1 hs2
      obtain ⟨s', hs'⟩ := hset s2 a1 a2
      exact ⟨s', by rw [hs2]; exact hs'⟩
    · rw [if_neg hn]
      obtain ⟨s', hs'⟩ := hset s rfl rfl
      exact ⟨s', hs'⟩
  obtain ⟨ss, hss⟩ := mapM_all hstep
  have hss' : (templateOf t).steps.mapM (fillAndSet lookup (templateOf t).drpconfig g o) = .ok ss := hss
  cases h : autogen lookup g files o (templateOf t) with
  | ok p => exact ⟨p.1, p.2, rfl⟩
  | error e =>
    unfold autogen at h
    rw [hss'] at h
    cases h

/-! ## The template that cannot run -/

/-- **C196** The call of `do_psf_subtraction` in `l2b_to_l4.json` lacks the calibration that the step asserts (l3_to_l4.py 467-468). -/
theorem C196_violated_call (cls : C → String) : ¬ Good cls "do_psf_subtraction" [] [] := by
  rintro ⟨ps, vs, h1, h2, h3, -⟩
  obtain ⟨v, hv, ht⟩ := h3 ⟨"ct_calibration", ["CoreThroughputCalibration"], false⟩ (by simp [rules])
  have hps : bindArgs (α := Src) (ps.map fun p => (p.1, p.2.map Src.dflt)) [Src.arg 0] [] = .ok
      (((ps.map fun p => (p.1, p.2.map Src.dflt)).take 1).map (fun p => (p.1, Src.arg 0)) ++
        ((ps.drop 1).map fun p => (p.1, Src.dflt (p.2.getD none)))) := by
    simp only [params, Option.some.injEq] at h1
    subst h1
    decide +kernel
  have hm := bindArgs_map (eval (C := C) [Val.data] []) hps
  have e3 : ((ps.map fun p => (p.1, p.2.map Src.dflt)).map fun p => (p.1, p.2.map (eval (C := C) [Val.data] []))) =
      ps.map fun p => (p.1, p.2.map ofDefault) := by
    rw [List.map_map]
    refine List.map_congr_left fun p _ => ?_
    simp only [Function.comp, Option.map_map]
    rfl
  rw [e3] at hm
  have := h2.symm.trans hm
  cases this
  simp only [params, Option.some.injEq] at h1
  subst h1
  simp only [req, nil, opt, List.map_cons, List.map_nil, List.take_succ_cons, List.take_zero, List.drop_succ_cons, List.drop_zero, List.cons_append,
    List.nil_append, List.mem_cons, Prod.mk.injEq, String.reduceEq, false_and, false_or, true_and, List.not_mem_nil, or_false] at hv
  subst hv
  simp [eval, ofDefault, Rule.Takes] at ht

/-- What an entry of the trace was. -/
def kind : Ev D C → String
  | .called n _ _ => n
  | .saved _ _ => "save"

/-- A run leaves a trace of some of its steps, in their order. -/
theorem trace_sublist (env : Env D C W) (cfg : List (String × Bool)) (o : String) (steps : List Step)
    (hsave : ∀ s ∈ steps, s.name.toLower = "save" → s.name = "save") (st : St D C W) :
    ∃ evs, (runSteps env cfg o st steps).1.trace = st.trace ++ evs ∧ List.Sublist (evs.map kind) (steps.map Step.name) := by
  induction steps generalizing st with
  | nil => exact ⟨[], by simp [runSteps], by simp⟩
  | cons s steps ih =>
    have h1 : ∃ evs, (runStep env cfg o st s).1.trace = st.trace ++ evs ∧ List.Sublist (evs.map kind) [s.name] := by
      unfold runStep
      split
      · rename_i hs
        rw [hsave s List.mem_cons_self (beq_iff_eq.1 hs)]
        dsimp only
        split
        · exact ⟨[_], rfl, List.Sublist.refl _⟩
        · exact ⟨[], by simp, by simp⟩
      · split
        · exact ⟨[], by simp, by simp⟩
        · split
          · exact ⟨[], by simp, by simp⟩
          · split
            · exact ⟨[], by simp, by simp⟩
            · split
              · exact ⟨[_], rfl, List.Sublist.refl _⟩
              · exact ⟨[_], rfl, List.Sublist.refl _⟩
    obtain ⟨e1, h2, h3⟩ := h1
    simp only [runSteps]
    rcases hr : runStep env cfg o st s with ⟨st1, _ | e⟩
    · rw [hr] at h2
      obtain ⟨e2, h4, h5⟩ := ih (fun x hx => hsave x (List.mem_cons_of_mem _ hx)) st1
      refine ⟨e1 ++ e2, ?_, ?_⟩
      · dsimp only at h2 ⊢
        rw [h4, h2, List.append_assoc]
      · rw [List.map_append, List.map_cons]
        exact h3.append h5
    · rw [hr] at h2
      refine ⟨e1, h2, ?_⟩
      rw [List.map_cons]
      exact h3.trans (List.singleton_sublist.2 List.mem_cons_self)

/-- **C196** No run of `l2b_to_l4.json` succeeds, whatever the data, the calibrations and the settings are, as soon as `do_psf_subtraction` raises
without a calibration: `update_to_l4` is not reached, and not more than the L3 frames are saved. -/
theorem C196_violated_l4 {env : Env D C W} {f : W → D → List (Option C) → List (String × String) → Except Err D}
    (hf : env.func "do_psf_subtraction" = some f) (hassert : ∀ w d, ∃ e, f w d [] [] = .error e) {lookup : String → Except Err String} {g : Settings}
    {files : List String} {o : String} {r t' : Recipe} (hgen : autogen lookup g files o (templateOf "l2b_to_l4.json") = .ok (r, t')) (w : W) (d : D) :
    (runRecipe env g w d r).2 ≠ none ∧
      List.Sublist ((runRecipe env g w d r).1.trace.map kind) ["create_wcs", "divide_by_exptime", "update_to_l3", "save", "distortion_correction",
        "find_star", "do_psf_subtraction"] := by
  have hwf := templates_wf "l2b_to_l4.json" (by decide +kernel)
  obtain ⟨-, -, h3, -, -, h6⟩ := (C07_autogen_iff lookup g files o _ r hwf).1 ⟨t', hgen⟩
  have hsplit : (templateOf "l2b_to_l4.json").steps = (stepsOf "l2b_to_l4.json").take 6 ++
      ⟨"do_psf_subtraction", none, false, none⟩ :: (stepsOf "l2b_to_l4.json").drop 7 := by
    show stepsOf "l2b_to_l4.json" = _
    decide +kernel
  have hnames : r.steps.map Step.name = (templateOf "l2b_to_l4.json").steps.map Step.name := C07_names_kept hwf hgen
  rw [hsplit] at h6
  obtain ⟨pre, s', post, h7, h8, h9, -⟩ := forall₂_split h6
  have hk : s' = ⟨"do_psf_subtraction", none, false, none⟩ := by
    obtain ⟨u1, u2⟩ := h9.untouched (.inr rfl)
    have u3 := h9.keywords (by decide +kernel)
    have u4 := h9.name
    obtain ⟨a, b, c, e⟩ := s'
    simp only at u1 u2 u3 u4
    subst u1 u2 u3 u4
    rfl
  subst hk
  have hpre : pre.map Step.name = ["create_wcs", "divide_by_exptime", "update_to_l3", "save", "distortion_correction", "find_star"] := by
    have : pre.map Step.name = ((stepsOf "l2b_to_l4.json").take 6).map Step.name := by
      rw [← List.forall₂_eq_eq_eq, List.forall₂_map_left_iff, List.forall₂_map_right_iff]
      exact h8.flip.imp fun a b h => h.name
    rw [this]
    decide +kernel
  unfold runRecipe
  rw [h3, h7, runSteps_append]
  generalize hst : ({ settings := _, world := _, data := _, trace := _ } : St D C W) = st
  have htr : st.trace = [] := by rw [← hst]
  obtain ⟨evs, t1, t2⟩ := trace_sublist env (templateOf "l2b_to_l4.json").drpconfig r.outputdir pre (fun s hs hl => by
    have : s.name ∈ pre.map Step.name := List.mem_map_of_mem hs
    rw [hpre] at this
    revert hl
    generalize s.name = n at this
    revert n
    decide +kernel) st
  rw [hpre] at t2
  rcases hr : runSteps env (templateOf "l2b_to_l4.json").drpconfig r.outputdir st pre with ⟨st1, _ | e⟩
  · rw [hr] at t1
    dsimp only at t1 ⊢
    obtain ⟨e, he⟩ := hassert st1.world st1.data
    have hrun : runStep env (templateOf "l2b_to_l4.json").drpconfig r.outputdir st1 ⟨"do_psf_subtraction", none, false, none⟩ =
        ({ st1 with trace := st1.trace ++ [.called "do_psf_subtraction" st1.data []] }, some e) := by
      unfold runStep
      rw [if_neg (by decide +kernel)]
      simp only [hf, stepArgs, Bool.false_eq_true, if_false, Option.getD_none, he]
    simp only [runSteps, hrun]
    refine ⟨by simp, ?_⟩
    rw [t1, htr, List.nil_append, List.map_append]
    exact t2.append (List.Sublist.refl ["do_psf_subtraction"])
  · rw [hr] at t1
    dsimp only at t1 ⊢
    refine ⟨by simp, ?_⟩
    rw [t1, htr, List.nil_append]
    exact t2.trans (by decide)

/-- **C196** The same with the check of the arguments instead of the assertion of the step. -/
theorem C196_violated_checked (cls : C → String) {env : Env D C W} (hf : env.func "do_psf_subtraction" ≠ none) {lookup : String → Except Err String}
    {g : Settings} {files : List String} {o : String} {r t' : Recipe} (hgen : autogen lookup g files o (templateOf "l2b_to_l4.json") = .ok (r, t'))
    (w : W) (d : D) : (runRecipe (checked cls env) g w d r).2 ≠ none := by
  obtain ⟨f, hf'⟩ := Option.ne_none_iff_exists'.1 hf
  refine (C196_violated_l4 (env := checked cls env) (f := fun w d args kw => open Classical in
    if Good cls "do_psf_subtraction" args kw then f w d args kw else .error .other) (by simp [checked, hf']) (fun w d => ⟨.other, ?_⟩) hgen w d).1
  exact if_neg (C196_violated_call cls)

/-- A database with all calibrations: every template has a recipe, also `l2b_to_l4.json`. -/
example : ∀ t ∈ Templates.files, ∃ r t', autogen (fun k => .ok (k ++ ".fits")) (fun _ => false) ["a.fits"] "out" (templateOf t) = .ok (r, t') :=
  fun _ ht => C196_made ht (.inr fun k => ⟨k ++ ".fits", rfl⟩) _ _

/-- The check of the arguments does see wrong calls: calibrations in the wrong order, a keyword that does not exist, `None` for a calibration that is
needed. -/
example : shapeOk "detect_cosmic_rays" [("KGain", some "AUTOMATIC"), ("DetectorParams", some "AUTOMATIC")] [] = false ∧
    shapeOk "desmear" [("DetectorParams", some "AUTOMATIC")] ["mode"] = false ∧
    shapeOk "flat_division" [("FlatField", some "AUTOMATIC,OPTIONAL")] [] = false ∧
    shapeOk "desmear" [("DetectorParams", some "AUTOMATIC")] [] = true := by
  decide +kernel

end Corgi.Calls
