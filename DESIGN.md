# Formal model of corgidrp: design

The code under study is `/repo/corgidrp` (python), read as text. Nothing of it is run.
The model is Lean 4 (`lean/Verif/**`); properties are in `properties.jsonl`, the map
from property to theorem is `MANIFEST.json`, mutation attempts are in `seeded/LOG.jsonl`.

## Layout

For each area `X` there is up to

* `Verif/X/Model.lean`: the code, function by function, each definition citing file and lines;
* `Verif/X/Spec.lean`: small definitions that state what is expected, not using model helpers;
* `Verif/X/Lemmas.lean`: helper lemmas;
* `Verif/X/Props.lean`: the property theorems (names `Cnn_...`), each followed by an `example`
  showing a concrete non-trivial case that meets the hypotheses. Theorems ending in `_partial`
  prove part of a property; theorems containing `_violated` prove, with a concrete witness,
  that the code does not have the property as stated.

## Trusted base

* Lean's kernel; the axioms `propext`, `Classical.choice`, `Quot.sound` (checked by `#print axioms`). No others.
* That the model reads the python correctly. Each definition cites the lines it models.
* Numbers: floats are modelled as exact numbers (rationals, reals or an arbitrary ordered field),
  NaN as `none` where the code depends on it. Rounding is modelled in C161 and C162
  only (`Verif/Float`: every operation is followed by a rounding to nearest of `p` binary digits); overflow to inf, underflow and signed
  zero are not modelled.
* numpy/pandas/astropy primitives (`groupby`, `argmin`, `nanmean`, `bitwise_or`, slicing, header
  assignment) have the documented behaviour written in the model's definitions; each is a small
  definition with a comment.
* FITS serialisation is the identity on the modelled fields. CSV reload of the calibration database is the
  identity except that empty strings come back as missing values (`reloadRow`).
* scipy: `median_filter(size, mode='nearest')` takes the element of rank size//2 of the window starting size//2 to the
  left; `RectBivariateSpline(kx=1, ky=1)` and linear `interp1d` interpolate (bi)linearly and are clamped at the
  edges. numpy: the median of an empty slice is NaN.
* numpy linear algebra: `pinv(X)` of a full-rank X is (XᵀX)⁻¹Xᵀ, `inv` raises iff singular; the data under the mask of
  an all-masked `np.ma.std` are unspecified (parameter `junk`); `np.argsort` breaks ties in index order.
* numpy.ma: a division masks where the denominator is 0 and keeps the data under the mask; `np.nanmin` of an empty array
  raises.
* scipy `integrate.simpson` (>= 1.11) for given x; `np.interp` is constant outside; photutils sums weight times value, and
  weight times variance, over the unmasked pixels. Reference magnitudes and spectra are inputs.
* pyklip: `rotate(img, angle, center)` turns the content counterclockwise about `center` (pixel centres at integers) and the
  WCS with it; scipy `rotate(reshape=False)` turns about `(n - 1) / 2`; `inject_planet(thetas)` counts from the x axis;
  `gaussfit2d` is linear in the scale of the image.
* Not modelled: plotting, printing, warnings, multiprocessing inside pyKLIP, scipy optimisers.

## Plan per property

| id | modelled | how proved |
|----|----------|------------|
| C01 C02 C05 | table as list of rows with all columns; create/remove | invariant by induction over op list; refinement to a finite map; witness for column collision |
| C03 | get_calib with argmin/argmax first occurrence | selection lemma for argmin, case analysis |
| C04 | processes as load/save actions over a shared file | serial schedules: induction; interleaved: witness; the survivors of any schedule: strong induction on the schedule, against an inductive specification |
| C06 | guess_template as a function of header fields | case analysis against a table given as a relation |
| C07 C08 | recipes as records, shallow copy as explicit sharing | induction over steps; witness for the sharing |
| C09 C10 C11 | run_recipe as a fold in an error/state monad | induction over the step list; witnesses |
| C12 C13 C14 C16 | heap of buffers, frames holding references | heap invariants by induction over writes; witnesses |
| C15 | groupby: distinct sorted keys, index lists | list lemmas (permutation of indices) |
| C17 | error layers over the reals | induction over the list of terms |
| C18 | set union of names | list lemmas |
| C19 | levels and strings as char lists | induction over upgrades; first-occurrence replace lemmas |
| C20 C21 C22 | per-pixel stacks with `Option` values; grouping of lists | list/real algebra |
| C23 | frame_select as filter | decision logic |
| C24 | DQ maps as `Nat` bit patterns | bitwise monotonicity, induction over steps; witness |
| C25 | desmear column recurrence | induction over rows in a field |
| C26 C27 C28 | frames as functions on rows x cols with explicit bounds | geometry arithmetic; table checked whole |
| C29 C30 C31 | masks as sets of pixels | loop invariants; witnesses |
| C32 | piecewise-linear interpolation in an ordered field | induction over nodes |
| C33 C34 C47 C49 | per-pixel linear model; masked means | linear algebra; list lemmas |
| C35 C36 C37 C50 C51 C52 | threshold, counts; real analysis of the Newton function | list lemmas; `HasDerivAt`; arithmetic |
| C38 C53 C54 | crop with persisted loop variables | induction over crops; witness |
| C39 C46 C55 C56 C58 | pixelwise arithmetic | field algebra |
| C40 | masks from thresholds | case analysis |
| C41 | bit lists of 64-bit values | bit lemmas |
| C42 | calendar date-time with microseconds | arithmetic on a day count |
| C43 | NaN as `none` | pointwise |
| C44 | run-length counting loop | loop invariant |
| C48 | index selection over lists of gains and times | argmin/sort lemmas; witnesses |
| C57 | heap of arrays and frames | reuse of the dataset heap lemmas |
| C59 | as C40 with NaN | witnesses for all images |
| C60 C61 | loops over sets of equal exposure times | loop invariants; witnesses |
| C62-C65 | on-sky flat on coordinate functions, per-pixel residual lists | arithmetic; induction over the residuals |
| C66-C70 | scipy Simpson rule and np.interp on lists of reals | structural recursion, exactness for parabolas, positivity on uniform grids; real analysis |
| C71 C72 | weighted pixels under an aperture, reals | induction; derivative-free algebra |
| C73 | detection loop with fuel, S/N map and subtraction as parameters | loop invariant; non-termination for all fuel |
| C74 | one value of the curve, state over frames | Fubini and Gaussian integral; 10^x > x |
| C75-C77 | star spectra through the quadrature; frame lists; 2x2 matrix | logarithm laws; induction |
| C79 | finite sums over integer boxes; Python slice bounds; `argmax` over pixels with NaN as bottom | weighted mean bounds; reflection and shift of sums |
| C80-C82 | pixel lists with NaN; frame lists with object keys; windows as integer intervals | list induction; `omega` |
| C83-C85 | calibration points over the reals with `Complex.arg` as arctan2; abstract interpolant; selection core over rationals | floor arithmetic; fold invariants; first-minimum spec |
| C78 | heap of header objects; each creator copies or shares | write/copy framing lemmas |
| C86-C87 | real points and angles in degrees, `Real.arctan`; `none` for NaN | quadrant case analysis, `Complex.arg`-free uniqueness of (cos, sin) |
| C88 | successor function on index lists | comparison with lexicographic order, measure in base n |
| C89-C90 | tangent plane linearised, minimiser taken at its exact optimum; Legendre polynomials over ℚ | linear algebra; index arithmetic of coefficient lists |
| C91-C93 | frames as functions with `Option` pixels, greedy loop; sort-free score selection; group recursion with fuel | loop invariants; first-minimum spec; counterexamples |
| C94-C96 | mask over reals with subpixel sums; optimum finders over an abstract least-squares fit; the module-level defaults as state passed through find_star | exactness of the shortcut by the triangle inequality; identification of parabolas; state counterexamples |
| C97-C99 | rotations and WCS over reals; reading of frames and mode selection as total functions with errors; pyKLIP's subtraction abstract | rigid-motion algebra, iff characterisations, list induction |
| C100-C102 | injection geometry over reals, first-minimum search, cut-outs along one axis over integers, table by separations, fits as inputs | trigonometric identities, Gaussian integral, omega, field identities |
| C103-C105 | sub-stacks as lists of frames, bins over rationals, clipping, histogram mode and noise over reals | permutations and list induction, omega, Chebyshev bound, floor arithmetic |
| C106-C108 | frames grouped by commanded gain, signals and times over rationals, table on the grid of 20 DN, smoothing and fit as parameters | permutations, list induction, field arithmetic, composition with C32 |
| C109-C113 | dipole curves over the reals, images as functions, fits as parameters that may raise | analysis of the exponential, list induction, case analysis |
| C114-C117 | fits as lists of time constants per scheme, chains over sorted temperatures, one pixel and location at a time | list induction with permutation invariants |
| C118-C122 | histogram bins over rationals, lines of the array as records with None as NaN, release time over the reals, groups of frames by header cards | finite sums, Option folds, derivatives and monotonicity of real functions, permutations |
| C123-C126 | Python values by what isinstance and numpy can tell apart, the home directory as a state, set-up on top of the database model, headers as lists of cards | case analysis, exact iffs, invariants of a fold over files |
| C127-C130 | constructors as functions of class, record and inputs; names as lists of characters; shapes, layers and extensions as lists; any hash function | induction on names with a skip counter, prefixes and infixes, case analysis over the classes |
| C131-C132 | templates as lists of step names with the effect of each step on level, unit and value; file names as lists of characters | case analysis over the templates as a whole with values left general, induction on names |
| C133-C134 | names as lists of characters; directory listings in any order; curves as lists of points through `np.interp` | splitting at the last occurrence, permutations, weighted means |
| C135-C136 | prescan pixels as functions on a finite type; histogram over integer edges; background estimator as a parameter | sums, floor, uniqueness of a parabola through three points, homogeneity |
| C137 | `leastsq` as its check of the number of residuals and its cost over the reals, `Complex.arg` as arctan2 | zero of a sum of squares, uniqueness of angles |
| C138 | window pixels as records with `none` as NaN; the map of pyKLIP a parameter | median of a constant list, list induction |
| C139 | triangulation (Qhull) a parameter with the properties of one; barycentric weights | convex combinations |
| C140 | images as finite sums over the reals, scenes as functions on the plane | sums; local cancellation of a bias |
| C141-C143 | cards and csv text as lists of characters; directory and download as states | round trips by induction on characters; exact iffs of failures |
| C144 | the models of the seven value-changing steps of `l1_to_l2b.json` composed; the detector as a separate specification | composition of the step theorems; noise, flags and errors are not part of the statement |
| C145 C146 | datasets as lists of frames over the error model of C17; arrays by their shapes, names as lists of characters | composition of the frame lemmas; exact iffs of acceptance |
| C147 | the error-changing steps of the same recipe composed; NaN followed in a function of one pixel; the variance of independent contributions as specification | composition of the step theorems |
| C148 | the checks and cards of `determine_app_mag` and `determine_color_cor` for lists of frames; files as functions of their path; positions of apertures counted from 0 | unfolding the checks; scaling of Simpson's rule |
| C149 | the kernel as rows of pixels, the two masked assignments in their order | case distinction per pixel |
| C150 | the loop of C36 as a sequence in the number of iterations | concavity by an explicit remainder with non-negative coefficients, monotone convergence; for the limit the mean value theorem and one change of sign of a polynomial of degree nine |
| C151 | output of the dark run as input of the light run | case distinction over the checks, limits of C150 |
| C152 | the chosen row and what its file holds, handed to the models of the steps | equivariance under changes of the other columns; C03 and C39 |
| C153 | mask and energy as finite sums over the image; least squares as any minimiser of the sum of squares | double counting of subpixels, reflection of finite sums, uniqueness of the minimiser, orthogonal projection |
| C154 | composition of the models of C144, C66/C67 and the photometry; the scene is a star on a uniform sky | rewriting with C144, linearity of finite sums, mean of equal values, field identities |
| C155 | pairs by recursion, random places as input, sky flat, measurements exact (or bounded) | agreement with C88, isometry of rotation and scaling, sine and cosine of angles, bounds of means |
| C156 | `scipy.optimize.minimize` as a parameter with cost, start and bounds, two specifications of it | functions with finitely many values, triangle inequality for moved subpixels, finite set of exceptional radii |
| C157 | registering and looking up composed as the walker does for the flat recipe | exact conditions from the first-best specification of C03, uniqueness of paths |
| C158 | `boresight_calibration`, `create_wcs` and `northup` composed from the models of C155, C54, C97 | rotations of polar offsets, whole turns as cosine 1, sums of rolls |
| C159 | the run of C09 with the recipe as it is changed, the cards and the calibrations loaded | invariant of the loop over (done, rest); the second run by induction along the first |
| C160 | the file after an interruption as a beginning of the text; columns of integers refuse NaN | induction along the fields of the cut row and along the rows; lengths of the texts |
| C161-C162 | rounding as a function with a relative bound, and the binary rounding to nearest even as an instance; orders of addition as trees | products of roundings as a group of factors between (1-u)^n and its inverse; induction along loops and trees |
| C163 | Poisson and Erlang probabilities as sums and integrals | tails as integrals by parts, series bounds, monotone equation |
| C164 | values as random variables on any probability space | bilinearity of covariance, variance of independent products |
| C165 | loop over candidates, fit and PSF as functions | interpolation lemmas of C32, Lipschitz bound on a chord, logarithms |
| C166 | the models of the other files on a permuted list | permutation lemmas for each fold; sorted lists without repetition are equal if permutations; witnesses |
| C167 | the models of the steps, composed with themselves | level and size checks; median and deviation of shifted rows; rounding to even under shifts; running totals for desmear |
| C168 | pixels of the bins as random variables with given means and variances; the statistics of the code on lists | expectation of the spread of uncorrelated variables; Poisson mean and variance from the series; product measures for existence |
| C169 | means of the sub-stacks as uncorrelated random variables around the noise model; the fit and errors as matrices | projection matrices (trace, idempotence); covariance of linear combinations; product of coins for existence |
| C170 | pixels as uncorrelated random variables around a star on a flat sky; weights, flags and errors of the aperture; background as a random variable or a linear estimate | moments of linear combinations; E[1/S] - 1/E[S] as the mean of a square |
| C171 | injection and PSF subtraction as parameters; the stored table with its row of separations; Python indexing | case split on the sign of the index; argmin specification |
| C172 | the models of the other files applied to lists of frames and to single frames; the calibration looked up for the first frame | `Forall₂` over frames and results; composition of separate steps; exact differences for the refutations |
| C173 | two runs of the recipe from L1 to L2b, of the bias subtraction and of `get_pc_mean` on inputs that differ in flagged pixels only | difference of two desmeared columns as a weighted sum; counting for the median; lower bound of a standard deviation by one term; congruence of the fold of flags |
| C174 | recursive spline filter, mirrored indices and 4 × 4 weights of `scipy.ndimage.map_coordinates` (order 3, mode constant), generic in reals and reals with NaN | closed form of both halves of the filter; uniqueness by the largest difference; NaN absorbs |
| C175 | processes with adaptive programs, a schedule of moves, private tables between reading and writing, a ghost record of changes | invariant: file, private tables and lookups are those of a sublist of the record |
| C176 | processes running the actions of `save_data` on a disk with torn and whole files and one database, ghost lists of begun and finished files | invariant over all schedules; files are distinct while no name is used twice |
| C177 | recipe of C144 on random frames (pixels and row biases uncorrelated); desmearing as weights | covariance of linear combinations; double sums; apertures of C170 |
| C178 | loop of `run_recipe` with arbitrary changes of the world before every step | simulation relation between worlds; induction over the steps |
| C179 | two runs of the recipe and the photometry with calibrations that differ by factors | relation between frames, carried through every step, exceptions included |
| C180 | the choice of `get_calib` for other tables, frames and orders | first best row: sublists and insertions; nearest neighbours do not cross |
| C181 | scans of permuted, joined and repeated lists of files | exact set of rows after the loop; choice depends on the set of rows up to ties |
| C182 | the walker, the database and the steps from L1 to L2b in one model | a run of a generated recipe means its steps in order with the closest calibrations; composition with C144, C147, C173 |
| C183 | the bias offset of the noise maps from the prescan of all sub-stacks; maps made by the fit from dark frames | residuals of a linear fit do not see its columns; an offset of the prescan is a fixed pattern, then C144 |
| C184 | the chain from L1 to L2b of C144, on pairs of datasets | exact condition of success; exact difference of two runs, which vanishes outside the cone |
| C185 | the chain from L1 to L2b of C144, on pairs of datasets that differ by at most ε | sorting is monotone, so the median is 1-Lipschitz; geometric sums for desmearing; a change that reaches the bound |
| C186 | `detect_cosmic_rays` as a whole; rows with one plateau of any length | rank of a sorted list as a count; counts of intervals; exact set of starts and mask |
| C187 | the recipe of C144 and the cosmic ray step on raw frames whose pixels hold at most `cap` counts | difference with the frame that was not clipped, through `leak` of C184 |
| C188 | the noise map recipe on raw full frames, its product handed to the recipe of C144 | per pixel: bias, response, mean of equal values, recovery of C33; the offset of the prescan is moved into the fixed pattern |
| C189 | the noise map recipe as a change of the disk: lookup, product of C188, file and row of the database; the science walk of C182 on the result | an invariant of the disk (all maps fit, the other rows and files are as before), kept by each campaign; the choice of C180 for a row at the end of the table |
| C190 | the two photon counting recipes made of the models of C144 (raw to electrons, desmear, flat) and of C35/C151 (`get_pc_mean`) | C150 for success, C151 for the limit of each pixel, continuity of the finite sums of `desmear`, its inverse of C25 |
| C191 | models of C190 | exact remainder of a Newton step from C150's concavity factor, polynomial bound of that factor, Taylor bounds of the first guess, geometric weights of `desmear`, C163 for the Poisson numbers |
| C192 | models of C190; sequences of random raw frames, independent and alike pixel by pixel | strong law of large numbers (Mathlib) for the frequencies of detections and of flags and for the mean, continuity of the inverse of the detection probability, C191 |
| C193 | models of C190 and C192, the error of the bin with its three corrections | strong law for the detections with the errors added and subtracted, C191 for each correction, a bound of the variance term by compactness |
| C194 | models of C182 and C190 on one disk: the dark recipe registers its product, the light recipe asks the database | invariant of the darks of one exposure time over a fold of campaigns, C03 for the choice, C191 for the product |
| C195 | the recipe of C144 and the search of C186 on raw frames with extra charge | difference with the frame without rays, through `leak` of C184; exact mask of C186 |
| C196 | python's binding of arguments; parameters of all functions of `all_steps`; steps, calibrations and keywords of all templates | exact condition for a call to bind; binding is natural in the values, so that a check of sources settles all runs; induction over the run |
| C197 | `bp_map.json` on the walker of C07, the database of C03 and the map of C40; current data is the empty list | exact condition for a run without exception by cases on the two lookups |
| C198 | `l2b_to_l3.json` on the walker of C07 with the frames of C182, world coordinates of C54 | the four steps one by one; composition with C182 |
| C199 | set-up of C125 followed by the walk of C182 on the database it leaves | exact rows of C181 give the closest row; composition with C182 |
| C200 | headers of the darks of each sub-stack, fit of C33 | sums over the frames; uniqueness of the exact fit |
| C201 | the two modes of the search of C29 on one full frame | exact sets of C29; no tail reaches the next row |
| C202 | the search of C29 on a frame and on its image area | counts in windows of the median filter; starts of the frame are those of the cut, moved |
| C203 | `get_pc_mean` with a master dark (C151) on random light frames | positive and negative parts; strong law of large numbers |
| C204 | models of C192 and C193, light frames with the master dark | C193 for both stacks; the root of a sum of squares is 1-Lipschitz in each term |
| C205 | `combine_images` (C20) on stacks that differ in a bounded number of frames | counting of samples inside and outside an interval; explicit worst case |
| C206 | `combine_images` on groups and on its own results | sums over lists of lists; one group of ones against zeros for the converse |
| C207 | `combine_subexposures` on its own result | counts of samples in lists of lists; C22 for each stage |
| C45 | class table | the table is finite: checked whole |

## Findings

Places where the code does not have the property one would expect; each is a theorem.

* C04 `create_entry` reloads and saves without a lock; two interleaved processes lose an entry
  (`C04_violated`). A schedule loses nothing exactly if no process saves between the load and the
  save of another (`C04_violated_iff`); what remains otherwise is `C04_survivors`.
* C05 `create_entry` looks for the path among *all* cells (`in self._db.values`), so a path that equals
  any other cell (e.g. a DRPVERSN string) is treated as present and nothing is stored (`C05_violated`).
* C08 `autogen_recipe` uses the shallow `dict.copy`: a second call with the same template accumulates
  inputs and keeps the first call's calibrations; if an optional calibration was missing the second call
  raises AttributeError (`C08_violated`, `C08_second_call_raises`).
* C10 in just-in-time mode the skip test precedes the lookup, so a step whose required calibration is
  missing runs with None (`C10_violated`, `C10_jit_always_runs`).
* C11 `run_recipe` writes drpconfig into module globals and never restores them. The flat-field recipe
  leaves `jit_calib_id` on; a recipe generated earlier with a missing optional calibration then raises
  AttributeError (`C11_violated`, `C11_leak_breaks_next_recipe`).
* C13 `copy(copy_data=False)` shares all four headers with the original: any header write on the copy is
  seen through the original; `update_to_l2a/l2b/l3/l4` therefore change the caller's DATALVL and a second
  call on the same input raises (`C13_violated`, `C13_shallow_headers_shared`, `C13_upgrade_changes_input`).
* C14 `dataset[a:b]` and `split_dataset` re-point the selected Image objects at the new cubes; a later
  update of the parent is not seen by those frames (`C14_violated`, `C14_after_select`, `C14_after_split`).
* C16 `update_after_processing_step` with a wrong err or dq shape raises after the data have been
  overwritten (`C16_violated`, `C16_rejected_but_changed`).
* C18 `_record_parent_filenames` only overwrites: FILEi keywords beyond the new DRPNFILE stay in a header
  that had a longer list (`C18_stale`); harmless when the header comes from one of the inputs (`C18_tight`).
* C19 `update_to_l4` with `flux_cal=None` raises AttributeError after marking the caller's first frame L4;
  a retry with a flux calibration then raises ValueError (`C19_failed_l4_marks_input`).
* C21 `combine_images` counts NaN samples without a DQ flag in n: the error is too small
  (`C21_violated`; `C21_exact` gives the exact value).
* C22 `combine_subexposures` slices its input (`input_dataset[a:b]`), which re-points the input's frames at
  new cubes (C14): the input dataset is disconnected afterwards (`C22_violated`, `C22_input_disconnected`).
* C23 `frame_select` never clears IS_BAD and does not use it: a frame marked earlier stays marked and is
  kept (`C23_old_mark_stays`). The tip/tilt bias test is one-sided: a large negative bias passes
  (`C23_negative_bias_passes`).
* C24 `correct_bad_pixels` casts the flags to uint8: the flag "TBD" (256) is lost and the pixel is not
  masked (`C24_violated`, `C24_high_flags_lost`).
* C26 `prescan_biassub`: in ENG_CONV mode col_start 1200 lies beyond the 1128 prescan columns, the median of the
  empty slice is NaN and every output pixel is NaN (`C26_violated`). The image rows come from the built-in table,
  not from the `detector_regions` argument (`C26_custom_geometry_violated`, `C26_custom_geometry_wrong`).
* C27 `embed` broadcasts an array with one row or one column instead of raising (`C27_violated`).
* C28 `imaging_area_geom` gives a first row of -9 for ENG_EM and ENG_CONV; the slice is empty (`C28_violated`).
* C29 in mode 'full' the part of a tail that runs over the end of a row starts one pixel early, so its last pixel
  is missed (`C29_violated`); the bounds reach one row and column past the image area (`C29_box_outside`).
* C30 the default cosm_filter=1 makes a filter of even size 2, which is a maximum over a pixel and its left
  neighbour: an isolated bright pixel at i gives a second start at i+2 (`C30_violated`).
* C31 `detect_cosmic_rays` appends gains only in the `except` branch: with EMGAIN_M in every frame the step
  raises (`C31_violated`); with EMGAIN_M in all frames but one, all get that one's threshold (`C31_wrong_gain`).
* C33 the input checks of `calibrate_darks_lsq` accept settings with t = a + b/g, for which the three maps are not
  determined and `np.linalg.inv` raises (`C33_violated`, `C33_identifiable_iff`).
* C34 `build_trad_dark`: a pixel masked in exactly half of the frames is not flagged although the docstring says half
  or more (`C34_half_masked_violated`); telemetry rows are 0 and unflagged, not NaN (`C34_telemetry_violated`); the
  error combined from equal frame errors does not shrink with the number of frames (`C34_error_floor`).
* C47 a pixel masked in all frames of one sub-stack enters the fit with mean 0: the maps are wrong, and unflagged with
  five or more sub-stacks (`C47_violated`).
* C48 the fallback `np.where(np.argsort(x) == 1)` is the rank of sub-stack 1, not the second smallest: the same
  sub-stack or the largest one can be used (`C48_violated`, `C48_largest_violated`); `.min()` of an empty array raises
  when the first sub-stack has the largest gain (`C48_crash_violated`).
* C49 `stacks_err` divides the sum of squares by sqrt(M) inside the root: it grows like M^(1/4) (`C49_grows`).
* C35 a NaN pixel without a DQ flag counts as an unmasked frame without detection (`C35_nan`).
* C36 a pixel with a detection in every frame has no solution of the counting equation (`C36_saturated`).
* C37 the master dark of n frames in bins of b lists the first k*floor(n/k) frames, k = floor(n/b), as parents, which
  includes frames that were not used (`C37_violated`).
* C50 the photon-counting error is the variance of the counts instead of its root (`C50_violated`).
* C51 the Newton iteration can give a negative flux although the equation has a solution, and then `get_pc_mean` raises
  also with safemode=False (`C51_negative`, `C51_violated`).
* C52 equality of exposure time, gains and read noise is only checked within a bin; PCTHRESH is that of the last bin
  (`C52_violated`).
* C38 `crop` keeps the centre of the first frame for all frames (`C38_violated`), tests the LSAM name of the first frame
  only (`C38_first_lsam`), accepts negative sizes (`C38_negative_size`) and moves an integer centre of an even-sized
  crop by half a pixel (`C38_integer_centre`).
* C53 `crop` shifts CRPIX only in the primary header, `create_wcs` writes it to the extension header (`C53_violated`).
* C54 `create_wcs` multiplies rotation and scale in the wrong order for unequal plate scales (`C54_scale_violated`) and
  its reference pixel counts from 0 where FITS counts from 1 (`C54_centre_violated`).
* C55 photon noise of a negative pixel is NaN and stays (`C55_violated`).
* C56 `convert_to_electrons` sets the individual error layers to zero (`C56_violated`).
* C58 the synthesized dark uses the first frame's gain (`C58_violated`).
* C40 `correct_bad_pixels` casts the flags to 8 bits: a pixel whose only flag is 256 or more keeps its value (`C40_violated`).
* C43 `flag_nans` overwrites the earlier flags of NaN pixels (`C43_violated`).
* C44 with repeated frame ids a run is cut (`C44_duplicates`).
* C45 NDFilterSweetSpotDataset cannot be autoloaded, and one such file in the calibration folder stops the scan
  (`C45_nd_never`, `C45_scan_violated`); a file without an entry in the table raises UnboundLocalError (`C45_unbound`).
* C57 `em_gain_division` and `divide_by_exptime` return datasets whose frames are not views of the cubes (`C57_em_violated`,
  `C57_exptime_violated`).
* C59 one NaN in the dark turns off the search for hot pixels; a NaN in the flat hides the dead pixels around it
  (`C59_violated`, `C59_flat_violated`).
* C60 frames before the series are included, two series raise TypeError (`C60_violated`, `C60_two_violated`).
* C61 that non-linearity frames are consecutive is not checked (`C61_violated`); a repeated first time hides a good series
  (`C61_hidden`).
* C62 `create_onsky_flatfield` pads both sides with the difference to 1024: the size is right for one raster size only; the
  mask of Uranus is not centred (`C62_violated`, `C62_uranus_violated`).
* C63 overlapping raster images are averaged pairwise, so the result depends on their order (`C63_order_violated`).
* C64 NaN samples count in the error of the flat (`C64_violated`).
* C65 N is the number of groups, not of images per group (`C65_violated`).
* C66 a keyword contained in several file names gets a file that depends on the directory order (`C66_filter_order`).
* C67 the colour-corrected flux is right only if the reference star's band flux is its flux density at the pivot wavelength:
  the factor is made in one photometric convention and corrected in the other (`C67_violated`).
* C68 APP_MAG is photon weighted in one function and energy weighted in the other (`C68_violated`).
* C69 `read_cal_spec` crops before interpolating: constant at the edges (`C69_violated`).
* C70 the photometric errors of the frames are averaged (`C70_violated`).
* C71 the error of the factor is treated as independent between pixels (`C71_violated`).
* C72 the zero point is an array (`C72_violated`).
* C73 a signal-to-noise maximum equal to the threshold never ends (`C73_violated`); borders and even PSFs raise
  (`C73_window_iff`, `C73_even_violated`); the mask is off centre for user PSFs (`C73_mask_violated`).
* C74 the optical density is used as transmission (`C74_violated`); separations and half width of the first frame are kept
  (`C74_own_violated`); a star in the last row of an even image fails (`C74_last_row_violated`).
* C75 colour term, and wrong quantity with flux_or_irr="flux" (`C75_violated`).
* C76 a given calibration factor does not help without dim stars (`C76_factor_violated`), default keywords fail
  (`C76_default_violated`), ODFLAG is the last target's (`C76_flag_violated`).
* C77 sign of the FPAM offset (`C77_violated`).
* C79 `centroid_with_roi`: negative pixels put the centroid outside the frame, one NaN voids it, fractional radii raise, negative guesses select almost the whole image (`C79_violated_*`).
* C80 NaN pixel gives core throughput 0; values above 1 with negative pixels (`C80_violated_nan`, `C80_violated_range`).
* C81 pupil images with an incomplete header are measured as off-axis PSFs (`C81_violated_missing_keyword`).
* C82 PSFs near the edge break or decentre the cube (`C82_violated_ragged`, `C82_violated_centre`).
* C83 half-pixel offset in `get_1d_ct`; `CreateCTMap(save=True, filepath=...)` stores nothing (`C83_violated_half_pixel`, `C83_violated_save`).
* C84 azimuth taken modulo the largest azimuth instead of a full turn; NaN patch uses the wrong index (`C84_violated_azimuth`, `C84_violated_measured`, `C84_violated_patch`, `C84_violated_index`).
* C85 `GetPSF` bins radii to whole pixels, does not wrap angles, fails on three equals (`C85_violated_*`).
* C78 nine creators of calibration products write into the header of the first input frame: the input becomes `DATALVL = CAL` (`C78_violated_input`, `C78_which`); the on-sky flat also subtracts the sky from the caller's arrays (`C78_violated_sky`).
* C87 north angle modulo 180 degrees (`C87_violated_half_turn`), averages across the jump (`C87_violated_average`), sign lost in the first guess (`C87_violated_sign`), reference pixel transposed (`C87_violated_rectangular`).
* C89 boresight: sign of the RA offset, missing 1/cos(dec), rotation direction (`C89_violated_sign`, `C89_violated_rotation`; exact condition `C89_right_iff`).
* C90 fit centred on 511, correction on 512 (`C90_violated_centre`); order 0 and rectangular frames fail.
* C91 masked zeros win over a negative background (`C91_violated_negative`), repeated positions (`C91_violated_repeats`).
* C92 best triangle discarded, catalogue entry used twice, RA window without wrap (`C92_violated_*`).
* C93 stamps larger than the frame, pair stamps, endless loop with zero frames per group, match table taken as a list of frames, position card with one coordinate (`C93_violated_*`).
* C95 the optimum finders return stationary points, not maxima: minima, saddles and places outside the searched interval pass; a cost with largest value zero fails (`C95_violated_*`).
* C96 `update_parameters` writes into the module-level defaults: parameters given in one call of `find_star` are used by all later calls for the mode, also if the call failed (`C96_violated_defaults`, `C96_violated_failed`); `validate_satellite_spot_parameters` accepts nothing (`C96_violated_validate`).
* C97 flags are rotated about a point half a pixel away from the centre used for data (`C97_violated_dq`); STARLOC and CRPIX are not moved with the content (`C97_violated_star`, `C97_violated_wcs`); unequal scales do not come out north up (`C97_violated_scales`); only the first error layer is kept (`C97_violated_layers`); `use_wcs=1` takes the branch without WCS and then fails updating it (`C97_violated_truthy`).
* C98 references are not checked for telescope, filter or pixel scale (`C98_violated_references`); the inner working angle is too small by 10^6 and uses 6.5 m (`C98_violated_iwa`); `pc * cdelt` scales columns (`C98_violated_cd`); integrations are counted as files (`C98_violated_count`).
* C99 given references do not take PSFREF frames out of the science frames (`C99_violated_given`), frames with other PSFREF values vanish (`C99_violated_dropped`); errors are zero (`C99_violated_err`); parents and WCS of the product are wrong (`C99_violated_parents`, `C99_violated_cd`, `C99_violated_crpix`).
* C100 cropped frames choose another PSF (`C100_violated_crop`); candidates are masked with 5 half widths and can empty the annulus (`C100_violated_masked`).
* C101 a separation without sources raises an IndexError (`C101_violated_missing`); unsorted separations get the throughput of others (`C101_violated_order`); PSFs must be square (`C101_violated_pad`).
* C102 the host peak is divided by the optical density instead of the transmission (`C102_violated_od`); only the peak is corrected with a throughput of counts (`C102_violated_width`); the card ZP is never written (`C102_violated_zero_point`); `forward_model_psf` reads the row of separations for KL mode 0 (`C102_violated_fm_row`).
* C103 mean frames count for the size of a sub-stack (`C103_violated_size`); frames with EMGAIN_M are weighted by frame, others by group (`C103_violated_gain`).
* C104 sub-stacks of more than five frames never use the first frames and use others twice (`C104_violated_frames`); the bins end well below max_DN (`C104_violated_max`), and the last row and column stay zero if the width divides (`C104_violated_last_row`); smallest and largest means are in no bin (`C104_violated_extremes`); the last bin below max_val is dropped (`C104_violated_upper`); the checks of dimensions accept everything (`C104_violated_dimensions`).
* C105 exact data give a gain too large by 0.05 (`C105_violated_constant`); noise below the read noise becomes positive shot noise (`C105_violated_shot`); RN uses only the last sub-stack (`C105_violated_read_noise`); the mask of `sigma_clip` belongs to the last round (`C105_violated_mask`).
* C106 data with EMGAIN_M are refused because a gain is recorded for every frame (`C106_violated_measured`); sets in which all exposures have the same number of frames count as having no repeated one (`C106_violated_repeated`).
* C107 pixels at or below background are left out of the mean (`C107_violated_positive`); the second half of the repeated frames loses one frame and includes the first half, so at most half of the drift is seen (`C107_violated_half`) and none with two repeated frames, the documented case (`C107_violated_pair`, `C107_violated_uncorrected`); the intercept of the drift belongs to time zero, not to the first group (`C107_violated_origin`).
* C108 smoothed gains come sorted by signal, signals sorted by exposure (`C108_violated_order`); norm_val above 14000 passes the checks and fails (`C108_violated_norm`); the rows are multiples of 20 up to 14000 whatever the limits (`C108_violated_limits`); a table with one gain is made but cannot be used (`C108_violated_single`).
* C109 with time-dependent capture (`trap_fit`) the dipole peaks later than assumed, so the estimate from the peak is too large (`C109_violated_late`, `C109_violated_estimate`).
* C110 a bin size above one side of the image gives a background of zero everywhere (`C110_violated_wide`).
* C111 fractions of several phase times are added before rounding up: two phase times half of whose frames show the dipole count as one (`C111_violated`).
* C112 one failing fit discards all good ones of the pixel (`C112_violated_raise`).
* C113 accepted ranges without illumination or with five phase times make every fit fail (`C113_violated_offset`, `C113_violated_times`).
* C114 the greedy choice is not the one of smallest total spread (`C114_violated_total`).
* C115 `unused_fit_data` counts dictionary entries, not fits, and only of the last temperature (`C115_violated`, `C115_violated_less`, `C115_last`).
* C116 two traps at one location can exchange their curves (`C116_violated_swap`); a trap that is missed at one temperature takes over the other's fits (`C116_violated_missing`); `unused_temp_fit_data` is always zero and therefore checks nothing (`C116_all`).
* C117 a gap is counted for traps that have none (`C117_violated`).
* C119 errors, and all temperatures and schemes but the first, are not in the trap calibration (`C119_violated_lost`, `C119_violated_first`); what `rebuild_dict` returns cannot be written again (`C119_violated_again`).
* C120 the error of the time constant ignores the covariance of energy and cross section (`C120_violated_covariance`).
* C121 frames with a second number of pumps are silently left out (`C121_violated_pumps`); schemes with different numbers of frames raise (`C121_violated_counts`).
* C122 amplitudes of the two dipoles of one pixel stay in DN for scheme 1 (`C122_violated_both`).
* C123 NaN and infinity pass as positive reals, `True` as a positive integer (`C123_violated_nan`, `C123_left_out`); the "real or complex" test of the array checks is never true, so arrays of text pass (`C123_never_numeric`, `C123_violated_text`); ragged lists raise numpy's exception and bytes names a `TypeError` (`C123_violated_raises`).
* C124 a `%` in the path of the home directory makes the package impossible to import (`C124_violated_percent`); of a legacy configuration only the database path survives (`C124_violated_legacy`), and without one the legacy file is removed before the error (`C124_violated_lost`); yes/no/on/off/1/0 are refused (`C124_violated_bool`).
* C125 with a new database next to existing default files the default calibrations are never registered, so `get_calib` of the detector parameters fails (`C125_violated`).
* C126 values under other names, such as the docstring's own `gmax`, are silently ignored (`C126_violated_docstring`, `C126_violated_ignored`); files with the old names cannot be read since OVERHEAD has no old name (`C126_violated_old_file`); different parameters can have the same hash (`C126_violated_hash`).
* C127 a Dark or DetectorNoiseMaps made with a header that has a record keeps that record and ignores its inputs (`C127_violated_kept`), so a synthesized dark does not list the noise map it was made from (`C127_violated_synthesized`); without inputs BadPixelMap raises a TypeError and FluxcalFactor an UnboundLocalError where the documented record suffices (`C127_violated_accident`); KGain and NDFilterSweetSpotDataset get no name (`C127_violated_nameless`).
* C128 names without a level tag are not changed: flats, non-linearity, k-gain, bad pixel, core throughput and ND products then have the name of the input and overwrite it when saved next to it (`C128_same_name_iff`); `_L1.fits` loses the dot of its extension (`C128_violated_extension`); astrometric calibrations keep the level (`C128_violated_ast`).
* C129 errors with two extra dimensions are accepted and get a third (`C129_violated_shape`); several error layers without names in the header raise a KeyError in the default configuration (`C129_violated_layers`); superseded errors stay in the file (`C129_violated_superseded`); extension names that differ in case are doubled (`C129_violated_case`); files in the root directory get a relative path (`C129_violated_root`).
* C130 the hash ignores shapes, headers and further extensions (`C130_violated_other`) and is salted per process, so the one in the database cannot be checked later (`C130_violated_salt`).
* C131 the photon-counting templates leave BUNIT "detected EM electrons" on values that are electrons (`C131_violated_photon_counting`); trap_pump_cal.json never converts DN to electrons but labels them so (`C131_violated_trap_pump`); after the division by the exposure time the error keeps the unit without "/s" (`C131_violated_error_unit`); L1 frames without a visit type stop at L2b (`C131_violated_no_visit_type`); nine templates are never chosen automatically (`C131_never_guessed`).
* C132 a name without ".fits" loses its last character, what follows ".fits" and its case are lost, so that different images are saved to the same file (`C132_violated_no_extension`, `C132_violated_after_extension`, `C132_violated_case`); a suffix of underscores only leaves an underscore (`C132_violated_underscores`); a template in the working directory cannot be given by its bare name (`C132_violated_relative`).
* C133 names that end in a data level have no frame identifier, so sorting frames named by the flight convention raises (`C133_violated_level_names`).
* C134 version 1 is found in the name of version 10 (`C134_violated_version`); the flux calibration ignores versions (`C134_violated_flux_version`); the lens ratio ignores the source spectrum (`C134_violated_colour`).
* C135 the last histogram bin holds two values (`C135_violated_last`); the sign of the fitted width is not fixed (`C135_violated_sign`); fractions, NaN and empty regions pass the parameter checks, numpy integers do not (`C135_violated_types`, `C135_violated_numpy`).
* C136 the default background ring (5-10 pixels) overlaps the default aperture (7 pixels) (`C136_violated_overlap`), so counts of sources with wings are too low (`C136_violated_wings`); ratios are not affected (`C136_ratio`); the photometry method is ignored in the default mode and nothing is checked without companions (`C136_violated_method`, `C136_violated_unchecked`); `extract_single_frame` drops the throughput extensions it wants to keep (`C136_violated_extensions`).
* C137 negated coefficients, coefficients with another constant term and a north angle turned by 180 degrees have the same cost, so the fit does not determine them (`C137_violated_reflection`, `C137_violated_shift`, `C137_violated_north`); with several frames to combine the frame index runs out of range (`C137_violated_combined`).
* C138 a positive background makes the search subtract too much (`C138_violated_background`); cubes and blank images raise (`C138_violated_cube`, `C138_violated_blank`); cards of an earlier search stay in the header and are measured as companions (`C138_violated_stale`).
* C139 the method argument is ignored (`C139_method_ignored`, `C139_violated_nearest`); a calibration from points on a line, or from fewer than three, is accepted but cannot be interpolated (`C139_violated_line`); positions outside the raster give NaN without a message (`C139_violated_outside`); one frame without FPAMNAME switches the bright/dim split to FSAMNAME for all frames (`C139_violated_fallback`).
* C140 a uniform background moves the centroid towards the middle of the image (`C140_violated_background`); the offsets derived from it are not affected (`C140_bias_cancels`); blank images give NaN (`C140_violated_blank`).
* C141 the host position is hard-coded to 512 while the crop rounds the star position minus one half: the cards are right only for stars strictly between 511 and 512, and one pixel off for a star at 512 (`C141_fixed_iff`, `C141_violated_at_host`); the caller's header is changed, so a second call moves the cards again (`C141_violated_twice`).
* C142 an empty DRPVERSN and modes called NA or None come back as NaN (`C142_violated_empty`); an empty file is not replaced by a new database (`C142_violated_empty_file`). The csv writer and reader of pandas are modelled with their default arguments; number conversion is not.
* C143 a spectrum on disk is not used when the network is down (`C143_violated_offline`) and is destroyed by a broken download (`C143_violated_truncated`); a missing directory or a missing import is reported as an unreachable archive (`C143_violated_message`).
* C144 no defect: the steps invert the detector; the order of desmearing and flat division cannot be exchanged (`C144_order`).
* C145 all frames are converted with the colour correction of the first (`C145_violated_colour_iff`); three-dimensional frames are refused (`C145_violated_cube`); converted data are converted again without a look at BUNIT (`C145_violated_twice`).
* C146 the documented minimum of two by two for a non-linearity table is accepted and cannot be used (`C146_violated_nonlin`); an astrometric calibration of the documented 37 entries is accepted and fails in the distortion correction, which needs 40 (`C146_violated_length`); incomplete core throughput files raise IndexError or KeyError (`C146_violated_errors`); `nd_filter` is ND0 for a filter in FSAM when FPAM has a name (`C146_violated_filter_iff`).
* C147 an L2b error is NaN exactly where the value was negative before the dark subtraction (`C147_violated_nan_iff`), which read noise makes common in pixels without light; `correct_nonlinearity` and `desmear` leave the errors as they were (`C147_violated_nonlin`, `C147_violated_desmear`); the photon noise is computed with the fixed pattern still in the value (`C147_photon_iff`).
* C148 `determine_color_cor` writes the correction of the first frame's filter into all frames (`C148_violated_color`) while `determine_app_mag` refuses mixed filters (`C148_accepts_iff`); with `centering_method='wcs'` the position is counted from 1 and used as if counted from 0, so the aperture is one pixel off in x and y (`C148_violated_wcs`; assumes that photutils counts from 0).
* C149 the hard raster kernel is zero everywhere for widths below two, because line 69 of flat.py compares the values that line 68 has set to one (`C149_violated_narrow`); it is one pixel larger than the image, its centre is one pixel off the middle and the documented radius is used as diameter (`C149_violated_size`, `C149_violated_centre`, `C149_violated_radius`).
* C150 the corrected mean after any number of iterations is below the flux that explains the counts (`C150_violated_below`), and for a pixel that no flux explains (for example one lit in every frame) it grows with the number of iterations beyond every bound without an error (`C150_violated_saturated`). For every positive threshold there is a limit between 86 and 100 per cent of corrected detections (`C150_limit`): between it and 100 per cent the first iteration is negative and one iteration raises although a flux explains the counts (`C150_violated_between`)
* C151 `get_pc_mean` does not compare exposure time, gain and conversion gain of the master dark with the light frames (`dark_subtraction` does): the dark run gives the same output for every exposure time (`C151_violated_settings`), and the light result is then wrong by the dark current times the difference of the exposure times (`C151_violated_time`). In the recipes the choice from the database compares the exposure time, not the gain
* C152 the database chooses a `Dark` by exposure time and date only; an analog dark nearest in time makes the photon-counting recipe fail although a photon-counted dark is there (`C152_violated_pc`), and a photon-counted dark or one of another gain makes `dark_subtraction` fail (`C152_violated_dark`)
* C153 overlapping regions of interest have mask values up to 2 (the documentation of `_roi_mask_for_spots` promises 1), and both regions on the brighter of two spots hold more light than the true geometry (`C153_violated_overlap`); spots that stay inside the regions for all offsets tried end the search with an error, although the star is at the guess (`C153_violated_sharp`).
* C154 nothing compares the optical configuration of the observation with that of the flux calibration: the flux is right exactly if efficiency times measured light over enclosed energy agree (`C154_right_iff`), and a standard star behind a neutral density filter of transmission t makes every flux too high by 1/t, without an error (`C154_violated_nd`).
* C155 `center_radius` is not the fraction of the image that is used: the crop takes `size·(1-center_radius)` off on each side, so 0.9 uses the inner 80 percent (documented: 90), and below 0.5 nothing (`C155_used_iff`, `C155_violated_crop`); then, or with one star in the crop, plate scale (and north angle) are NaN without an error (`C155_violated_empty`, `C155_violated_single`). With more than 20 stars 200 random pairs are drawn without a seed: two runs on the same stars can give different plate scales (`C155_violated_random`).
* C156 (star_center.py 508-620, not called anywhere). The cost of the search for star and separation counts subpixels, so it is a step function of place and separation: for all radii but finitely many there is a neighbourhood of the guess in which it does not change, whatever the image. A method of `scipy.optimize.minimize` that follows finite differences with a step below that (`L-BFGS-B`, which is scipy's default with bounds; the behaviour of scipy is an assumption here, `Stationary`) stops at the guess and reports success. A method that finds the global minimum exists in principle (the minimum is attained) and returns regions with all the light. The documented parameters (`nSteps`, `stepSize`, `nIter`, 554-560) are not read; `offset_tol_pix`, `sep_tol_pix` and `opt_method` (581-583), which are required, are not documented.
* C157 (caldb.py 315, 324; walker.py 340-344, 409-418). `argmin` takes the first of several rows with the same distance in time. A calibration that is made again from the same frames has the same `SCTSRT`; saved under another name or in another folder it comes later in the table and is never chosen for any frame. The recipe `l1_flat_and_bp.json`, run a second time in another folder, makes its bad pixel map with the flat of the first run. Saved under the same name the row is replaced in place and is chosen. Without a frame (`bp_map.json` without inputs) the most recently created one is chosen, so both rules differ.
* C158 (astrom.py 1094-1133, l2b_to_l3.py 33-35). `create_wcs` adds ROLL of the frame to the north angle of the calibration, but `astrom.py` never reads ROLL: the north angle of a calibration field observed at a roll contains it, and it is counted again. Every position angle, by WCS and after `northup`, is off by the mean roll of the calibration frames, whatever the target; even the calibration frame itself gets a wrong WCS. `mocks.create_astrom_data` sets ROLL to 0 ("for now"). The sense of ROLL is that of line 35 of `create_wcs`, where the code itself is in doubt ("might be -roll_ang"); if both line 35 and the spacecraft had the other sense, the error would be the same with the other sign.
* C159 (walker.py 365-441, bad_pixel_calibration.py 47-56). The bad pixel map takes the headers of the dark, so its card RECIPE is the recipe that made the dark (or the noise maps), whatever recipe was run (`C159_violated_bad_pixels`). With calibrations resolved just in time (as in `l1_flat_and_bp.json`) a missing optional calibration is recorded as null, and running the recorded recipe raises AttributeError at that step (`C159_violated_again`, exact condition). A step marked to be skipped just in time runs, but its card says it was skipped (`C159_violated_skip`). The recipe file on disk is written before the resolution and keeps AUTOMATIC (`C159_violated_file`).
* C160 (caldb.py 90-94). `save` empties the file and writes it again. A process that ends in between leaves the rows written so far and at most one cut row; all other calibrations are gone from the database (`C160_prefix`, `C160_left`). With nothing written, or with the cut row ending before NAXIS2, the database cannot be opened by any later run (`C160_violated_start`, `C160_violated_unreadable`); with the cut after that it is opened without an error with a shortened NAXIS2 or with NaN (`C160_violated_value`). Writing to a second file and renaming it would avoid this. Assumes that the file holds a beginning of the text and pandas' treatment of short rows.
* C161 (l2a_to_l2b.py 411-419). `np.zeros_like` gives the smear the type of the frame: in a frame of integers it loses its fraction, and a smear below one count is not removed (`C161_violated_integers`). The recipes make floats before, so this is seen only if the step is called by itself.
* C162 sums depend on the order of addition by no more than the rounding errors (`C162_order`), but they do (`C162_violated_order`).
* C163 (photon_counting.py 430-453). `_calc_func` leaves out four and more electrons, so the corrected value is larger than the mean number of electrons, for every positive mean (`C163_violated_bias`); by less than 1e-4 up to 0.1 electrons per frame (`C163_default`). With threshold 0 the first guess is exact and Newton's steps make it worse (`C163_violated_guess`).
* C164 (combine.py 8-49 after l2a_to_l2b.py 45-116, 256-286). The errors of the dark and of the k-gain are the same in all frames, but are averaged down like noise when frames are combined: the variance is larger than the squared error by `Var(dark) (1 - 1/m)` (`C164_dark`), and with many frames the error goes to 0 while the standard deviation does not (`C164_violated_many`). The factor `sqrt(pi/2)` of the median is that of many frames; for one or two the median is the mean (`C164_violated_median`).
* C165 (measure_companions.py 139-156, 213-222). The table gives the place that was guessed, not the fitted one (`C165_violated_place`; the test gives the true place as guess). Candidates inside the first separation of KL_THRU get the throughput of the first (`C165_violated_inside`). The magnitude from the zero point uses counts without the corrections that the ratio has: too faint by the throughputs of PSF subtraction and mask (`C165_violated_zero_point`).
* C166 (photon_counting.py 171-173, 202-209; l2a_to_l2b.py 81; combine.py 84-103; calibrate_kgain.py 892-902). The measured or applied EM gain and ISPC are read from the first frame of a bin and not compared with the others, so that the same frames are accepted in one order and refused in another (`C166_violated_pc`), and dark subtraction with noise maps gives other values (`C166_violated_dark_subtraction`, exact in `C166_dark_subtraction`). Combined frames get the name of the last and the headers of the first file of the list (`C166_violated_name`). The k-gain pairs frames in the order of the list (`C166_violated_kgain`). Sorting the frames by time in the constructor of a dataset would remove all of these.
* C167 (l2a_to_l2b.py 8-327, 388-425; l2b_to_l3.py 73-110; l3_to_l4.py 332-337, 645-743). No arithmetic step looks at BUNIT or HISTORY, so a dark, flat, gain or exposure time is applied again when a step is listed twice (`C167_violated_dark`, `_flat`, `_electrons`, `_emgain`, `_exptime`, `_photon_noise`, `_desmear`, `_northup_roll`, each with the exact condition). `crop` rounds half-integers to even, which does not commute with shifts: a dataset cropped to the default 60 pixels around a star at a whole pixel is refused by the second crop (`C167_crop`, `C167_violated_crop`), and so by `do_psf_subtraction`, which crops again (line 517).
* C168 (calibrate_kgain.py 123-125, 147-151, 541-558, 590-594, 867-870). The noise of a bin is taken with ddof=0 and the read noise with ddof=1, so the gain is too large on average, by the factor m L / ((m-1) L - K² r²) for m pixels of L electrons (`C168_violated_shot`, `C168_violated_gain`; right in the limit, `C168_many`). A bin of one pixel gives the mean over the squared read noise (`C168_violated_one`). A drift of the lamp between two frames brings the spread of the pattern back (`C168_violated_drift`). EM gain is accepted and gives K / (F² g), or K / F² for divided frames (`C168_violated_em_gain`). Deviations, not variances, are averaged, which makes the gain larger still (`C168_violated_deviations`).
* C169 (darks.py 586-617, 711-722, 864). The fit is unweighted although the noise grows with the gain, and the errors assume equal noise: for four sub-stacks of gains 1 and 2 the error of the dark current is right only if both gains are equally noisy (`C169_violated_unequal`). The error of the clock-induced charge has the errors of the sub-stacks added once more, √M times the variance of one (`C169_violated_cic`, `_grows`). The dark adds the errors of F, C and D in quadrature although the fit correlates them: in one example the square is six times too large (`C169_violated_dark`). Negative values are set to zero, which biases the maps (`C169_violated_clip`).
* C170 (fluxcal.py 321-344, 497-498; l4_to_tda.py 375-382). Light on flagged pixels is lost without correction (`C170_violated_flagged`). Pixels cut by the edge enter the error with their weight instead of its square, which makes it too large (`C170_iff`, `C170_violated_edge`; this is the rule of photutils, which is trusted). With `background_sub=True` the noise of the background is not added (`C170_violated_background`, exact in `C170_background_iff`; 1 + k/m for k pixels and the mean of m, `C170_ring`), and if the ring overlaps the aperture, as with radius 7 and ring 5-10 in measure_companions.py 296-297, star light is subtracted (extreme case `C170_violated_overlap`). Averaging m frames leaves the error of one (`C170_violated_frames`). The factor band/S is too large on average (`C170_factor_bias`, `C170_violated_factor`).
* C171 (measure_companions.py 430-448). `forward_model_psf` indexes KL_THRU with the index of the mode, without skipping the row of separations as `measure_companions` does in line 149: for index 0 the throughput is a separation (`C171_violated_first`), for later modes that of the mode before (`C171_violated_front`); only indices from the back are right (`C171_back`).
* C172 (l2a_to_l2b.py 59-67, darks.py 806-871, l1_to_l2a.py 225-233 and 306, l2a_to_l2b.py 157-254, l3_to_l4.py 305-395, walker.py 126-210). A frame can fare differently in a dataset than alone. With noise maps frames of different times or gains are refused together (`C172_violated_mixed`), and the dark is built with the true gain of the first frame: another frame is wrong by F(1/g₂ - 1/g₁) (`C172_violated_maps`). In `detect_cosmic_rays` a frame with EMGAIN_M is refused alone and gets the saturation limit of the other frame in a pair (`C172_violated_saturation`). Cropping cuts all frames around the star of the first (`C172_violated_crop_place`). Automatic calibrations are those nearest to the first file (`C172_violated_auto`).
* C173 (l2a_to_l2b.py 411-419, l1_to_l2a.py 106, photon_counting.py 217-226). Values of flagged pixels reach unflagged ones. `desmear` adds up the column including flagged pixels: a cosmic ray of Δ electrons in row i changes row r > i by −ρ(1+ρ)^(i−r−1)Δ (ρ row time over exposure time), with no flag there; the recipe does not replace flagged values before the step. The prescan is cut off with its flags in the first step, before cosmic rays are looked for: the median of the row stands hits, but the standard deviation over the prescan, which becomes an error of all 1024 pixels of the row, has no bound. `get_pc_mean` leaves flagged pixels out of the counts but not out of the mean that it compares with `pc_ecount_max`, so that one bright flagged pixel can stop the run in safe mode. `calibrate_kgain.py` and `calibrate_nonlin.py` never read the flags at all, though their recipes look for cosmic rays first (read in the text, no theorem).
* C174 (l3_to_l4.py 84-90, l2a_to_l2b.py 369-385). `distortion_correction` calls `map_coordinates` with order 3: the prefilter of scipy runs along whole columns and rows, so that one NaN makes every coefficient NaN. `correct_bad_pixels` writes NaN into bad and flagged pixels, and nothing between it and `distortion_correction` in `l2b_to_l3.json`, `l2b_to_l4.json`, `l3_to_l4.json` removes them: a frame with one bad pixel is lost as a whole, even if the coefficients describe no distortion. Only the data are resampled: errors and flags keep their places. Pixels read from outside the frame become 0 without flag. Trusted: the algorithm of scipy as documented (pole √3 − 2, mirrored start, positions outside [0, n − 1] give `cval`); that arithmetic with NaN gives NaN.
* C175 Programs of several processes on one database file. The file is always the one a single client would have left that made some of the changes in the order of their writing, the last one included; with mutual exclusion it is all of them. Without it a removed product comes back if another process read the file before the removal and writes after it, the removal of one product undoes a registration of another, and one slow registration undoes any number of registrations that were answered with success. Simplification: reading and writing the file are single actions (see C160 for an interrupted one).
* C176 `save_data` writes all files before it registers any of them, so a row always describes a product that had been written completely, whatever stops when. Saving a calibration again under its name (running a calibration recipe again does this) breaks this for the time between the start of the writing and the writing of the database: the row names a torn file, then a file with another content; a crash in between leaves it so. Trusted: `writeto(overwrite=True)` removes the old file before it writes the new one.
* C177 Pixels of an L2b frame are correlated although everything later takes them for independent: the error of the row bias (l1_to_l2a.py 107, 114) is common to the row, so the flux of n pixels of one row has n(n-1) times its variance more than the reported error says; desmearing makes rows of a column anticorrelated.
* C178 Steps read their calibrations themselves and at different times (walker.py 426-432): a product can be made with two versions of one calibration (ten templates load one twice), and a recipe generated earlier uses whatever is at the path later.
* C179 Noise maps are accepted with frames of another k-gain: `dark_subtraction` compares KGAINPAR only for a `Dark`, and `calibrate_darks_lsq` sets it to `None` in the maps (darks.py 730). The dark is then wrong by the ratio of the k-gains.
* C180 A recipe takes the calibrations that are closest to its first input file (walker.py 126, 167-169, 413) for all its files: for a dataset that spans the middle between two calibrations the order of the file list decides which is used, and some files are processed with the farther one.
* C181 Between two calibrations that are equally close in time `get_calib` takes the one registered first, and `scan_dir_for_new_entries` registers in the order of `os.walk`, so the answer depends on the file system. A scan never removes the rows of deleted files.
* C182 With `skip_missing_cal_steps` (walker.py 217-222) the product of a walk from which steps were left out has the level card of a complete one: without a flat field in the database the file says L2b and its values are the scene times the sensitivity (`C182_violated_no_flat`). Only the recipe in the header and a warning tell. In the model the search for cosmic rays is a parameter and `save` does not fail.
* C183 `B_O` (darks.py 640-668) is the median of the residuals of the fit in the prescan. The fit has a constant term in every pixel, so an offset between prescan and image area, or any pattern in the prescan, cannot appear in it: on noise-free data it is always zero, on real data it is the noise of the fit. The offset goes into the map of the fixed-pattern noise instead, which is right for linear responses only (the non-linearity is then corrected at the wrong level), and `B_O_ERR` is added to the error of every pixel.
* C184 No violation. A pixel of L2b depends on the bias of all earlier rows through `desmear`: a bad prescan in one row is seen in all later rows.
* C185 No violation. Rounding of the raw values costs at most two counts, and `desmear` does not let the errors build up over the rows.
* C186 `flag_cosmics` counts the tail from the start of a plateau (detector.py 489), not from its end as the docstring says (411): with `cosm_filter=2` and `cosm_tail=10` a plateau of 13 pixels or more has no masked tail at all (`C186_tail_even`). With the default `cosm_filter=1` the spurious second start of C30 hides this (`C186_tail_odd`). `cosm_filter` is documented as the smallest length of plateaus that are found; it is `cosm_filter//2 + 1` (`C186_starts`). A brighter frame can have fewer flags (`C186_violated_brighter`).
* C187 A pixel that is full loses counts, and `desmear` spreads the loss over all later rows of its column, which become too large. The full pixel is flagged (if the saturation threshold is not above what a pixel holds), the later rows are not, unless the box around a cosmic ray hit happens to cover them. When the threshold is above what a pixel holds, nothing is flagged. The linear response is an assumption of the theorem.
* C188 The offset between prescan and image is never measured (C183), yet noise maps made by the pipeline itself repair it: it is in the map of the fixed pattern. This holds for a linear response only. The non-linearity correction is evaluated at a signal that is wrong by the offset, in the darks and in the science frames, and the two errors do not cancel (750 electrons become 751 with an offset of one count and a correction that doubles at 1000 counts).
* C189 Noise maps carry the date of the first frame of the first sub-stack, so darks processed later replace older ones only for frames that are strictly nearer to that frame. For other frames the new darks have no effect at all, also when they were taken to replace bad ones.
* C190 The photon counting recipes do not subtract the fixed pattern before the threshold is applied. Where it alone exceeds the threshold, light frames and darks are detected in every frame and the product is exactly 0, without a flag. The number of iterations of the recipes is the default of 2; the scene is reached in the limit only.
* C191 With the two iterations that the recipes make, the Newton steps are not what limits the photon counting product: up to 0.1 electrons per pixel and frame they leave less than 0.0000001 electrons. The model of at most three electrons leaves up to 0.0001 (C163), and `desmear` can double it. The rate is proved up to 0.4 electrons per pixel and frame; above, C150 has the convergence without a rate.
* C192 Adding frames does not take the photon counting product nearer to the scene than the bound of C191: the limit of many frames has the bias of the model of at most three electrons (C163) and of the two iterations. What is random is in the raw frames; the probability of a detection is assumed to be that of Poisson distributed electrons multiplied by the register, the flags are assumed not to depend on the number of electrons.
* C193 The errors of the frames are treated as a common shift of all frames, also where they are independent from frame to frame (read noise and the like): the reported error of a photon counted pixel therefore has a floor, the difference of the fluxes for the electrons plus and minus the error, however many frames are counted. The variance `varL23` is added to it as it is, not its square root (C50).
* C194 `get_calib` looks at the exposure time and the date of a dark only. An analog dark, or a photon counted dark with fewer frames or another threshold, that is nearer in time than the fitting dark makes `l1_to_l2b_pc` fail (`C194_needs`, `C194_blocked`); the fitting dark is in the database, but there is no way to get to it except to name its file in the recipe. `l1_to_l2b_pc.json` is not among the templates that `guess_template` returns.
* C195 `desmear` runs on frames with cosmic rays in them and takes their charge for light: all later rows of the columns that a ray hit are too small, by the charge times `rho (1+rho)^-(rows+1)`. The pixels of the ray are flagged, the trail behind the box of the mask is not (`C195_trail`, `C195_silent`). Pixels with flags are not left out of the sums of `desmear` (l2a_to_l2b.py 413-418).
* C196 `l2b_to_l4.json` lists no `CoreThroughputCalibration` for `do_psf_subtraction`, which asserts that it has one as long as `measure_klip_thrupt` or `measure_1d_core_thrupt` is set, which both are by default (l3_to_l4.py 467-468): every run of this template ends with an AssertionError after the L3 frames were saved (`C196_violated_l4`). With `skip_missing_cal_steps` the step is not skipped either, since it lists no calibration. All other templates call their steps well. Trusted: the table `rules` of what each parameter takes.
* C197 (walker.py 372-373, 409-418; caldb.py 134). A recipe without inputs cannot resolve calibrations just in time: `curr_dataset` is `[]`, which `get_calib` takes for a frame, so `entry.filepath` raises AttributeError for every database; `skip_missing_cal_steps` and OPTIONAL only catch ValueError. With `skip_missing_cal_steps` and a missing calibration the step is skipped and `save_data([])` raises AttributeError (337). `get_calib(None, …)` takes the newest dark of any exposure time.
* C198 (l2b_to_l3.py 94). A single frame whose EXPTIME is zero, such as a bias frame, ends the whole walk: `1/exposure_time` of a python float raises ZeroDivisionError.
* C200 (darks.py 473-479). The gain of a sub-stack is read from its first frame although frames are only grouped by commanded gain: if measured or applied gains differ within a sub-stack, clock induced charge and dark current are wrong by the ratio of mean gain and first gain, and depend on the order of the files.
* C201 (detector.py 453-464, l1_to_l2a.py 162). `l1_to_l2a_eng.json`, `l1_to_kgain.json`, `l1_to_l2a_nonlin.json`, `l1_to_l2a_tdd_vap_full.json` and `test.json` keep the full frame and search it in the default mode `image`, which takes the whole frame for the image area. Hits that start in the prescan or the overscans are then flagged too, and their streaks and squares flag pixels of the image area. With the default tail of 10 the continuation on the next row, for which mode `full` exists, cannot happen on a science frame.
* C202 (detector.py 453-459, 535-546). Whether the image area is cut out before the search or the full frame is searched makes no difference to the mask of the image area when its border is dark. A plateau that ends in the last column but one does make one: with odd `cosm_filter` (the default 1) the code invents a second start behind the plateau, which lies beyond the cut but within the bounds of mode `full`, whose end is one too large.
* C203 (photon_counting.py 299-301). Negative differences of light and dark are set to 0 in every bin. The expected value is then too large by the expected negative part, and a mean over many products keeps this bias: in a field without light it tends to half the mean deviation of the counts, not to 0.
* C204 (photon_counting.py 291-302). The floor of C193 is there for light frames too, and that of the dark is added in quadrature: the reported error of the product does not tend to 0 with the number of frames.
* C205 (combine.py 33-38). The mean, which the recipe templates use, has no protection against a wrong sample without a flag, and the error layer does not show it; the median withstands fewer than half. Medians of medians of groups withstand less than one median of all frames.
* C206 (combine.py 33-47). A combined pixel does not remember how many samples it was made from, so combining in two stages gives samples of groups with flagged frames too much weight. The factor sqrt(pi/2) of the median is applied in every stage.
* C207 (combine.py 93). `NUM_FR` is set to the number of frames of the last stage, so a frame combined in two stages claims to be made of as many frames as there were groups. The parents are complete. A median of medians withstands only about a quarter of wrong frames without a flag.
