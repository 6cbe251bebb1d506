# Formal model of pymcmcstat: design

Lean 4.33.0, Mathlib. Lake project in `lean/`, all modules under `lean/Verif/`.

## 1. How the code is modelled

* **Language mapping.** Every Python function that is modelled becomes one total Lean
  function of (nearly) the same name with the same branches. Python exceptions and
  `sys.exit` are values of `PyErr`, functions that may raise return `Except PyErr _`.
  `for` loops are folds (`List.foldlM` over the same index range); `while` loops with
  no static bound take a fuel argument and return the error `outOfFuel` when it runs out.
* **Numbers.** The sampler modules are generic over `[PyFloat F]`, a class of *operations
  without laws*. A theorem proved for every `F` holds for IEEE doubles with all rounding,
  infinities and NaN. Where a theorem needs arithmetic laws it is proved for `XR`
  (real numbers plus `-inf`, `+inf`, `nan` with the IEEE rules for special values, no
  rounding), or for an arbitrary linear ordered field where no special value can occur.
* **Arrays.** A length-`n` numpy vector is `Fin n → F`, an `n×n` array is
  `Fin n → Fin n → F`, a chain is a `List` of rows. Writing outside an array is an error value.
* **Aliasing.** numpy arrays are modelled by value, except where a property depends on two
  names for one array (S20/sigma2, the logger's array list, results['theta']): there the
  model has an explicit store or an explicit "alias" flag.
* **Random numbers** are an abstract generator: a state type with `randn` and `rand`
  returning a value and the next state. Theorems quantify over the generator.
* **User callbacks** (sum-of-squares, prior, model function) are arbitrary functions given
  as arguments. They are assumed deterministic and free of side effects on the arrays
  they receive.
* **LAPACK** (`cholesky`, `solve`) are function arguments; theorems that depend on their
  results carry a specification as an explicit hypothesis, and an instance satisfying the
  specification is exhibited.
* **Files.** A text log is a list of rows; an HDF5 file is a list of named data sets whose
  key listing is in byte-lexicographic order (h5py default). Number formatting is exact.

## 2. Layout

* `Verif/Model/*.lean`  : the model, one module per Python module. Each definition cites file and lines.
* `Verif/Spec/*.lean`   : small independent specifications (batch covariance, digit order, ...).
* `Verif/Lemmas/*.lean` : helper lemmas.
* `Verif/Props/*.lean`  : the property theorems `Cnn_*`, each followed by a non-vacuity `example`.

## 3. Plan per property

| id | what is modelled | how it is proved |
|----|------------------|------------------|
| C01 | `run_simulation` loop, Metropolis, DR, adaptation, generic floats | loop invariant |
| C02 | same | loop invariant on the written prefix of the chain |
| C03 | same, sos as pure function of the full vector | loop invariant linking the current set and the sos |
| C04 | same | loop invariant (counting) |
| C05 | same plus `add_dram` | loop invariant; first entry refuted (off by one: it includes the initial point), exact value proved |
| C06 | SOS object with in-place `value` vector | invariant over all evaluations |
| C07 | Metropolis step over XR | case analysis, log/exp monotonicity |
| C08 | acceptance probability and Gaussian kernel over ℝ | algebra |
| C09 | `alphafun` with all slices | strong induction on path length |
| C10 | `alphafun` over XR, out-of-bounds sets have ss = inf | induction, "good path" predicate |
| C11 | call counter of `alphafun` | induction, sum of powers of 3 |
| C12 | adaptation inside the loop | loop invariant + C13 |
| C13 | `update_covariance_mean_sum` | induction on segments, field algebra |
| C14 | counters in the loop | invariant; `lastadapt` clause refuted (never consulted) |
| C15 | `update_cov_from_covchain` and scaling | entrywise; "throughout the run" refuted because of the scale factor |
| C16 | `check_for_singular_cov_matrix` with a Cholesky specification | PSD + eps·I is PD |
| C17 | `update_delayed_rejection`, `__setup_RDR_matrix` | induction on stages |
| C18 | covariance state machine | refuted (burn-in sets the factors to None; am with ntry=2 never sets them); partial theorem for dr/dram without burn-in |
| C19 | `cholupdate` | induction on columns |
| C20 | `update_cov_via_ram` | PD for probabilities; refuted for the log ratio actually passed |
| C21 | `setup_covariance_matrix`, `__setup_R_matrix` over XR | case analysis |
| C22 | store with aliasing for sigma2/S20 | refuted for vector sigma2; partial otherwise, for every run of an object (`C22_every_run_partial`, `C22_every_run_unset_partial`) |
| C23 | gamma sampler with fuel | positivity through the loop; `C22_history`, `C23_history` carry the law of the draws and positivity to continued runs |
| C24 | the two accept tests | real analysis |
| C25 | `ModelSettings` size checks | case analysis |
| C26 | `_check_dependent_model_settings` | refuted: S20 is never used |
| C27 | object level: sequence of runs | refuted, partial for first run |
| C28 | continuation | invariant over a list of runs |
| C29 | log blocks | loop invariant |
| C30 | text log + reader | from C29 |
| C31 | HDF5 names, lexicographic order, reader's slices | refuted; partial when block starts have equal digit counts |
| C32 | logger's array list after expansion | refuted |
| C33 | restart from json | start point proved for distinct names; covariance refuted for general subsets |
| C34 | `DataStructure` | invariant over calls; list input and explicit n refuted |
| C35 | parallel initial values | interval arithmetic; acceptance clause refuted for infinite limits |
| C36 | folder name sorting | refuted for more than 10 chains; proved up to 10 |
| C37 | parallel setup | refuted |
| C38 | fork + pool schedule model | refuted for fork; proved for one worker |
| C39 | combination | induction on lists |
| C40 | interpolation on the sorted sample | order lemmas |
| C41 | limits conversion | from C40 |
| C42 | `calculate_intervals` | refuted; what it does instead proved |
| C43 | store with alias of results['theta'] | refuted; exact effect proved |
| C44 | s2chain analysis | case analysis |
| C45 | `_setup_sstype` | refuted |
| C46 | limit tables | refuted for the 90% band |
| C47 | `setup_subsample` | bound refuted; m ≤ count ≤ 2m-1 proved |
| C48 | `generate_subplot_grid` | integer square root |
| C49 | nested dictionaries | structural induction |
| C50 | dictionaries as association lists | induction |
| C51 | `calculate_psrf` | field algebra |
| C52 | autocorrelation window search, DFT identity | telescoping + DFT sum |
| C53 | window guard | both clauses refuted; disjointness for a+b ≤ 1 proved |
| C54 | batch index arithmetic | arithmetic |
| C55 | ellipse | algebra |
| C56 | `iqrange` | refuted |
| C57 | names | list lemmas |
| C58 | default prior over XR | sums |
| C59 | default sos | sums |
| C60 | sample indices | ceil lemmas |
| C61 | option tables | case analysis |
| C62 | progress bar text | string length arithmetic |
| C63 | whole run | refuted for nsimu=1; completion proved for mh/am family |
| C64 | whole run, every float type | invariant "fit to go on" through every loop step |
| C65 | whole run over XR with `ExactLapack` | invariant: finite rows, finite invertible factors |
| C66 | directory listing, json and log reading | list lemmas; refuted when the chains are in the json file |
| C67 | `chainstats` | index arithmetic; refuted below 40 rows |
| C68 | `geweke` with the spectrum at frequency zero | algebra; shift refuted |
| C69 | continued run over XR | invariant: rows used so far, as a list with repetitions; later adaptations refuted |
| C70 | set-up of a continued run, every float type; its completion in exact arithmetic (`_continues`) | invariant on the settings a run leaves; C65 for the completion; refuted without error-variance sampling |
| C71 | all histories, every float type | invariant: the prior centre stored in the table is the user's, or frozen to the user's initial value |
| C72 | all histories, all iterations, every float type; density ratio over ℝ | loop invariant over a ghost record of every move (`Lemmas/MoveRun`), combined with C71 and the continuation invariants |
| C73 | all objects and runs, every float type; thresholds over ℝ | loop invariant: the interval counter counts the rejections since the last adaptation |
| C74 | all histories, every float type; rates over ℝ | invariants of C04, C06; final covariance from the ghost record of adaptations; block assignment |
| C75 | fresh runs, chains embedded in an ordered set | counting different values along a list; C02, C04, C05 |
| C76 | exact arithmetic, all valid problems | set-up succeeds exactly if its parts fit (`setup_iff`), then C65 |
| C77 | every float type | `setup_iff`; error independent of the user functions expresses that they are not called |
| C78 | every float type (stages); exact arithmetic (acceptance probability) | recursive spec `Iteration`/`Stages`, invariant over the loop; `alphafun` equals the formula `drAlpha` by strong induction on the stage; C65 and C17 supply finite factors; `C78_continued` for any history, with C157 for the variance of the row |
| C79 | every float type | invariant that threads the generator state |
| C80 | exact arithmetic, all data sets and shapes | induction over samples and data sets; every sample refers to the row it came from; C40, C44 |
| C81 | parameter tables of any length | the slice assignment has one place too few, so only a single batch passes, which changes nothing; refuted for the other numbering |
| C82 | exact arithmetic, ideal generator | delayed rejection as an integral identity over paths (`drAlpha_balance`, change of variables for the Gaussian steps); `iteration_move` identifies an iteration of the code with the map `moveFrom`; measure preservation is iterated along the run |
| C83 | exact arithmetic, ideal generator | general rejection loop (`exists_retry`); Marsaglia-Tsang change of variables to Mathlib's `gammaMeasure` (`marsaglia_tsang`), root of a uniform number for shapes below one (`gamma_boost`); C24 removes the quick test; the loops of the model end almost surely with large enough fuel |
| C84 | exact arithmetic, ideal generator | an iteration is the map `moveStep` of C82 followed by `varianceStep` (C83); each keeps the joint density because this factors through its conditional (`jointDensity_values`, `jointDensity_variances`); `joint_loop` follows both chains through the run |
| C85 | exact arithmetic, ideal generator | all runs iterate one map (`fixed_rows`), whose first stage already gives every event at least `ε` times its posterior probability (`moveFrom_posterior_lower`, Doeblin's condition on the bounded limits); the geometric bound follows by induction (`Doeblin.converges`) |
| C86 | as C85 | covariances of rows decay geometrically (`Doeblin.correlation`), so the second moment of the averaged error is `O(1/k)`; Chebyshev (`Doeblin.average`) |
| C87 | exact arithmetic, ideal generator | Doeblin's condition after two iterations (`jointStep_lower`): the first draw of the variances lies in `[1,2]^m` with a density bounded below, then the values reach every set of positive volume, then the variances are drawn given the values (`joint_doeblin`) |
| C88 | as C87 | `Doeblin.average` with two iterations per round |
| C89 | drawing is a list of panels (place in the grid, data, texts); `scipy` density estimate is a parameter | the comprehensions are evaluated with `mapM`; grid places from C48, names from C57, rows from C47; for the pairs the double loop is counted |
| C90 | exact reals; `_partial`, refuted for 18 to 200 values | largest deviation `(n-1)/sqrt n` sample standard deviations (Cauchy-Schwarz); witness: one value 1 among zeros |
| C91 | exact reals; `_partial`, refuted for the order | Mathlib's Gaussian density; `C56` for the interquartile range |
| C92 | exact arithmetic in an ordered field; drawing is a list of bands and curves; `_partial`, refuted without error variances | quantile lemmas of C40 |
| C93 | as C92, for both types of intervals; `_partial`, refuted for increasing limits; same colours in three dimensions | the sorted list is the reversed one |
| C94 | the lists are part of the result of the modelled call; `_partial`, refuted | |
| C95 | as C92; proved for `plot_intervals`; `_partial`, refuted for `plot_3d_intervals` | |
| C96 | a directory is a list of files in any order; `_partial`, refuted for single columns, missing error variances and other json files | the written file is the one found (`choose_written`); the logs read back by C30, C31 |
| C97 | proved for the log and its text file; `_partial`, refuted for binary files with start numbers of different digit counts | loop invariant `CovLogInv`: one entry per finished block, each from the factor of the next iteration |
| C98 | files of a first run, in any order of completion, restart a second; `_partial`, refuted for parameters that are not sampled | the paths of different chains differ; then C33 and C02 |
| C99 | exact arithmetic, ideal generator, triangular Cholesky factor | the run follows `histAfter` (`adaptive_rows`): transition `factorMove` for the factor in force, next factor `nextFactor` of the history; both are measurable (`measurable_cholesky`: the factor is unique, Lusin-Souslin); each transition keeps the posterior by C82; the state after an iteration is independent of the history (`histAfter_law`) |
| C100 | any run with custom samplers; state, outputs and generator states per iteration as lists (`Protocol`) | `customStep_eq`: the iteration is the old one with the last outputs in the user's function, followed by the updates; invariant `CustomInv` |
| C101 | `_partial`, refuted: the sum of squares of the current point is never recomputed | same invariant (`IterOk`); witness `Toy.customRun` |
| C102 | the sampler's update `i` leaves rows before `i` alone | invariant `BlockInv` beside `LogInv` |
| C103 | equality of the two runs, errors included | `fold_quiet` |
| C104 | `_partial`, refuted: printing the settings raises for methods without delayed rejection | `verboseStep_sim`: the iteration with output is the iteration |
| C105 | `_partial`, refuted for the mark `(*)` | the table is printed before the loop; no other line is a table line |
| C106 | exact list of reports, any float type; percentages in exact arithmetic | invariant `ProgInv`: `iiprint` is the iteration modulo the interval; `RejInv` gives the counts from the trace |
| C107 | relation `Reported` between each adaptation and its lines | invariant `AdaptLinesInv` |
| C108 | the text read back by a reader of its own (`readNumber`), exact rationals | rounding half to even of integers; the decimal exponent by search over powers of ten |
| C109 | `_partial`, refuted for more names than columns | length of the list of names; C108 for every number |
| C110 | `_partial`, refuted for equal names and more names than columns | fold of assignments into an association list |
| C111 | `_partial`, refuted for fewer names than columns | the list of names returned along with the result |
| C112 | exact arithmetic, ideal generator | all runs iterate one map, which keeps the posterior and whose rows satisfy a local minorisation on a growing family of sets (`Core`, `moveFrom_local_lower`); from every start some row is absolutely continuous up to a small rest (`Spreads`), so the laws approach the posterior (`Harris.near` in `Lemmas/Forget.lean`: the variance of expected values under the stationary law decreases to zero) |
| C113 | as C112 | bounded functions: `Harris.average` (variance of the average under the posterior, then forgetting the start); integrable functions by truncation (`Harris.average_integrable` in `Lemmas/Means.lean`) |
| C114 | exact arithmetic, ideal generator | `jointStep_harris`: a move followed by a draw of the variances; sets of bounded values and variances exhaust the starts |
| C115 | as C114 | as C113 |
| C116 | as C112, C114 | averages of `x` and `x²` over the rows (`Harris.moments`), then the formulas of `chainstats` (`chainstats_moments` in `Lemmas/Estimates.lean`); the posterior variance is positive because hyperplanes are null (`hyperplane_withDensity`) |
| C117 | as C116, for any joint law of the generators | union bound over the chains, then `psrf_near`, `gelmanRubin_columns` |
| C118 | as C112, C114; the model gives one column at all values | fractions of rows below `y` approach the distribution function uniformly in `y` (`Harris.fractions`, a grid of quantiles), also after a burn-in (`Harris.window`); an empirical quantile lies between counted fractions (`quantile_counts`); `calculate_intervals` evaluates the first rows (C42) (`credible_rows`), `bands_cover` |
| C119 | exact arithmetic (ordered field); pyplot as a map from axes to drawn items | `paintBatches_ok` (axes and contents), `C80_credible`, `C80_prediction`, `C80_ordered` for the numbers of curves |
| C120 | as C112, C114; the draws after the run are ideal (`IdealDraws`), the model has a fixed shape at all values | the rows drawn at random are a two-stage sample: given the run they are independent with the empirical law of the rows, to which Chebyshev applies (`average_independent`), and the empirical law approaches the posterior (`Harris.windowFn`), both uniformly in the level (`quantile_events`, `Harris.resampled`); `intervals_values` says which values enter the curves |
| C121-C123 | a store of array objects (`Model/SharedArrays.lean`): identity, number type and entries; which function allocates, which passes on, which writes | frames by address; agreement of the checks and updates on the store with those on values (`shareDependent_agree`, `shareWrtNsos_agree`, `shareUpdate_agree`), so that every completed run of `runSimulation` is a run on the store (`run_shared`) |
| C124, C125 | flags of the copied options and of the user's object (`objAfterSetup`), export of C32 | case analysis on the flags; C125 `_partial`, refuted |
| C126 | every float type; `ByHand` says by names which values the user would write | `resultsToParams` sets the value found at the last index of each saved name (`resultsToParams_byHand`); the rest of a run does not read the option |
| C127 | as C112-C115 for the restarted run, as C65 for the first | invariants of the first run (`exact_run_ends`: last row within the limits, `qcov` positive definite); C126; `restart_point`; priors without a centre stay centred at the initial value of the script (`centredAt`) |
| C128 | injective `parind`, at least one row used, a model of fixed shape, variances that fit (`VarianceOf`); `1*x = x` | loop invariants `propLoop_one`, `propLoop_several`; `observationSampleOut` follows numpy's broadcasting |
| C129 | as C112, C114; the draws are ideal (`IdealDraws`); responses not negative for `sstype` 1 | C128 with finite numbers (`returned_rows`), the variances stay positive (`keeps_iterate`), `Harris.resampled` with all rows (`Harris.bands`) |
| C130 | several points | `C130_refused_partial` (several quantities), `C130_single_partial` (one); false with as many columns as points (`C130_refuted`, `C130_points_refuted`) and for a quantity returned as a column (`C130_column_refuted`) |
| C131 | as C84 and C99 together | invariant of the loop (`AdaptAt`): the run follows `histAfter` with the transition `varianceStep` after `factorStep`; the loops of the gamma draws end with probability one in each of the countably many iterations (`histAfter_ae`); invariance by `factorStep_invariant` and `varianceStep_invariant` |
| C132 | limits finite, rows finite (C65 gives this), no prior weight; for the proposal also all parameters adapted, positive `qcov_adjust`, exact Cholesky | C12 for the moments, C01 for the range of the rows; the further rows add to the scatter the products of their deviations from the new mean and from the old mean (`scatter_append`), which gives the rate; the scatter only grows, so definiteness stays (`sampleCovM_posDef_append`) |
| C133 | problem of C99 with at most two stages (`ntry <= 2`), finite limits, bounded posterior density, all sampled parameters adapted, `adaptint > 0` | rows of the run are a process of moves with factors computed from the history (C99); one move with a factor close to another changes the law little (overlap of the proposals; the acceptance probability of the second stage depends on the factor through a ratio of proposal densities whose logarithm moves little, `KernelClose`, `KernelClose2`; a third stage has no such bound); factors settle while the covariance stays above `c` (C132's estimate, `SettledFactor`); a window of K steps with a frozen factor converges by a Doeblin condition uniform over the factors with determinant and size within bounds; that the covariance does not collapse is not proved (the code does not bound it below), so its probability stands in the bound |
| C134 | setting of C133; functions bounded within the limits | C133 in the form for weights decided `K` rows earlier (`process_weighted`) bounds the correlation of rows that are `K` apart; second moment of the sum (`sum_second_moment`) and Chebyshev (`average_of_moment`); the bound contains the average probability of a collapse of the sample covariance, which the code does not exclude |
| C135 | the user's covariance is an array of integers | block assignment of C74 followed by conversion towards zero; refuted by an adaptive run of three parameters, and by the set-up of every later run given the converted covariance |
| C136 | list without zeros or array of floats | the typed loops agree with those of the other properties; refuted for every array of integers |
| C137 | name given as a string that is not empty | direct; refuted for the default name and the empty string |
| C138 | entries of the directory with `log` in their names are text files | lines of the blocks of C29; printing is a map over the listed files; refuted for a binary file with `log` in its name |
| C139 | problem of C131 with at most two stages, finite limits, sum of squares and prior bounded within the limits, all sampled parameters adapted, `adaptint > 0` | the abstract process theorem behind C133 (`settled_process`) for the move followed by the draw of the variances (`jointMove`): closeness of two moves and the lower bound hold uniformly over the variances (`factorMove_near_all`, `factorMove_minor_all`), two moves forget the first variances (`jointMove_doeblin`), the joint posterior is invariant (C84's argument); the probability of a collapse stands in the bound as in C133 |
| C140 | setting of C139; functions bounded for values within the limits and positive variances | as C134 (`moment_of_weighted`, `average_of_moment`); the variances are positive almost surely |
| C141 | setting of C133, C139 | C134, C140 for the values and their squares, which are bounded within finite limits (`adaptive_moments`, `moments_outside`), then as C116 |
| C142 | setting of C133, C139, for any joint law of the generators | union bound over the chains, then as C117 |
| C143 | `_partial`, refuted: the display raises before a run and without delayed rejection or adaptation, and shows the initial covariance | `ShowInv`: what adaptations do to the displayed attributes |
| C144 | proved; closed formulas for every entry | `map_eq_flatten`: batches of the chain of real rows |
| C145 | `_partial`, refuted for prior functions that return numbers | none |
| C146 | proved | `ofList_merged`: one level of `check_settings` |
| C147 | `_partial`, refuted for equal names | C110 |
| C148 | proved; initial values not NaN | C71, C74 |
| C149 | exact arithmetic, all valid problems (C76) without `initqcovn`; all sampled parameters adapted, positive `qcov_adjust` | C65 and C76 give the finite rows which C12, C16 and C132 assume; C14 the schedule |
| C150 | partial: stage percentages shown need not add up (`C150_sum_refuted`: 33.33 + 33.33 and 66.67; off by at most 0.005 per number shown), results loaded from a file raise (`C150_loaded_refuted`); quotients exact, formatting as in C108 | `Model/AcceptanceText.lean`; C75, reader of `Spec/NumberText.lean` |
| C151 | partial: the returned numbers do not account for the whole energy, the highest frequency is missing (`C151_power_refuted`; `C151_power_partial` states exactly what is missing, for windows not longer than the transform); exact reals, `scipy.fftpack.fft` as the discrete Fourier transform | `Model/Spectrum.lean`; orthogonality of cosines of C52, Cauchy-Schwarz |
| C152 | setting of C133, C139; the model gives one column at all values | C134, C140 for the indicators of a grid of quantiles, over the rows after the burn-in and outside one measurable set (`adaptive_windows`), then as C118 |
| C153 | setting of C133, C139; the draws are ideal (`IdealDraws`); responses not negative for `sstype` 1 in `calculate_intervals` | the mean over the observation error given a row is again a function of the row with values in [0, 1] (`drawMean`), C134, C140 apply to it; given the run the drawn values are independent (`rows_resampled`); then as C120, C129 |
| C154 | none | the object as a state machine over all sequences of calls; `C154_run` ties it to the model of a run (C05, C74, C148) |
| C155 | any history; one try per iteration, initial values not NaN; for the covariance the setting of C20 | one loop invariant ties each adaptation to the draws and the proposal of its iteration |
| C156 | `_partial` for iterations that end with their first proposal; refuted for iterations without an accepted proposal | loop invariant over the acceptance values stored with the current points |
| C157 | any history, any float type in which `1 * x = x` (true of IEEE numbers, `XR`, ℝ and ℚ; the code multiplies a single variance by `np.ones`) | object invariant: after every run the settings hold the last row of the error-variance chain |
| C158 | refusal and agreement: any object and float type; numbers used: exact comparison (`==` only for equal numbers) and `1 * x = x`; `_partial`, refuted for one sum of squares with several numbers for one data set | case analysis of the three branches of `_check_number_of_observations`, traced through the set-up |
| C159 | none for order, values and default names; distinct names `_partial`: the names given are distinct and none has the form `$p_{k}$`, refuted without that | induction over the calls (the table is a prefix of every later one); decimal numerals are injective |

## 4. Trusted base

* The Lean kernel. Every property theorem depends on at most the axioms `propext`,
  `Classical.choice` and `Quot.sound`; section 8 says how this is checked. No own axioms, no
  `sorry`, no compiler-trusting tactics.
* The hand translation from Python to Lean. Each definition cites the file and the lines it renders.
* The modelling assumptions of section 1 and the following ones.

| assumption | where it matters |
|---|---|
| Floats obey no law (`PyFloat`): theorems hold for every implementation of the operations | C01-C06, C09, C11, C14, C17 (shape), C18, C22, C25-C39, C61, C63, C64, C70-C75, C77-C79, C96-C98, C100-C107, C109-C111, C121-C126 |
| Exact arithmetic with IEEE rules for `inf`, `nan` (`XR`); no rounding | C07, C08, C10, C12, C13, C15, C16, C19-C21, C23, C24, C58, C59, C65, C51, C53, C54, C67-C69, C70 (`_continues`), C76, C78 (`_exact`), C82-C88, C99, C106 (`_exact`), C112-C118, C120, C127, C129, C131-C134, C139-C142, C149, C152, C153 |
| The random generator is ideal (`IdealRng`: independent standard normal and uniform draws); such a generator exists (`coinIdeal`) | C82-C88, C99, C112-C118, C120, C127, C129, C131, C133, C134, C139-C142, C152, C153 |
| The draws of `generate_prediction_intervals` are independent: uniform row numbers and standard normal errors (`IdealDraws`, an instance is `idealDraws`); those of `calculate_intervals` likewise | C120, C129, C153 |
| Exact arithmetic in an ordered field | C40, C41, C46, C47, C55-C57, C60, C62, C89, C92-C95, C108, C80 (square root and exponential are arbitrary functions) |
| Exact arithmetic in the reals; `np.fft.fft` is the discrete Fourier sum | C52 |
| Exact arithmetic in the reals with their square root, powers and exponential function | C90, C91 |
| matplotlib draws what it is told to, and refuses `plot` with arguments of different lengths and subplot numbers outside the grid; `KDEMultivariate` is a function of the column | C89, C92-C95 |
| `numpy.linalg.cholesky`, `solve`, `inv` return exact results or report failure exactly when the matrix is not positive definite or singular (`ExactLapack`, an instance is constructed) | C16, C17 (values), C21, C65, C76, C82, C84-C88, C99, C112-C118, C120, C127, C129, C131, C132 (`_proposal_settles`), C133, C134, C139-C142, C149, C152, C153 |
| `numpy.linalg.cholesky` returns the lower triangular factor with positive diagonal (`TriangularFactor`, an instance is constructed) | C99, C131, C133, C134, C139-C142, C152, C153 |
| `scipy.interpolate.interp1d` is piecewise linear interpolation with `bounds_error` | C40, C41, C80 |
| h5py lists data sets in byte order of their names | C31, C96, C97 |
| `np.savetxt`/`np.loadtxt` reproduce the numbers exactly | C30, C32, C96, C97 |
| json and pickle reproduce the saved entries exactly; `out['chain'] == []` is false for an array (numpy before 1.25; later versions raise if the shapes differ) | C33, C66, C96, C98 |
| The methods of a custom sampler do not write to the parameter set they are given | C100-C103 |
| A forked worker starts with a copy of the parent's generator state | C38 |
| User functions return the same value for the same arguments and do not keep or change their arguments | all run-level theorems |
| `int()` of a float in an array of integers is a parameter (`toInt`); it may raise | C121-C123 |
| The rejection loops of the gamma generator are cut off after `fuel` rounds (`outOfFuel`) | C22, C23, C64, C65, C83, C84, C87, C88, C114-C118, C120, C127, C129, C152, C153 (almost every run needs finitely many rounds) |

## 5. What is modelled

| Python file | modelled | not modelled |
|---|---|---|
| `MCMC.py` | `run_simulation`, `__setup_simulator`, `_initialize_simulation`, `__initialize_chains`, `__expand_chains`, `__execute_simulator`, `__generate_simulation_results` (entries listed in `Results`), `__save_to_log_file`, `__save_chains`, `__save_covmtx_chain`, `__update_chain`, `__update_rejected`, and what is printed during a run (`Model/Console.lean`) | timing, lines printed by a run that raises |
| `samplers/Metropolis.py`, `DelayedRejection.py`, `utilities.py` | all; the unused `calculate_posterior_ratio` and `acceptance_test` in `Model/OldAccept.lean` | |
| `samplers/Adaptation.py` | all | the argument `oldR` of `update_covariance_mean_sum` (never passed); its code `setup_cholupdate`, `cholupdate` is modelled on its own |
| `procedures/CovarianceProcedures.py` | all; the values displayed (`Model/ShowSettings.lean`) | how numpy writes arrays |
| `procedures/ErrorVarianceEstimator.py` | all (one deviate at a time) | |
| `procedures/PriorFunction.py`, `SumOfSquares.py` | all | arrays of more than two axes |
| `settings/*.py` | options, dependent checks, data sets, model settings (with array objects: `Model/SharedArrays.lean`), parameter structure, limits, prior set-up, restart, the values displayed (`Model/ShowSettings.lean`) | how numpy writes arrays, entries with no effect on the run (`label`, `stats`, ...) |
| `structures/ResultsStructure.py` | everything: `add_basic`, `add_dram`, chains, `lighten_results`, `export_lightly`, file name, exporting (`Model/Storage.lean`), `add_prior`, `add_options`, `add_model` (`Model/ResultEntries.lean`), the object with all its `add_*` methods (`Model/ResultsDict.lean`) | the values of `simutime`, `local`, `original_covariance`; values of options that only name files or set the display |
| `chain/ChainProcessing.py` | log writing and reading, parallel directories, combining, loading one run (`Model/Storage.lean`), index files and `print_log_files` (`Model/IndexLog.lean`) | |
| `chain/ChainStatistics.py` | `chainstats`, batch means, Geweke (spectrum at frequency zero), the power spectral density at all frequencies (`Model/Spectrum.lean`, over the reals), autocorrelation time, Gelman-Rubin, `print_chain_acceptance_info` (numbers in `Model/Report.lean`, text in `Model/AcceptanceText.lean`), the table of statistics, names, dictionary and printed lines of `gelman_rubin` (`Model/Displays.lean`) | rounding of the transform |
| `ParallelMCMC.py` | set-up, initial values, pool, number of cores, restart files, loading | display |
| `propagation.py` | sampling of rows, model evaluation, error variances, observations (`Model/PropObs.lean`), quantiles, limits, `plot_intervals` and `plot_3d_intervals` up to the drawing calls (`Model/IntervalPlots.lean`), display settings (`Model/Displays.lean`) | legends, axis labels |
| `plotting/PredictionIntervals.py` | preparation and generation of all intervals (shapes, local parameters, error-variance ranges, limits, observation errors, quantiles), bands, labels, sstype, `plot_prediction_intervals` up to the drawing calls (`Model/PredictionPlots.lean`) | figure sizes, legends, axis labels; `results['model_settings']` as an object instead of a dictionary |
| `plotting/MCMCPlotting.py` | chain, histogram, density and pairwise panels up to the drawing calls (`Model/Panels.lean`), `plot_chain_metrics` (`Model/ChainMetrics.lean`) | figure sizes, `Plot` (plain forwarding), layout |
| `plotting/utilities.py`, `utilities/general.py`, `utilities/progressbar.py` | see `Model/PlotUtils.lean`, `Model/Panels.lean`, `Model/NumberText.lean` | drawing, console |

Ghost state (recorded by the model for stating properties, never read by it): `trace` (tries of every
iteration), `moveLog` (what every iteration works from), `adaptedAt`, `adaptLog`, `sigmaLog`, `World.calls`, `PropState.evals`.

## 6. Simplifications

* `np.linalg.norm(v)**2` is the sum of squares (no intermediate root).
* `x**2` is `x * x`, `x**(-1)` is `1 / x`.
* The order of summation of numpy reductions is left to right.
* Integer division and `int(...)` of float quotients in the statistics, plotting and parallel
  modules are exact.
* `nbatch` is the number of data sets unless given; local parameters are modelled only as far as they
  can make the set-up fail.
* All arrays of numbers have floats, and the settings are values; only `sigma2` and `S20` may be one
  array. C121-C123 use a second model of the settings with array objects and integer arrays
  (`Model/SharedArrays.lean`); `run_shared` proves that both agree unless `sigma2` is an array of two
  or more integers or is passed as `N` or `N0` too. For those the theorems on values say nothing.
* `MCMC.py:210` gives the first parameter set the array `sigma2` before it is spread over the sums of
  squares; the model gives it the spread array (`1 * x` is `x` for floats).
* Custom samplers are modelled in a loop of their own (`Model/Custom.lean`); the runs of all other
  properties have none. There the user's function is assumed to treat `custom=None` (first
  evaluation) and `custom=[]` (in the loop) alike; C103 relates the two.
* Text formatting is modelled for the decimal digits that matter (data set names, folder names,
  default names, progress bar) and for `format_number_to_str`, where the exact value of a float is
  taken as given (`PyNum`) and formatting with `%` and `format` is exact rounding half to even.

## 7. Defects and disagreements found

Each item is a theorem with a concrete witness (or a universally quantified failure) in `Props/`.

| property | defect |
|---|---|
| C05 | the reported acceptances of the first try include the initial point |
| C13 | the weighted covariance recursion disagrees with the batch formula if the first weights sum to at most one |
| C14 | `lastadapt` is never consulted |
| C15 | the variance of a parameter marked as not adapting is rescaled at every adaptation |
| C18 | an adaptation inside the burn-in sets the delayed-rejection factors to `None`; `am` with `ntry=2` never sets them; both fail later with an exception |
| C20 | the RAM update receives the log ratio instead of a probability; the matrix can become indefinite |
| C22 | `S20` aliases `sigma2` when not given, so the prior scale follows the samples |
| C23 | a uniform draw of exactly zero gives an infinite error variance |
| C25 | no data set: `IndexError` during error-variance sampling |
| C26 | `S20` given without `sigma2` is never used (a method is tested instead of called) |
| C27 | every run after the first samples the error variance, because `N0` was filled in by the first |
| C28 | parameters with equal names all start a continued run at the last value of the last of them (`C28_distinct_names_needed`) |
| C31 | HDF5 logs are read in byte order: blocks come back permuted once the digit counts differ |
| C32 | the log files of a continuation repeat rows of the first run, its own rows are never written; a binary log fails |
| C33 | the restart indexes the saved covariance with the full parameter indices |
| C34 | `n` given explicitly is not stored; a Python list counts as one observation |
| C35 | infinite limits are replaced by multiples of the start value and then refuse valid values |
| C36 | folder `chain_10` is read before `chain_2` |
| C37 | fixed parameters get random values in parallel runs |
| C38 | forked workers share the random number stream |
| C39 | combining no chain fails; the burn-in is counted from `nsimu` of the last run only |
| C42 | propagation uses row `kk` of the chain instead of the drawn row |
| C43 | propagation changes `results['theta']` of the caller |
| C45 | a user-defined `sstype` is replaced by 0 |
| C46 | the 90% credible band reaches from 5% to 90% |
| C47 | the subsample exceeds `maxpoints` |
| C53 | the Geweke guard accepts overlapping windows and refuses two halves |
| C55 | slightly asymmetric matrices are accepted |
| C56 | the interquartile range depends on the order of the sample and fails for 2 to 7 values |
| C59 | the default sum of squares fails for several columns and for flat predictions |
| C62 | the progress bar counts one too far and changes its width |
| C63 | a run of length one fails after the loop |
| C66 | loading a parallel run whose chains are in the json files fails |
| C67 | chain statistics fail below 40 rows |
| C68 | the Geweke diagnostic depends on the origin of the parameter |
| C69 | a continued run adds the rows of the earlier runs again at every adaptation after its first (`lastIndex` counts from the start of the run, the chain from the start of the object) |
| C74 | `total_rejected` is not the fraction of rejected moves: `nsimu - 1` moves are made, the count is divided by `nsimu` (`C74_fraction_refuted`) |
| C75 | the two net counts differ even for the whole chain (`C75_net_counts_refuted`); after a continued run the one from the results is about the last run only (`C75_continued_refuted`); with results loaded from a file the function raises `AttributeError`, since `iacce` is then a list (`C75_loaded_refuted`) |
| C77 | an initial value NaN passes the checks of the limits; the run returns with NaN in the chain (`C77_nan_refuted`) |
| C81 | local parameters are not passed to their data sets: the marks stored by a run are all 0; with the marks of `scan_for_local_variables` (from 1) `set_local_parameters` (from 0) selects the wrong ones (`C81_numbering_refuted`) |
| C70 | a run without error-variance sampling cannot be continued: it fills in `N0`, which switches the sampling on, and the missing variance chain raises `ValueError` |
| C90 | the grid of a density plot does not reach all values: for 18 to 200 values an outlier lies beyond it (`C90_outlier_refuted`), for one value it is NaN (`C90_single_refuted`) |
| C91 | the bandwidth depends on the order of the values (`C91_order_refuted`) |
| C92 | `plot_intervals` with its defaults raises `AttributeError` for intervals computed without error variances (`C92_no_variance_refuted`) |
| C93 | user colours are matched with the limits after sorting: for increasing limits in the opposite order (`C93_order_refuted`) |
| C94 | a short list of names is extended and a list of limits is sorted in the caller's hands (`C94_names_refuted`, `C94_limits_refuted`) |
| C95 | `plot_3d_intervals` raises for observations at other positions than the times unless they are equally many (`C95_space_refuted`), and for `adddata=True` without observations (`C95_space_none_refuted`) |
| C96 | loaded from text logs a single column is one-dimensional (`C96_shape_refuted`) and a missing error-variance chain is an empty list (`C96_variance_refuted`); the name of the json file passed by the caller is ignored if another json file is listed first (`C96_other_file_refuted`) |
| C97 | binary covariance logs come back in another order once the digit counts of the block starts differ (`C97_binary_refuted`) |
| C98 | every chain of a parallel run draws its own value for parameters that are not sampled, and a restart does not restore it: the continuation samples with another value (`C98_fixed_refuted`) |
| C101 | the sum of squares of the current point is not recomputed when a custom sampler returns a new output (and the initial one is computed with `custom=None`, before the samplers are set up): proposals computed with the new output are compared with a value computed with an old one, so the acceptance ratio is not the ratio of the posterior densities for either output (`C101_stale_refuted`) |
| C104 | with verbosity 2 or more the first run with method `mh`, `am` or `ram` raises `AttributeError`: the settings display reads `_RDR`, which is only set for `dr` and `dram` (`C104_fails`, `C104_refuted`) |
| C105 | the mark `(*)` of parameters not adapted is never printed: the flag is a numpy truth value and is compared with `is True` (`C105_mark_refuted`) |
| C109 | `chainstats` raises `IndexError` after computing everything if the results have more names than the chain has columns, as for some columns of a chain (`C109_subset_refuted`) |
| C110 | diagnostics of parameters with equal names overwrite each other (`C110_equal_refuted`); more names than columns raise `IndexError` (`C110_subset_refuted`) |
| C111 | default names are appended to the list in the caller's results (`C111_names_refuted`) |
| C119 | figures are named by batch and column only, so a second plot is drawn over the first (`C119_second_refuted`); with observations, a model with more output columns than observed ones raises `IndexError` (`C119_unobserved_refuted`) |
| C120 | the band labelled 90 % is drawn between the levels 5 % and 90 % and contains 85 % of the posterior probability (`C120_ninety_refuted`) |
| C121 | an array passed as `sigma2` with two or more entries is kept without a copy and overwritten by the draws (`C121_overwritten`, `C121_refuted`) |
| C122 | with `sigma2=[1, 1]` the array has integers and every draw is cut to an integer, below one to zero (`C122_integers`, `C122_refuted`, `C122_zero`) |
| C123 | the results of two runs share the array of `sigma2`, so the earlier results change (`C123_overwritten`, `C123_refuted`) |
| C125 | `check_options_output` sets `save_to_bin` in the options of the user's own object, which are not copied before (`C125_refuted`) |
| C130 | a chain of error variances with as many columns as points is taken as one variance per point (`C130_refuted`, `C130_points_refuted`); for a single quantity returned as a column of r points, k columns of variances give r·k observations (`C130_column_refuted`) |
| C135 | with a covariance given as an array of integers, `results['qcovorig']` holds the final covariance cut to integers; below one in size it becomes zero and a later run given it stops in the set-up (`C135_integers_refuted`, `C135_restart_refuted`) |
| C136 | `drscale` given as an array of integers raises `ValueError` (`C136_integers_refuted`) |
| C137 | `plot_chain_metrics` without a name shows `['$p_{0}$']` in title and labels; the empty name raises `AttributeError` (`C137_default_refuted`, `C137_empty_refuted`) |
| C138 | `print_log_files` opens every file with `log` in its name as text and raises for a binary chain file with such a name (`C138_binary_refuted`) |
| C143 | `display_current_mcmc_settings` raises `AttributeError` before a run (`nsos`) and after a first run with `mh`, `am` or `ram` without adaptation (`_RDR`); the displayed `qcov` stays the initial one after adaptations (`C143_before`, `C143_fails`, `C143_qcov_refuted`) |
| C145 | `calculate_posterior_ratio` raises `TypeError` if the prior function returns numbers (`C145_number_refuted`); the package does not call it |
| C147 | of two parameters with the same name only the last is printed by `gelman_rubin` (`C147_equal_refuted`) |
| C150 | the percentages printed for the stages need not add up to the net one printed (`C150_sum_refuted`); for results loaded from a file the stages are printed and then `AttributeError` is raised (`C150_loaded_refuted`) |
| C151 | `power_spectral_density_using_hanning_window` leaves out the highest frequency: a column alternating between 1 and -1 has spectrum `[0]` (`C151_power_refuted`); its branch for windows longer than the column assigns to an index that does not exist, so padding never happens (`C151_values`) |
| C156 | with `doram` and delayed rejection, an adaptation in an iteration without an accepted proposal is given the acceptance value with which the current point was accepted earlier (`C156_stale_refuted`); before the first acceptance there is none and the run raises `TypeError` (`C156_needs_acceptance`, `C156_raises_refuted`) |
| C158 | with one data set of k observations, `N=[k, k]` and a sum-of-squares function that returns one value, the run uses 2k observations (`C158_repeated_refuted`) |
| C159 | a parameter named `$p_{1}$` by the user and the next one added without a name have the same name; nothing is raised (`C159_collision_refuted`) |
| C22 | one array passed as `sigma2` and as `S20` makes the given prior follow the samples (`C22_same_array`) |

A property that is false of the code stays in `properties.jsonl` as a user would state it, with a
theorem `Cnn_*_refuted` and the strongest true version found, `Cnn_*_partial`.

## 8. Checks

* `lake build` in `lean/`.
* `#print axioms` on every theorem named in `MANIFEST.json`: only `propext`, `Classical.choice`,
  `Quot.sound` occur.
* `seeded/LOG.jsonl`: results of editing the model like a bug and rebuilding. A property theorem
  counts as failed if its proof, with every broken lemma replaced by an assumption, depends on a
  broken lemma. For edits of the display, plotting and reporting functions (ids `PZ`, `UA`-`UL`, `AT`,
  `PS`) only the property files of these functions were rebuilt, and every theorem that uses a failed
  one counts as failed: there the list may contain theorems whose claim still holds, and the theorem
  that contradicts the edit is among those that name the claim. `theorems_tightened` names theorems
  that were added or strengthened because the edit had not been noticed.
