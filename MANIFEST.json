{
 "claims": [
  {
   "property": "C01",
   "status": "proved",
   "theorems": [
    "Verif.C01_rows_within_limits"
   ],
   "note": "All objects reachable by any history of option changes, fresh and continued runs; every float type."
  },
  {
   "property": "C02",
   "status": "proved",
   "theorems": [
    "Verif.C02_chain_records_moves"
   ],
   "note": "All completed fresh runs, all methods."
  },
  {
   "property": "C03",
   "status": "proved",
   "theorems": [
    "Verif.C03_sums_of_squares_belong_to_rows"
   ],
   "note": "All reachable objects and completed runs."
  },
  {
   "property": "C04",
   "status": "proved",
   "theorems": [
    "Verif.C04_rejection_counts"
   ],
   "note": "All counts are exact: total, outside (last proposal outside), current adaptation interval."
  },
  {
   "property": "C05",
   "status": "partial",
   "theorems": [
    "Verif.C05_stage_counts_partial",
    "Verif.C05_first_entry_refuted"
   ],
   "note": "Stages 2..ntry counted exactly. The first entry counts the initial point as an acceptance: C05_first_entry_refuted."
  },
  {
   "property": "C06",
   "status": "proved",
   "theorems": [
    "Verif.C06_fixed_parameters"
   ],
   "note": "All completed runs; every sum-of-squares call."
  },
  {
   "property": "C07",
   "status": "proved",
   "theorems": [
    "Verif.C07_proposal",
    "Verif.C07_accept_iff",
    "Verif.C07_uphill"
   ],
   "note": "Over the reals extended by nan and infinities (exact arithmetic); all proposals inside or outside the limits."
  },
  {
   "property": "C08",
   "status": "proved",
   "theorems": [
    "Verif.C08_detailed_balance"
   ],
   "note": "Acceptance probability is the Lebesgue measure of the uniform draws that accept; exact real arithmetic."
  },
  {
   "property": "C09",
   "status": "proved",
   "theorems": [
    "Verif.C09_detailed_balance"
   ],
   "note": "All numbers of stages and all paths, intermediate points may lie outside; exact real arithmetic."
  },
  {
   "property": "C10",
   "status": "proved",
   "theorems": [
    "Verif.C10_alpha_well_defined",
    "Verif.C10_delayed_rejection_step"
   ],
   "note": "Path level for every depth, and for every delayed-rejection step that follows a rejected Metropolis step. Absence of division by zero is stated as independence from the value of x/0."
  },
  {
   "property": "C11",
   "status": "proved",
   "theorems": [
    "Verif.C11_cost_bound",
    "Verif.C11_alpha_count",
    "Verif.C11_exact_cost",
    "Verif.C11_second_stage",
    "Verif.C11_third_stage"
   ],
   "note": "Bound for every float type; exact counts over the extended reals; run-level bounds for the reported alpha_count."
  },
  {
   "property": "C12",
   "status": "proved",
   "theorems": [
    "Verif.C12_adapted_moments"
   ],
   "note": "All runs from scratch without initqcovn, all adaptation intervals; exact real arithmetic; chain rows finite."
  },
  {
   "property": "C13",
   "status": "proved",
   "theorems": [
    "Verif.C13_first_update",
    "Verif.C13_later_update",
    "Verif.C13_cut_later",
    "Verif.C13_cut_first",
    "Verif.C13_small_weights_refuted"
   ],
   "note": "All segments; for first-segment weights summing to at most one the identity fails (C13_small_weights_refuted)."
  },
  {
   "property": "C14",
   "status": "partial",
   "theorems": [
    "Verif.C14_adaptation_schedule_partial",
    "Verif.C14_mh_dr_never_adapt",
    "Verif.C14_lastadapt_refuted",
    "Verif.C14_lastadapt_refuted_general"
   ],
   "note": "Schedule, never for mh/dr and never for adaptint<=0 proved. lastadapt is not consulted by the code: C14_lastadapt_refuted."
  },
  {
   "property": "C15",
   "status": "partial",
   "theorems": [
    "Verif.C15_fixed_entries_partial",
    "Verif.C15_unscaled_refuted"
   ],
   "note": "Holds up to the factor adascale^2: the entries of non-adapted parameters are s^2 times the initial ones, the rest s^2 times the sample covariance, the matrix symmetric (post-burn-in, no adjustment needed, exact arithmetic). C15_unscaled_refuted shows that with the default scale the variance of an excluded parameter always differs from its initial one."
  },
  {
   "property": "C16",
   "status": "proved",
   "theorems": [
    "Verif.C16_adaptation_succeeds",
    "Verif.C16_failure_keeps"
   ],
   "note": "Exact-arithmetic LAPACK (ExactLapack), completed run from scratch, covariance taken from the chain (not RAM), initqcovn not set, adaptations after the burn-in."
  },
  {
   "property": "C17",
   "status": "proved",
   "theorems": [
    "Verif.C17_start",
    "Verif.C17_adapted",
    "Verif.C17_run"
   ],
   "note": "Exact-arithmetic LAPACK; C17_start for the initial factors (no user-supplied RDR), C17_adapted for every adaptation past the burn-in, C17_run without assumptions on the adapted factors. During the burn-in the stage factors are dropped (C18_burnin_refuted)."
  },
  {
   "property": "C18",
   "status": "partial",
   "theorems": [
    "Verif.C18_factors_present_partial",
    "Verif.C18_burnin_refuted",
    "Verif.C18_method_refuted"
   ],
   "note": "Factors present at every adaptation for runs without burn-in adaptation, method dr/dram. False with burn-in (C18_burnin_refuted) and for method am with ntry=2 (C18_method_refuted)."
  },
  {
   "property": "C19",
   "status": "proved",
   "theorems": [
    "Verif.C19_rank_one_update",
    "Verif.C19_tracks_covariance"
   ],
   "note": "exact real arithmetic; the triangular factor is the one the update code maintains, for every direction vector, n and positive diagonal"
  },
  {
   "property": "C20",
   "status": "partial",
   "theorems": [
    "Verif.C20_ram_partial",
    "Verif.C20_growth_refuted",
    "Verif.C20_definite_refuted"
   ],
   "note": "proved whenever the value passed for the acceptance probability is non-negative; refuted in general because the code passes the logarithm of the ratio (C20_growth_refuted, C20_definite_refuted)"
  },
  {
   "property": "C21",
   "status": "proved",
   "theorems": [
    "Verif.C21_default_variance",
    "Verif.C21_default_factor",
    "Verif.C21_given_covariance"
   ],
   "note": "Exact-arithmetic LAPACK; default variances for every extended-real prior deviation and finite initial value; the factor for the default and for a given covariance matrix."
  },
  {
   "property": "C22",
   "status": "partial",
   "theorems": [
    "Verif.C22_prior_fixed_partial",
    "Verif.C22_unset_single_partial",
    "Verif.C22_alias",
    "Verif.C22_alias_refuted",
    "Verif.C22_every_run_partial",
    "Verif.C22_every_run_unset_partial",
    "Verif.C22_same_array",
    "Verif.C22_history"
   ],
   "note": "proved for every run whose S20 was given, and for an unset S20 with a single initial variance; in both cases the prior is the user's in every run of an object, continued ones included (C22_every_run_partial, C22_every_run_unset_partial); refuted otherwise: S20 is the same array as sigma2 and is overwritten by the draws (C22_alias, C22_alias_refuted), also when the user passes one array for both (C22_same_array); integer arrays: see C122"
  },
  {
   "property": "C23",
   "status": "proved",
   "theorems": [
    "Verif.C23_positive",
    "Verif.C23_zero_draw_refuted",
    "Verif.C23_history"
   ],
   "note": "exact real arithmetic with uniform draws in the open unit interval; runs from scratch (C23_positive) and continued ones (C23_history); C23_zero_draw_refuted shows the infinite variance when a uniform draw is exactly zero"
  },
  {
   "property": "C24",
   "status": "proved",
   "theorems": [
    "Verif.C24_generator",
    "Verif.C24_quick_implies_exact"
   ],
   "note": "exact real arithmetic, every shape a >= 1, every x passing the first loop, every u in (0,1)"
  },
  {
   "property": "C25",
   "status": "partial",
   "theorems": [
    "Verif.C25_sizes_partial",
    "Verif.C25_refused",
    "Verif.C25_no_data_refuted"
   ],
   "note": "sizes proved for all settings and the exact set of refused settings characterised; the index claim for N needs at least one data set (C25_no_data_refuted)"
  },
  {
   "property": "C26",
   "status": "partial",
   "theorems": [
    "Verif.C26_default_one_partial",
    "Verif.C26_default_refuted"
   ],
   "note": "without sigma2 a run starts at variance one; the S20 half of the claim is refuted because the guard tests a bound method (C26_default_refuted)"
  },
  {
   "property": "C27",
   "status": "partial",
   "theorems": [
    "Verif.C27_no_sampling_first_run_partial",
    "Verif.C27_later_runs_refuted",
    "Verif.C27_data_description_refuted"
   ],
   "note": "First run proved. Later runs: error variance always sampled (C27_later_runs_refuted, every completed later run); data description overwritten (C27_data_description_refuted)."
  },
  {
   "property": "C28",
   "status": "proved",
   "theorems": [
    "Verif.C28_continuation",
    "Verif.C28_distinct_names_needed"
   ],
   "note": "All histories with different names of sampled parameters; C28_distinct_names_needed: false for equal names."
  },
  {
   "property": "C29",
   "status": "proved",
   "theorems": [
    "Verif.C29_log_blocks"
   ],
   "note": "All completed fresh runs."
  },
  {
   "property": "C30",
   "status": "proved",
   "theorems": [
    "Verif.C30_text_log_reads_back",
    "Verif.C30_text_log_appends"
   ],
   "note": "All completed fresh runs; one-column logs come back one-dimensional, stated in the theorem."
  },
  {
   "property": "C31",
   "status": "partial",
   "theorems": [
    "Verif.C31_binary_log_reads_back_partial",
    "Verif.C31_binary_log_refuted"
   ],
   "note": "Holds when all nonzero block starts have equally many digits; false in general (C31_binary_log_refuted)."
  },
  {
   "property": "C32",
   "status": "partial",
   "theorems": [
    "Verif.C32_continued_log_refuted",
    "Verif.C32_blocks_are_stale",
    "Verif.C32_first_rows_in_text_log_partial",
    "Verif.C32_binary_log_refuted"
   ],
   "note": "Text file starts with the rows of the first run; continuation rows are never written and a binary log fails (C32_continued_log_refuted, C32_binary_log_refuted)."
  },
  {
   "property": "C33",
   "status": "partial",
   "theorems": [
    "Verif.C33_restart_partial",
    "Verif.C33_subset_refuted"
   ],
   "note": "Full statement: whichever subset of parameters is sampled. Proved for saved results of any run of a chain of runs when the restarted run samples every parameter up to the last sampled one (otherwise the run raises, which C33_subset_refuted proves for every subset with a fixed parameter before a sampled one: the saved covariance is indexed with the full parameter indices)."
  },
  {
   "property": "C34",
   "status": "partial",
   "theorems": [
    "Verif.C34_counts_partial",
    "Verif.C34_columns",
    "Verif.C34_n_given_refuted",
    "Verif.C34_list_refuted"
   ],
   "note": "One entry per call for x, y, weight, objects and shape always; n is the number of observations when n is not given and y is an array. False when n is given (nothing is appended) and when y is a list of more than one value (counted as one); both refuted in general."
  },
  {
   "property": "C35",
   "status": "partial",
   "theorems": [
    "Verif.C35_generated",
    "Verif.C35_user_partial",
    "Verif.C35_infinite_refuted"
   ],
   "note": "Generated initial values lie within the user's limits for all limits including infinite ones; number of rows equals number of chains. User-supplied values are accepted exactly when inside the limits if all limits are finite; C35_infinite_refuted: with an infinite limit valid values are refused."
  },
  {
   "property": "C36",
   "status": "partial",
   "theorems": [
    "Verif.C36_order_partial",
    "Verif.C36_many_chains_refuted"
   ],
   "note": "Proved for at most ten chains; for every larger number C36_many_chains_refuted proves that some chain is misplaced (folders are sorted as strings)."
  },
  {
   "property": "C37",
   "status": "partial",
   "theorems": [
    "Verif.C37_degenerate_partial",
    "Verif.C37_refuted"
   ],
   "note": "Proved when the limits of the fixed parameter coincide; C37_refuted: otherwise the value differs from the user's for every draw but one and differs between chains."
  },
  {
   "property": "C38",
   "status": "partial",
   "theorems": [
    "Verif.C38_workers_refuted",
    "Verif.C38_one_worker_partial"
   ],
   "note": "Proved for consecutive tasks of one worker; C38_workers_refuted: the first tasks of any two forked workers start from the same generator state and equal tasks give equal results, for every schedule."
  },
  {
   "property": "C39",
   "status": "partial",
   "theorems": [
    "Verif.C39_combined_partial",
    "Verif.C39_empty_refuted",
    "Verif.C39_continued_refuted"
   ],
   "note": "Rows, order, index array and list form proved when each chain has nsimu rows; refuted for an empty list of chains and for continued chains (nsimu of the last run only)."
  },
  {
   "property": "C40",
   "status": "proved",
   "theorems": [
    "Verif.C40_order",
    "Verif.C40_permutation",
    "Verif.C40_affine"
   ],
   "note": "empirical_quantiles over any linear ordered field, with scipy's interp1d given by its documented linear interpolation."
  },
  {
   "property": "C41",
   "status": "proved",
   "theorems": [
    "Verif.C41_nested",
    "Verif.C41_bands"
   ],
   "note": "Nesting and the band limits of plotting/PredictionIntervals and propagation.define_limits."
  },
  {
   "property": "C42",
   "status": "partial",
   "theorems": [
    "Verif.C42_all_rows_partial",
    "Verif.C42_draws_ignored_refuted",
    "Verif.C42_prediction_intervals"
   ],
   "note": "The chain row at position kk is evaluated instead of the drawn row; C42_draws_ignored_refuted is the negation. Proved: rows evaluated are exactly the first nsample rows."
  },
  {
   "property": "C43",
   "status": "partial",
   "theorems": [
    "Verif.C43_other_entries_partial",
    "Verif.C43_theta_refuted"
   ],
   "note": "C43_theta_refuted: results['theta'] is overwritten with the last chain row. Proved: no other entry changes."
  },
  {
   "property": "C44",
   "status": "proved",
   "theorems": [
    "Verif.C44_ranges",
    "Verif.C44_consecutive",
    "Verif.C44_refused",
    "Verif.C44_every_row"
   ],
   "note": "s2chain column ranges: cover, order and refusal."
  },
  {
   "property": "C45",
   "status": "partial",
   "theorems": [
    "Verif.C45_default_partial",
    "Verif.C45_refuted"
   ],
   "note": "C45_refuted: any non-default sstype is replaced by 0."
  },
  {
   "property": "C46",
   "status": "partial",
   "theorems": [
    "Verif.C46_levels_partial",
    "Verif.C46_label_refuted",
    "Verif.C46_nested"
   ],
   "note": "C46_label_refuted: the 90% band runs from 0.05 to 0.9. Nesting is proved."
  },
  {
   "property": "C47",
   "status": "partial",
   "theorems": [
    "Verif.C47_rows_partial",
    "Verif.C47_maximum_refuted"
   ],
   "note": "C47_maximum_refuted: more than maxpoints rows are selected unless the step divides. Validity, spacing and start proved."
  },
  {
   "property": "C48",
   "status": "proved",
   "theorems": [
    "Verif.C48_grid"
   ],
   "note": "Grid large enough and no row or column to spare."
  },
  {
   "property": "C49",
   "status": "proved",
   "theorems": [
    "Verif.C49_user",
    "Verif.C49_replaced",
    "Verif.C49_default",
    "Verif.C49_idempotent"
   ],
   "note": "Every path of nested dictionaries: the user's leaf wins, defaults elsewhere, unknown keys added, merging again changes nothing. None for a dictionary counts as no setting."
  },
  {
   "property": "C50",
   "status": "proved",
   "theorems": [
    "Verif.C50_light",
    "Verif.C50_total"
   ],
   "note": "lighten_results with dictionary identity."
  },
  {
   "property": "C51",
   "status": "proved",
   "theorems": [
    "Verif.C51_value",
    "Verif.C51_lower",
    "Verif.C51_effective",
    "Verif.C51_permutation",
    "Verif.C51_affine",
    "Verif.C51_assembled",
    "Verif.C51_single"
   ],
   "note": "calculate_psrf and gelman_rubin over an ordered field with a square root (exact arithmetic): value, lower bound attained exactly for equal means, effective number, permutation and affine invariance, assembly per parameter, single chain."
  },
  {
   "property": "C52",
   "status": "proved",
   "theorems": [
    "Verif.C52_window",
    "Verif.C52_constant",
    "Verif.C52_range"
   ],
   "note": "exact arithmetic, the FFT is its definition as a sum over the complex roots of unity; window is the least w with 3 tau(w) < w (Sokal's rule), constant chains give zero."
  },
  {
   "property": "C53",
   "status": "partial",
   "theorems": [
    "Verif.C53_disjoint_partial",
    "Verif.C53_accepted",
    "Verif.C53_overlap_refuted",
    "Verif.C53_accept_refuted"
   ],
   "note": "disjointness is proved for a + b < 1; the guard also accepts overlapping windows and refuses two halves, both clauses are refuted by witness."
  },
  {
   "property": "C54",
   "status": "proved",
   "theorems": [
    "Verif.C54_batches",
    "Verif.C54_refused"
   ],
   "note": "batch_mean_standard_deviation, all lengths and batch sizes."
  },
  {
   "property": "C55",
   "status": "partial",
   "theorems": [
    "Verif.C55_contour",
    "Verif.C55_positive",
    "Verif.C55_asymmetric_partial",
    "Verif.C55_asymmetric_refuted"
   ],
   "note": "Points have Mahalanobis distance one and, for symmetric matrices, refusal is equivalent to not being positive definite. C55_asymmetric_refuted: asymmetry below 1e-8+1e-5*abs is accepted."
  },
  {
   "property": "C56",
   "status": "partial",
   "theorems": [
    "Verif.C56_sorted_partial",
    "Verif.C56_order_refuted",
    "Verif.C56_small_refuted"
   ],
   "note": "Proved for sorted samples; C56_order_refuted and C56_small_refuted give the negations."
  },
  {
   "property": "C57",
   "status": "proved",
   "theorems": [
    "Verif.C57_names"
   ],
   "note": "generate_names and generate_default_names."
  },
  {
   "property": "C58",
   "status": "proved",
   "theorems": [
    "Verif.C58_value",
    "Verif.C58_minimum",
    "Verif.C58_flat",
    "Verif.C58_mean"
   ],
   "note": "exact arithmetic with infinities; standard deviations other than NaN (a NaN standard deviation is outside the statement)."
  },
  {
   "property": "C59",
   "status": "partial",
   "theorems": [
    "Verif.C59_value_partial",
    "Verif.C59_zero",
    "Verif.C59_columns_refuted",
    "Verif.C59_flat_prediction_refuted",
    "Verif.C59_lengths",
    "Verif.C59_single"
   ],
   "note": "proved for observations with one column and a model function that returns a column; several columns or a one-dimensional prediction raise ValueError (proved, C59_columns_refuted and C59_flat_prediction_refuted)."
  },
  {
   "property": "C60",
   "status": "proved",
   "theorems": [
    "Verif.C60_valid",
    "Verif.C60_uniform"
   ],
   "note": "Rows drawn by define_sample_points are valid and the mapping from uniforms to rows is balanced."
  },
  {
   "property": "C61",
   "status": "proved",
   "theorems": [
    "Verif.C61_defaults",
    "Verif.C61_adaptint",
    "Verif.C61_kept",
    "Verif.C61_lightly",
    "Verif.C61_savesize",
    "Verif.C61_dependent",
    "Verif.C61_idempotent"
   ],
   "note": "define_simulation_options and _check_dependent_simulation_options; that mh and dr never adapt in a run is C14."
  },
  {
   "property": "C62",
   "status": "partial",
   "theorems": [
    "Verif.C62_width_partial",
    "Verif.C62_last_refuted",
    "Verif.C62_end",
    "Verif.C62_line",
    "Verif.C62_shows"
   ],
   "note": "C62_last_refuted: short runs (n <= 38) print a wider last line. Constant width proved elsewhere."
  },
  {
   "property": "C63",
   "status": "partial",
   "theorems": [
    "Verif.C63_single_refuted",
    "Verif.C63_length_partial"
   ],
   "note": "false for nsimu = 1 (UnboundLocalError after the loop, proved for all settings); proved for nsimu >= 2 with one try and a fixed error variance; see C64 and C65 for the other settings."
  },
  {
   "property": "C64",
   "status": "proved",
   "theorems": [
    "Verif.C64_run_returns",
    "Verif.C64_continued_run_returns"
   ],
   "note": "Any float type, runs from scratch and continued; the gamma rejection loop is bounded by the model parameter fuel (outOfFuel case stated)."
  },
  {
   "property": "C65",
   "status": "proved",
   "theorems": [
    "Verif.C65_exact_run_returns",
    "Verif.C65_continued_run_returns"
   ],
   "note": "Exact-arithmetic LAPACK and reals, runs from scratch and continued; the gamma rejection loop with sampled error variance is bounded by the model parameter fuel (outOfFuel case stated)."
  },
  {
   "property": "C66",
   "status": "partial",
   "theorems": [
    "Verif.C66_logs_partial",
    "Verif.C66_json_refuted"
   ],
   "note": "Proved for runs with log files; C66_json_refuted: runs saved only as json can never be loaded (unbound local)."
  },
  {
   "property": "C67",
   "status": "partial",
   "theorems": [
    "Verif.C67_available_partial",
    "Verif.C67_short_refuted"
   ],
   "note": "proved from 40 rows on; below that chainstats raises (SystemExit below 20 rows, ZeroDivisionError from 20 to 39 rows), proved as C67_short_refuted."
  },
  {
   "property": "C68",
   "status": "partial",
   "theorems": [
    "Verif.C68_scale_partial",
    "Verif.C68_shift_refuted"
   ],
   "note": "invariance under scaling is proved; invariance under a shift is refuted by a witness, because the spectral estimate is not centred."
  },
  {
   "property": "C69",
   "status": "partial",
   "theorems": [
    "Verif.C69_first_adaptation_partial",
    "Verif.C69_later_adaptations_refuted"
   ],
   "note": "First adaptation past the burn-in: proved. From the second on the earlier runs' rows are counted again: C69_later_adaptations_refuted gives the exact weight."
  },
  {
   "property": "C70",
   "status": "partial",
   "theorems": [
    "Verif.C70_continuation_set_up_partial",
    "Verif.C70_without_sampling_refuted",
    "Verif.C70_continues_partial"
   ],
   "note": "Proved when the error variances were sampled in the earlier run, the user gave no N, the data sets fit the sum-of-squares function and qcov is given: set-up for every float type, completion in exact arithmetic (C70_continues_partial). Without sampling no continuation succeeds: C70_without_sampling_refuted."
  },
  {
   "property": "C71",
   "status": "proved",
   "theorems": [
    "Verif.C71_prior_kept"
   ],
   "note": "Initial values must not be NaN (a NaN initial value cannot be told from a missing prior mean)."
  },
  {
   "property": "C72",
   "status": "proved",
   "theorems": [
    "Verif.C72_decisions",
    "Verif.C72_density_ratio"
   ],
   "note": "Any float type, any reachable history: every iteration of the run (ghost record of what the sampler works from), row, sums of squares, prior, error variance, factor and decision; density-ratio form over the reals. Later delayed-rejection tries are C08-C10; at j = 0 of a continued run the error variance is the initial one of the set-up, which C157 identifies as the last row of the earlier s2chain."
  },
  {
   "property": "C73",
   "status": "proved",
   "theorems": [
    "Verif.C73_burnin_scaling",
    "Verif.C73_burnin_exact"
   ],
   "note": "Any float type; thresholds over the reals in C73_burnin_exact. With delayed rejection the factors of the later tries are dropped during the burn-in (see C18, C64 for the consequence)."
  },
  {
   "property": "C74",
   "status": "proved",
   "theorems": [
    "Verif.C74_results_report",
    "Verif.C74_qcovorig",
    "Verif.C74_restart_with_qcovorig",
    "Verif.C74_rates",
    "Verif.C74_fraction_refuted"
   ],
   "note": "C74_results_report, C74_qcovorig and C74_restart_with_qcovorig hold for every float type; C74_rates over the reals; C74_fraction_refuted shows that total_rejected is not the fraction of the nsimu - 1 moves"
  },
  {
   "property": "C75",
   "status": "proved",
   "theorems": [
    "Verif.C75_unique",
    "Verif.C75_acceptance_info",
    "Verif.C75_net_counts_refuted",
    "Verif.C75_continued_refuted",
    "Verif.C75_loaded_refuted"
   ],
   "note": "For chains of a run from scratch without NaN. The three refuted theorems show why no more can be claimed: the two net counts can differ, a continued run mixes different row sets, results loaded from a file raise AttributeError"
  },
  {
   "property": "C76",
   "status": "proved",
   "theorems": [
    "Verif.C76_valid_problem_runs",
    "Verif.C76_fixed_variance",
    "Verif.C76_default_run"
   ],
   "note": "exact arithmetic and exact linear algebra (ExactInputs); with error-variance sampling the alternative is the fuel bound of the model's gamma generator. C76_default_run is the documented use with default options. ram is not covered (C65 neither)."
  },
  {
   "property": "C77",
   "status": "partial",
   "theorems": [
    "Verif.C77_limits_refused",
    "Verif.C77_local_refused",
    "Verif.C77_accepted",
    "Verif.C77_settings_refused",
    "Verif.C77_nan_refuted"
   ],
   "note": "limits, local parameters and settings of wrong length are refused independently of the user functions, converse for all completed runs; refuted for NaN initial values, which pass the comparisons (C77_nan_refuted). The settings part says that the run fails, without the position of the check, because the code calls the model once before it knows the number of elements."
  },
  {
   "property": "C78",
   "status": "proved",
   "theorems": [
    "Verif.C78_stages",
    "Verif.C78_acceptance_probability",
    "Verif.C78_detailed_balance",
    "Verif.C78_iteration_exact",
    "Verif.C78_exact",
    "Verif.C78_continued"
   ],
   "note": "generic floats for every history (`C78_stages`); exact arithmetic for every history, fresh or continued (`C78_exact`, `C78_continued`), without user-given stage factors, with the variances of the rows assumed positive (C23 proves that for sampled variances); formula and its detailed balance in Spec/Acceptance"
  },
  {
   "property": "C79",
   "status": "proved",
   "theorems": [
    "Verif.C79_draws_in_sequence"
   ],
   "note": "state of the generator threaded through proposals and variance draws of every iteration, any history"
  },
  {
   "property": "C80",
   "status": "proved",
   "theorems": [
    "Verif.C80_credible",
    "Verif.C80_prediction",
    "Verif.C80_ordered",
    "Verif.C80_zero_variance",
    "Verif.C80_nonnegative",
    "Verif.C80_returns"
   ],
   "note": "exact arithmetic; square root and exponential are arbitrary functions (with sqrt 0 = 0, exp >= 0 where needed); preparation and generation of all data sets, both kinds of intervals, absence of exceptions, order, zero variance, sign"
  },
  {
   "property": "C81",
   "status": "partial",
   "theorems": [
    "Verif.C81_whole_vector_partial",
    "Verif.C81_numbering_refuted"
   ],
   "note": "results['local'] is 0 for every parameter in every run that gets past the parameter table, so every model function receives the complete vector; refuted for the marks of scan_for_local_variables (C81_numbering_refuted): the marks start at 1, the data sets at 0"
  },
  {
   "property": "C82",
   "status": "proved",
   "theorems": [
    "Verif.C82_transition",
    "Verif.C82_posterior_kept"
   ],
   "note": "For the fixed-proposal problem (mh, dr; fixed error variances, given covariance) in exact arithmetic with an ideal generator. C82_transition gives the map on (row, generator state) that keeps the product measure; C82_posterior_kept the laws of the rows."
  },
  {
   "property": "C83",
   "status": "proved",
   "theorems": [
    "Verif.C83_gamma_law",
    "Verif.C83_error_variances"
   ],
   "note": "C83_gamma_law: law of a single deviate and independence of the later state; C83_error_variances: joint law of the reciprocals of the new variances. Requires S20 to be stored apart from sigma2; where the code makes both the same array the law differs (see C22 and DESIGN.md section 7)."
  },
  {
   "property": "C84",
   "status": "proved",
   "theorems": [
    "Verif.C84_transition",
    "Verif.C84_joint_posterior"
   ],
   "note": "For the fixed-proposal problem with sampled variances in exact arithmetic with an ideal generator. C84_transition gives the map on (values, variances, generator state); C84_joint_posterior the laws of the rows. The set of starts is a parameter: with N0 and S20 given it can be all starts, with defaults taken from the start it is one start. Requires S20 to be stored apart from sigma2 (see C22)."
  },
  {
   "property": "C85",
   "status": "proved",
   "theorems": [
    "Verif.C85_convergence"
   ],
   "note": "all runs iterate one transition with a Doeblin lower bound; the error bound is uniform over events, starts and run lengths"
  },
  {
   "property": "C86",
   "status": "proved",
   "theorems": [
    "Verif.C86_averages"
   ],
   "note": "law of large numbers with an explicit rate"
  },
  {
   "property": "C87",
   "status": "proved",
   "theorems": [
    "Verif.C87_convergence"
   ],
   "note": "two iterations give every event at least a fixed multiple of its posterior probability"
  },
  {
   "property": "C88",
   "status": "proved",
   "theorems": [
    "Verif.C88_averages"
   ],
   "note": "law of large numbers with an explicit rate"
  },
  {
   "property": "C89",
   "status": "proved",
   "theorems": [
    "Verif.C89_chain",
    "Verif.C89_histogram",
    "Verif.C89_density",
    "Verif.C89_pairs"
   ],
   "note": "Model of the four panel figures up to the drawing calls; the density estimate of statsmodels is a parameter."
  },
  {
   "property": "C90",
   "status": "partial",
   "theorems": [
    "Verif.C90_large_partial",
    "Verif.C90_small_partial",
    "Verif.C90_outlier_refuted",
    "Verif.C90_single_refuted"
   ],
   "note": "Covering is false: proved for 2 to 17 values and for more than 200; refuted for every size from 18 to 200 and for a single value."
  },
  {
   "property": "C91",
   "status": "partial",
   "theorems": [
    "Verif.C91_density",
    "Verif.C91_raises",
    "Verif.C91_bandwidth_partial",
    "Verif.C91_order_refuted"
   ],
   "note": "The density part is proved; the bandwidth bounds are proved, independence of the order is refuted (see C56)."
  },
  {
   "property": "C92",
   "status": "partial",
   "theorems": [
    "Verif.C92_bands_partial",
    "Verif.C92_no_variance_refuted",
    "Verif.C92_switches"
   ],
   "note": "Proved for results with error variances; without them the default call raises (refuted)."
  },
  {
   "property": "C93",
   "status": "partial",
   "theorems": [
    "Verif.C93_user_partial",
    "Verif.C93_order_refuted",
    "Verif.C93_map",
    "Verif.C93_space"
   ],
   "note": "User colours proved for decreasing limits, refuted for increasing ones; colour-map positions proved for all limits."
  },
  {
   "property": "C94",
   "status": "partial",
   "theorems": [
    "Verif.C94_limits_partial",
    "Verif.C94_limits_refuted",
    "Verif.C94_names_partial",
    "Verif.C94_names_refuted"
   ],
   "note": "Proved for complete or missing lists of names and decreasing limits; refuted for short lists of names and other limits."
  },
  {
   "property": "C95",
   "status": "partial",
   "theorems": [
    "Verif.C95_plane",
    "Verif.C95_space_partial",
    "Verif.C95_space_none_refuted",
    "Verif.C95_space_switches",
    "Verif.C95_space_refuted"
   ],
   "note": "Proved for plot_intervals; for plot_3d_intervals with as many observations as times; refuted otherwise."
  },
  {
   "property": "C96",
   "status": "partial",
   "theorems": [
    "Verif.C96_json_partial",
    "Verif.C96_text_partial",
    "Verif.C96_binary_partial",
    "Verif.C96_shape_refuted",
    "Verif.C96_variance_refuted",
    "Verif.C96_other_file_refuted",
    "Verif.C96_named",
    "Verif.C96_failures",
    "Verif.C96_extension"
   ],
   "note": "Proved for results with the chains in the json file, in text logs and in binary logs, for every listing order, if the directory has no other json file. Refuted: one column or a missing error-variance chain in text logs, another json file in the directory; binary logs as in C31."
  },
  {
   "property": "C97",
   "status": "partial",
   "theorems": [
    "Verif.C97_covariance_log",
    "Verif.C97_text",
    "Verif.C97_binary_partial",
    "Verif.C97_binary_refuted"
   ],
   "note": "The contents of the log are proved for every completed run, fresh or continued, and its text file. Refuted for binary files when the start numbers have different digit counts; proved when they have the same."
  },
  {
   "property": "C98",
   "status": "partial",
   "theorems": [
    "Verif.C98_restart_partial",
    "Verif.C98_no_directory",
    "Verif.C98_cores",
    "Verif.C98_fixed_refuted"
   ],
   "note": "proved for rows and covariance; refuted for parameters that are not sampled"
  },
  {
   "property": "C99",
   "status": "proved",
   "theorems": [
    "Verif.C99_transitions_keep_posterior"
   ],
   "note": "For fixed error variances, without ram, initqcovn, given factors or an adaptation during burn-in (all stated as hypotheses). The convergence of the adaptive chain is not claimed: the code does not bound the adapted covariance from below."
  },
  {
   "property": "C100",
   "status": "proved",
   "theorems": [
    "Verif.C100_custom_protocol"
   ],
   "note": "Any samplers, fresh and continued runs."
  },
  {
   "property": "C101",
   "status": "partial",
   "theorems": [
    "Verif.C101_sums_of_squares_partial",
    "Verif.C101_stale_refuted"
   ],
   "note": "Proved: accepted points are within limits with the value of the user's function given the outputs of the iteration before; rejected iterations keep the old value, and that value is what proposals are compared with. Refuted (C101_stale_refuted): the current point's value is not recomputed for the present outputs."
  },
  {
   "property": "C102",
   "status": "proved",
   "theorems": [
    "Verif.C102_custom_chains_saved"
   ],
   "note": "For samplers that do not change rows after their iteration."
  },
  {
   "property": "C103",
   "status": "proved",
   "theorems": [
    "Verif.C103_silent_samplers"
   ],
   "note": "Equality of runs including errors."
  },
  {
   "property": "C104",
   "status": "partial",
   "theorems": [
    "Verif.C104_output_partial",
    "Verif.C104_fails",
    "Verif.C104_refuted"
   ],
   "note": "Equal results for every completed printing run, and complete agreement below verbosity 2, for dr and dram, and once _RDR exists. Refuted otherwise: C104_fails (every such first run raises AttributeError), C104_refuted."
  },
  {
   "property": "C105",
   "status": "partial",
   "theorems": [
    "Verif.C105_table_partial",
    "Verif.C105_mark_refuted"
   ],
   "note": "Everything but the mark (*), which is never printed: C105_mark_refuted."
  },
  {
   "property": "C106",
   "status": "proved",
   "theorems": [
    "Verif.C106_progress",
    "Verif.C106_exact"
   ],
   "note": "Exact list of reports for any float type; C106_exact gives the percentages and their range in exact arithmetic."
  },
  {
   "property": "C107",
   "status": "proved",
   "theorems": [
    "Verif.C107_adaptation_messages"
   ],
   "note": "Relation Reported between every adaptation and the lines printed about it."
  },
  {
   "property": "C108",
   "status": "proved",
   "theorems": [
    "Verif.C108_number_text",
    "Verif.C108_monotone",
    "Verif.C108_special"
   ],
   "note": "Exact rational numbers, plus C108_monotone and C108_special for nan, infinities and negative zero."
  },
  {
   "property": "C109",
   "status": "partial",
   "theorems": [
    "Verif.C109_table_partial",
    "Verif.C109_subset_refuted"
   ],
   "note": "All results with at most as many names as columns; with more names the call raises IndexError (C109_subset_refuted)."
  },
  {
   "property": "C110",
   "status": "partial",
   "theorems": [
    "Verif.C110_by_name_partial",
    "Verif.C110_equal_refuted",
    "Verif.C110_subset_refuted"
   ],
   "note": "The last parameter of each name; equal names collapse into one entry (C110_equal_refuted), more names than columns raise IndexError (C110_subset_refuted)."
  },
  {
   "property": "C111",
   "status": "partial",
   "theorems": [
    "Verif.C111_names_partial",
    "Verif.C111_names_refuted"
   ],
   "note": "Names at least as many as columns, or names given to gelman_rubin; otherwise the list of names in the results is lengthened (C111_names_refuted)."
  },
  {
   "property": "C112",
   "status": "proved",
   "theorems": [
    "Verif.C112_convergence"
   ],
   "note": "runs with fixed variances, given covariance and no adaptation; posterior with a finite positive integral"
  },
  {
   "property": "C113",
   "status": "proved",
   "theorems": [
    "Verif.C113_averages",
    "Verif.C113_means"
   ],
   "note": "C113_averages for bounded functions (uniformly), C113_means for every function with a finite posterior mean"
  },
  {
   "property": "C114",
   "status": "proved",
   "theorems": [
    "Verif.C114_convergence"
   ],
   "note": "runs with sampled variances, given covariance and no adaptation; joint posterior with a finite positive integral"
  },
  {
   "property": "C115",
   "status": "proved",
   "theorems": [
    "Verif.C115_averages",
    "Verif.C115_means"
   ],
   "note": "C115_averages for bounded functions (uniformly), C115_means for every function with a finite posterior mean"
  },
  {
   "property": "C116",
   "status": "proved",
   "theorems": [
    "Verif.C116_chainstats",
    "Verif.C116_chainstats_joint"
   ],
   "note": "_chainstats for fixed, _chainstats_joint for sampled variances; parameters with a finite posterior second moment; the integrated autocorrelation time and Geweke columns enter as arguments"
  },
  {
   "property": "C117",
   "status": "proved",
   "theorems": [
    "Verif.C117_gelman_rubin",
    "Verif.C117_gelman_rubin_joint"
   ],
   "note": "fixed and sampled variances; generators of the chains may depend on each other"
  },
  {
   "property": "C118",
   "status": "proved",
   "theorems": [
    "Verif.C118_credible",
    "Verif.C118_credible_joint"
   ],
   "note": "fixed and sampled variances; model with one output column; the rows evaluated are the first ones (see C42), which is what makes the drawn indices irrelevant"
  },
  {
   "property": "C119",
   "status": "partial",
   "theorems": [
    "Verif.C119_shown_partial",
    "Verif.C119_returns",
    "Verif.C119_unobserved_refuted",
    "Verif.C119_second_refuted"
   ],
   "note": "C119_shown_partial: what is added to which axes; C119_returns: no exception. Refuted: a second plot of the same object is drawn over the first, so its axes show more than was asked for; outputs that were not observed cannot be plotted with observations."
  },
  {
   "property": "C120",
   "status": "partial",
   "theorems": [
    "Verif.C120_credible",
    "Verif.C120_prediction",
    "Verif.C120_shown_partial",
    "Verif.C120_ninety_refuted"
   ],
   "note": "The curves are calibrated for credible and prediction intervals (C120_credible, C120_prediction); the labels are right except for 90 %, whose band contains 85 % (C120_ninety_refuted)."
  },
  {
   "property": "C121",
   "status": "partial",
   "theorems": [
    "Verif.C121_unchanged_partial",
    "Verif.C121_overwritten",
    "Verif.C121_refuted"
   ],
   "note": "proved for every array but one passed as sigma2 with two or more entries; that one is overwritten (C121_overwritten, C121_refuted)"
  },
  {
   "property": "C122",
   "status": "partial",
   "theorems": [
    "Verif.C122_drawn_partial",
    "Verif.C122_integers",
    "Verif.C122_refuted",
    "Verif.C122_zero"
   ],
   "note": "proved unless sigma2 is a list or array of two or more integers; then the draws are cut to integers (C122_integers, C122_zero, C122_refuted)"
  },
  {
   "property": "C123",
   "status": "partial",
   "theorems": [
    "Verif.C123_kept_partial",
    "Verif.C123_overwritten",
    "Verif.C123_refuted"
   ],
   "note": "proved for N, N0, S20, and for sigma2 with a single sum of squares; refuted for sigma2 otherwise (C123_overwritten, C123_refuted)"
  },
  {
   "property": "C124",
   "status": "proved",
   "theorems": [
    "Verif.C124_stored"
   ],
   "note": "C124_stored: folders differ, chosen formats are used, and each chain writes log files or a results file with the three chains."
  },
  {
   "property": "C125",
   "status": "partial",
   "theorems": [
    "Verif.C125_kept_partial",
    "Verif.C125_refuted"
   ],
   "note": "C125_kept_partial: nothing but save_to_bin changes, and that only if no output format was chosen; C125_refuted: then it changes."
  },
  {
   "property": "C126",
   "status": "proved",
   "theorems": [
    "Verif.C126_same_run"
   ],
   "note": "Equality of the two runs as functions of everything; the names in the file are assumed distinct."
  },
  {
   "property": "C127",
   "status": "proved",
   "theorems": [
    "Verif.C127_converges_after_restart",
    "Verif.C127_means_after_restart",
    "Verif.C127_joint_after_restart",
    "Verif.C127_joint_means_after_restart"
   ],
   "note": "All parameters sampled in the first run. Adaptive runs themselves are not shown to converge; the run restarted from their file without adaptation is."
  },
  {
   "property": "C128",
   "status": "proved",
   "theorems": [
    "Verif.C128_output"
   ],
   "note": ""
  },
  {
   "property": "C129",
   "status": "proved",
   "theorems": [
    "Verif.C129_prediction",
    "Verif.C129_prediction_joint"
   ],
   "note": "Exact arithmetic and ideal draws."
  },
  {
   "property": "C130",
   "status": "partial",
   "theorems": [
    "Verif.C130_refused_partial",
    "Verif.C130_refuted",
    "Verif.C130_single_partial",
    "Verif.C130_column_refuted",
    "Verif.C130_points_refuted"
   ],
   "note": "False with as many variance columns as points (C130_refuted, C130_points_refuted) and for a quantity returned as a column (C130_column_refuted)."
  },
  {
   "property": "C131",
   "status": "proved",
   "theorems": [
    "Verif.C131_transitions_keep_joint_posterior"
   ],
   "note": "Conditional laws of the pairs of rows given the history, for runs with adaptation and sampled error variances; exact arithmetic, ideal generator, initqcovn not set, no adaptation in the burn-in. Convergence of adaptive runs is not claimed."
  },
  {
   "property": "C132",
   "status": "proved",
   "theorems": [
    "Verif.C132_moments_settle",
    "Verif.C132_proposal_settles"
   ],
   "note": "Exact arithmetic. The mean and covariance of adaptation settle at the rate adaptint/q (C132_moments_settle); the proposal covariance likewise once the sample covariance is positive definite, which lasts (C132_proposal_settles)."
  },
  {
   "property": "C133",
   "status": "proved",
   "theorems": [
    "Verif.C133_adaptive_convergence"
   ],
   "note": "At most two stages (am, dram), fixed error variances; the bound contains the probability that the sample covariance collapses, which the code does not exclude."
  },
  {
   "property": "C134",
   "status": "proved",
   "theorems": [
    "Verif.C134_adaptive_averages"
   ],
   "note": "At most two stages (am, dram), fixed error variances; the bound contains the average probability that the sample covariance collapses."
  },
  {
   "property": "C135",
   "status": "partial",
   "theorems": [
    "Verif.C135_block_partial",
    "Verif.C135_restart_refuted",
    "Verif.C135_integers_refuted"
   ],
   "note": "False: numbers assigned to an integer array are converted towards zero (C135_integers_refuted), and a later run given the result stops (C135_restart_refuted). Proved: the block holds the converted numbers, all other entries are unchanged."
  },
  {
   "property": "C136",
   "status": "partial",
   "theorems": [
    "Verif.C136_form_partial",
    "Verif.C136_model_partial",
    "Verif.C136_integers_refuted"
   ],
   "note": "False for arrays of integers: ValueError (C136_integers_refuted). Proved for lists without zeros and arrays of floats."
  },
  {
   "property": "C137",
   "status": "partial",
   "theorems": [
    "Verif.C137_metrics_partial",
    "Verif.C137_default_refuted",
    "Verif.C137_list_refuted",
    "Verif.C137_empty_refuted"
   ],
   "note": "False for the default name (the text of a list) and the empty string (C137_default_refuted, C137_empty_refuted). Proved for every other string; what is drawn is proved for every name."
  },
  {
   "property": "C138",
   "status": "partial",
   "theorems": [
    "Verif.C138_index_partial",
    "Verif.C138_binary_refuted"
   ],
   "note": "False if a binary file has log in its name (C138_binary_refuted). Proved for directories whose other entries with log in their names are text files."
  },
  {
   "property": "C139",
   "status": "proved",
   "theorems": [
    "Verif.C139_adaptive_joint_convergence"
   ],
   "note": "At most two proposal stages; the probability that the sample covariance collapses stands in the bound."
  },
  {
   "property": "C140",
   "status": "proved",
   "theorems": [
    "Verif.C140_adaptive_joint_averages"
   ],
   "note": "At most two proposal stages; the probability that the sample covariance collapses stands in the bound."
  },
  {
   "property": "C141",
   "status": "proved",
   "theorems": [
    "Verif.C141_adaptive_chainstats",
    "Verif.C141_adaptive_chainstats_joint"
   ],
   "note": "adaptive chains, fixed and sampled error variances; carries the probability that the sample covariance collapses"
  },
  {
   "property": "C142",
   "status": "proved",
   "theorems": [
    "Verif.C142_adaptive_gelman_rubin",
    "Verif.C142_adaptive_gelman_rubin_joint"
   ],
   "note": "several adaptive chains; carries the probabilities of collapse"
  },
  {
   "property": "C143",
   "status": "partial",
   "theorems": [
    "Verif.C143_display_partial",
    "Verif.C143_fails",
    "Verif.C143_before",
    "Verif.C143_qcov_refuted"
   ],
   "note": "complete when delayed rejection was set up or an adaptation was made (C143_display_partial); false before a run (C143_before), without either (C143_fails), and for the displayed covariance after an adaptation (C143_qcov_refuted)"
  },
  {
   "property": "C144",
   "status": "proved",
   "theorems": [
    "Verif.C144_entries",
    "Verif.C144_geweke"
   ],
   "note": "Real rows; the autocorrelation-time and normal distribution functions are parameters."
  },
  {
   "property": "C145",
   "status": "partial",
   "theorems": [
    "Verif.C145_ratio_partial",
    "Verif.C145_number_refuted",
    "Verif.C145_decision",
    "Verif.C145_draws"
   ],
   "note": "Refuted for prior functions that return numbers (TypeError); proved for arrays, as the default prior function returns."
  },
  {
   "property": "C146",
   "status": "proved",
   "theorems": [
    "Verif.C146_propagation",
    "Verif.C146_prediction"
   ],
   "note": "Settings are texts and numbers."
  },
  {
   "property": "C147",
   "status": "partial",
   "theorems": [
    "Verif.C147_printed_partial",
    "Verif.C147_equal_refuted"
   ],
   "note": "Refuted for equal names; the text of a float is a parameter."
  },
  {
   "property": "C148",
   "status": "proved",
   "theorems": [
    "Verif.C148_removekeys",
    "Verif.C148_options",
    "Verif.C148_settings",
    "Verif.C148_prior"
   ],
   "note": "options, model settings and prior recorded in the results"
  },
  {
   "property": "C149",
   "status": "proved",
   "theorems": [
    "Verif.C149_valid_adaptation",
    "Verif.C149_default_adaptation",
    "Verif.C149_moments_settle"
   ],
   "note": "Conditions on the inputs only (those of C76); exact arithmetic. The run is assumed to return where the error variance is sampled (the gamma rejection loop, C65); with the default options it is proved to return."
  },
  {
   "property": "C150",
   "status": "partial",
   "theorems": [
    "Verif.C150_lines",
    "Verif.C150_chain_only",
    "Verif.C150_loaded_refuted",
    "Verif.C150_sum_partial",
    "Verif.C150_sum_refuted",
    "Verif.C150_empty",
    "Verif.C150_run"
   ],
   "note": "Every line and its numbers (C150_lines, C150_chain_only, C150_run). Missing: the stage percentages shown need not add up to the net one (C150_sum_refuted; bound in C150_sum_partial); for results loaded from a file the function raises before the net line (C150_loaded_refuted)."
  },
  {
   "property": "C151",
   "status": "partial",
   "theorems": [
    "Verif.C151_values",
    "Verif.C151_scale",
    "Verif.C151_geweke",
    "Verif.C151_power_partial",
    "Verif.C151_power_refuted"
   ],
   "note": "Refuted as stated for the energy: the number of the highest frequency is not returned (C151_power_refuted); C151_power_partial says exactly what is missing. Everything else proved: C151_values, C151_scale, C151_geweke."
  },
  {
   "property": "C152",
   "status": "proved",
   "theorems": [
    "Verif.C152_adaptive_credible",
    "Verif.C152_adaptive_credible_joint"
   ],
   "note": "carries the probability that the covariance collapses; bounded posterior within finite limits, ntry at most 2, all sampled parameters adapted"
  },
  {
   "property": "C153",
   "status": "proved",
   "theorems": [
    "Verif.C153_adaptive_prediction",
    "Verif.C153_adaptive_intervals",
    "Verif.C153_adaptive_prediction_joint",
    "Verif.C153_adaptive_intervals_joint"
   ],
   "note": "as C152; variances given by hand or sampled (calculate_intervals), credible intervals for fixed and both kinds for sampled variances (PredictionIntervals)"
  },
  {
   "property": "C154",
   "status": "proved",
   "theorems": [
    "Verif.C154_last_value",
    "Verif.C154_basic",
    "Verif.C154_updatesigma",
    "Verif.C154_keys",
    "Verif.C154_dram",
    "Verif.C154_run",
    "Verif.C154_first_exception"
   ],
   "note": "sequences of calls of the add_* methods, exceptions included, and the results of completed runs; the values of simutime, local and original_covariance are not followed"
  },
  {
   "property": "C155",
   "status": "proved",
   "theorems": [
    "Verif.C155_input",
    "Verif.C155_outside"
   ],
   "note": ""
  },
  {
   "property": "C156",
   "status": "partial",
   "theorems": [
    "Verif.C156_stale_refuted",
    "Verif.C156_needs_acceptance",
    "Verif.C156_accepted_partial",
    "Verif.C156_raises_refuted"
   ],
   "note": "proved for iterations that end with their first proposal; refuted for iterations in which every try is rejected: the adaptation is given the value stored with the current point, and raises TypeError if there is none"
  },
  {
   "property": "C157",
   "status": "proved",
   "theorems": [
    "Verif.C157_variance",
    "Verif.C157_continues"
   ],
   "note": "settings and chain agree after every run; every iteration, fresh or continued"
  },
  {
   "property": "C158",
   "status": "partial",
   "theorems": [
    "Verif.C158_refused",
    "Verif.C158_agrees",
    "Verif.C158_used_partial",
    "Verif.C158_repeated_refuted"
   ],
   "note": "acceptance and refusal of N characterised for every object; numbers used proved except for one sum of squares with several numbers given for one data set, where they are added up (C158_repeated_refuted)"
  },
  {
   "property": "C159",
   "status": "partial",
   "theorems": [
    "Verif.C159_earlier_entries_kept",
    "Verif.C159_entry_is_its_call",
    "Verif.C159_default_names_differ",
    "Verif.C159_names_distinct_partial",
    "Verif.C159_sampled_names_partial",
    "Verif.C159_collision_refuted"
   ],
   "note": "Order, values, defaults and earlier entries hold without assumption. Distinct names hold if the names given are distinct and none has the form of a default name (_partial); without that they are refuted (C159_collision_refuted)."
  }
 ]
}