{"id": "C01", "title": "Every sampled row respects the parameter limits", "statement": "In the chain returned by run_simulation no entry compares below the lower limit or above the upper limit of its parameter, whatever proposals were drawn, whatever the user's sum-of-squares and prior functions return, and however the proposal covariance was adapted.", "quantifier": "for all limits, initial values, proposal matrices, random draws, sum-of-squares and prior functions, sampling methods (mh, am, dr, dram, ram), and chain lengths", "why_tests_cant": "A test sees one random stream and one model function; the claim is about every stream and every value an adapted proposal can take.", "anchors": [{"file": "pymcmcstat/MCMC.py", "symbols": ["MCMC.run_simulation", "MCMC.__execute_simulator", "MCMC.__update_chain"]}, {"file": "pymcmcstat/samplers/Metropolis.py", "symbols": ["Metropolis.run_metropolis_step"]}, {"file": "pymcmcstat/samplers/DelayedRejection.py", "symbols": ["DelayedRejection.run_delayed_rejection"]}, {"file": "pymcmcstat/samplers/utilities.py", "symbols": ["is_sample_outside_bounds"]}]}
{"id": "C02", "title": "The chain is a faithful record of the moves", "statement": "A completed fresh run returns exactly nsimu rows; row 0 is the user's initial value of the sampled parameters; each later row is either a copy of the row before it or a proposal that passed an acceptance test in that iteration, and the last row is what is reported as the final parameter value.", "quantifier": "for all runs that complete, all random streams and all option combinations", "why_tests_cant": "Needs an invariant over a loop of arbitrary length; a unit test only samples a few short loops.", "anchors": [{"file": "pymcmcstat/MCMC.py", "symbols": ["MCMC.__initialize_chains", "MCMC.__execute_simulator", "MCMC.__update_chain"]}]}
{"id": "C03", "title": "Each recorded sum-of-squares belongs to its row", "statement": "For every row i of a completed run, row i of sschain is the value of the user's sum-of-squares function at row i of chain (with the non-sampled parameters at their fixed values).", "quantifier": "for all deterministic sum-of-squares functions, random streams, methods and chain lengths", "why_tests_cant": "The pairing could slip at any rejection, delayed-rejection or out-of-bounds step in an arbitrarily long history.", "anchors": [{"file": "pymcmcstat/MCMC.py", "symbols": ["MCMC.__execute_simulator"]}, {"file": "pymcmcstat/procedures/SumOfSquares.py", "symbols": ["SumOfSquares.evaluate_sos_function"]}, {"file": "pymcmcstat/samplers/DelayedRejection.py", "symbols": ["DelayedRejection.run_delayed_rejection"]}]}
{"id": "C04", "title": "Rejection counts add up", "statement": "After a run of nsimu samples the number of rejected moves plus the number of accepted moves is nsimu-1, every rejected move repeats the previous row, the out-of-bounds count is the number of rejected moves whose last proposal was outside the limits, and the count for the current adaptation interval is the number of rejected moves since the last adaptation.", "quantifier": "for all runs, random streams and options", "why_tests_cant": "An accounting identity over arbitrary-length histories.", "anchors": [{"file": "pymcmcstat/MCMC.py", "symbols": ["MCMC.__update_chain", "MCMC.__update_rejected", "MCMC.__execute_simulator"]}, {"file": "pymcmcstat/structures/ResultsStructure.py", "symbols": ["ResultsStructure.add_basic"]}]}
{"id": "C05", "title": "Delayed-rejection acceptance counts per stage are exact", "statement": "In the reported per-stage acceptance counts, entry k is the number of moves accepted at stage k+1, and the entries together with the number of rejections account for every move.", "quantifier": "for all runs with ntry greater than one", "why_tests_cant": "The first entry is reconstructed by subtraction from totals; only an invariant over the whole run shows whether it equals what it is said to count.", "anchors": [{"file": "pymcmcstat/samplers/DelayedRejection.py", "symbols": ["DelayedRejection.run_delayed_rejection", "DelayedRejection._initialize_dr_metrics"]}, {"file": "pymcmcstat/structures/ResultsStructure.py", "symbols": ["ResultsStructure.add_dram"]}, {"file": "pymcmcstat/MCMC.py", "symbols": ["MCMC.__generate_simulation_results"]}]}
{"id": "C06", "title": "Parameters that are not sampled keep their value", "statement": "Every call of the user's sum-of-squares function during a run receives, at the position of each parameter declared with sample=False, exactly the value the user gave, and at the positions of sampled parameters exactly the proposal under evaluation; the reported theta keeps the fixed values as well.", "quantifier": "for all sets of sampled and fixed parameters, all proposals and all runs", "why_tests_cant": "The vector handed to the user function is one array overwritten in place on every evaluation of an arbitrary history.", "anchors": [{"file": "pymcmcstat/procedures/SumOfSquares.py", "symbols": ["SumOfSquares.__init__", "SumOfSquares.evaluate_sos_function"]}, {"file": "pymcmcstat/settings/ModelParameters.py", "symbols": ["ModelParameters._openparameterstructure"]}, {"file": "pymcmcstat/MCMC.py", "symbols": ["MCMC.__execute_simulator"]}]}
{"id": "C07", "title": "Metropolis acceptance rule", "statement": "A first-stage proposal inside the limits is accepted exactly when the uniform draw u is smaller than the posterior ratio of proposal to current point; in particular a proposal at least as probable as the current point is always accepted, and a proposal outside the limits is never accepted and never evaluated.", "quantifier": "for all finite sums-of-squares, priors, positive error variances and u in [0,1)", "why_tests_cant": "The test is made on logarithms with u=0 mapped to minus infinity; equivalence must hold for all real values.", "anchors": [{"file": "pymcmcstat/samplers/Metropolis.py", "symbols": ["Metropolis.run_metropolis_step"]}, {"file": "pymcmcstat/samplers/utilities.py", "symbols": ["log_posterior_ratio_acceptance_test", "calculate_log_posterior_ratio", "set_outside_bounds"]}]}
{"id": "C08", "title": "Metropolis detailed balance", "statement": "With the acceptance probability the code uses and its Gaussian proposal, the probability flow from x to y equals the flow from y to x under the posterior, for all points x, y inside the limits.", "quantifier": "for all pairs of points, proposal factors R with an inverse, error variances and posterior values", "why_tests_cant": "Reversibility is a statement about all pairs of states, which no sampled run can establish.", "anchors": [{"file": "pymcmcstat/samplers/Metropolis.py", "symbols": ["Metropolis.run_metropolis_step"]}, {"file": "pymcmcstat/samplers/utilities.py", "symbols": ["sample_candidate_from_gaussian_proposal", "calculate_log_posterior_ratio"]}]}
{"id": "C09", "title": "Delayed rejection of any depth satisfies detailed balance", "statement": "For every number of delayed-rejection stages and every path x, y1, ..., yn with x and yn inside the limits (intermediate proposals may be outside), posterior density times proposal densities times the rejection probabilities of the earlier stages times the acceptance probability the code computes is the same for the path and for the reversed path.", "quantifier": "for all stages n, all paths, all per-stage proposal factors and all posterior values", "why_tests_cant": "The acceptance probability is a doubly recursive function; symmetry must hold at every depth, tests only reach depth two on a few literals.", "anchors": [{"file": "pymcmcstat/samplers/DelayedRejection.py", "symbols": ["DelayedRejection.alphafun", "nth_stage_log_proposal_ratio", "extract_state_elements"]}]}
{"id": "C10", "title": "Delayed-rejection acceptance probability is a probability and is well defined", "statement": "For every path reachable in a run the acceptance probability of every stage lies in [0,1], and no division by zero takes place in its computation, even when intermediate proposals lie outside the limits.", "quantifier": "for all stages, all paths whose earlier stages were rejected, all posterior values", "why_tests_cant": "The divisions happen deep in the recursion and only on particular paths.", "anchors": [{"file": "pymcmcstat/samplers/DelayedRejection.py", "symbols": ["DelayedRejection.alphafun"]}, {"file": "pymcmcstat/samplers/utilities.py", "symbols": ["posterior_ratio_acceptance_test"]}]}
{"id": "C11", "title": "Cost of the delayed-rejection recursion", "statement": "One evaluation of the acceptance probability at stage n calls the recursive function at most 3^(n-1) times, and exactly that often when no return proposal on the way is certain; the second stage always needs exactly 3 calls, the third 9, or 3 when going back from the third proposal to the second is certain. The reported alpha_count of a run lies between the number of evaluations and the sum of 3^(stage-1) over them.", "quantifier": "for all stages and paths", "why_tests_cant": "A bound on a recursion for every depth.", "anchors": [{"file": "pymcmcstat/samplers/DelayedRejection.py", "symbols": ["DelayedRejection.alphafun"]}, {"file": "pymcmcstat/structures/ResultsStructure.py", "symbols": ["ResultsStructure.add_dram"]}]}
{"id": "C12", "title": "The adapted covariance is the sample covariance of the chain so far", "statement": "In a fresh run (no prior weight, no burn-in) at every adaptation in iteration i the mean and covariance used for adaptation are the sample mean and the unbiased sample covariance of chain rows 0..i-1.", "quantifier": "for all chains, adaptation intervals, dimensions and all adaptations of a run", "why_tests_cant": "Recursive update over windows; equality with the batch formula is an induction over arbitrary histories.", "anchors": [{"file": "pymcmcstat/samplers/Adaptation.py", "symbols": ["Adaptation.run_adaptation", "update_covariance_mean_sum", "initialize_covariance_mean_sum"]}, {"file": "pymcmcstat/procedures/CovarianceProcedures.py", "symbols": ["CovarianceProcedures._update_covariance_from_adaptation"]}]}
{"id": "C13", "title": "Recursive covariance update does not depend on how the chain is cut", "statement": "Updating mean, covariance and weight with a chain segment and then with a second segment gives the same as updating with the concatenation, and equals the weighted batch formula. Prior weight must be at least one; without prior, the positive weights of the first segment must sum to more than one (or it is one row of weight at least one): below that the code returns a zero covariance and cutting matters.", "quantifier": "for all segments, all positive weights (first segment weight as stated) and all prior mean/covariance/weight", "why_tests_cant": "Algebraic identity over all reals and lengths.", "anchors": [{"file": "pymcmcstat/samplers/Adaptation.py", "symbols": ["update_covariance_mean_sum", "initialize_covariance_mean_sum", "setup_w_R"]}]}
{"id": "C14", "title": "Adaptation happens on schedule and only then", "statement": "With adaptint=k>0 the proposal is adapted exactly at iterations k, 2k, 3k, ... up to lastadapt and not beyond it; with method mh or dr it is never adapted.", "quantifier": "for all nsimu, adaptint, lastadapt and methods", "why_tests_cant": "Statement about a counter over runs of every length.", "anchors": [{"file": "pymcmcstat/MCMC.py", "symbols": ["MCMC.__execute_simulator"]}, {"file": "pymcmcstat/settings/SimulationOptions.py", "symbols": ["SimulationOptions.define_simulation_options", "SimulationOptions._check_dependent_simulation_options"]}]}
{"id": "C15", "title": "Parameters excluded from adaptation keep their proposal covariance", "statement": "For a parameter declared with adapt=False the rows and columns of the proposal covariance belonging to it stay those of the initial covariance throughout the run; the updated covariance stays symmetric and the entries of adapted parameters come from the chain.", "quantifier": "for all index sets, covariances and adaptation histories", "why_tests_cant": "Holds or fails per entry for every matrix.", "anchors": [{"file": "pymcmcstat/samplers/Adaptation.py", "symbols": ["update_cov_from_covchain", "check_for_singular_cov_matrix", "scale_cholesky_decomposition"]}, {"file": "pymcmcstat/settings/ModelParameters.py", "symbols": ["ModelParameters.setup_adaptation_indices"]}]}
{"id": "C16", "title": "Adaptation always yields a usable proposal factor", "statement": "When all sampled parameters are adapted, each adaptation succeeds and yields a factor R with R'R equal to the scaled chain covariance, or the scaled chain covariance plus a small multiple of the identity; R is never singular. If both factorizations fail, R stays as it was.", "quantifier": "for all chains, dimensions, positive scale and adjustment factors", "why_tests_cant": "Positive definiteness for all chains.", "anchors": [{"file": "pymcmcstat/samplers/Adaptation.py", "symbols": ["check_for_singular_cov_matrix", "adjust_cov_matrix", "is_semi_pos_def_chol", "scale_cholesky_decomposition"]}]}
{"id": "C17", "title": "Delayed-rejection factors and their inverses agree at every stage", "statement": "At every stage the factor used to draw the proposal and the inverse used in its density are inverse matrices, stage k uses the first-stage factor divided by the product of the first k scale entries (the last entry repeated when the list is too short), both at the start and after every adaptation past the burn-in.", "quantifier": "for all invertible first-stage factors, all non-empty lists of non-zero scales and all ntry", "why_tests_cant": "Induction over the stages.", "anchors": [{"file": "pymcmcstat/samplers/Adaptation.py", "symbols": ["update_delayed_rejection"]}, {"file": "pymcmcstat/procedures/CovarianceProcedures.py", "symbols": ["CovarianceProcedures.__setup_RDR_matrix"]}]}
{"id": "C18", "title": "A delayed-rejection run always has proposal factors for every try", "statement": "Whenever a delayed-rejection try is made the factor and inverse for that try exist, for every method and option set that define_simulation_options accepts with ntry greater than one, including burn-in.", "quantifier": "for all option sets and all histories of adaptations", "why_tests_cant": "The failing combinations are only reached at particular histories (burn-in adaptation followed by a rejection).", "anchors": [{"file": "pymcmcstat/samplers/Adaptation.py", "symbols": ["Adaptation.run_adaptation"]}, {"file": "pymcmcstat/procedures/CovarianceProcedures.py", "symbols": ["CovarianceProcedures._initialize_covariance_settings"]}, {"file": "pymcmcstat/samplers/DelayedRejection.py", "symbols": ["DelayedRejection.run_delayed_rejection"]}]}
{"id": "C19", "title": "Rank-one Cholesky update is correct", "statement": "cholupdate(R, x) returns an upper-triangular R1 with R1'R1 = R'R + xx' for every upper-triangular R with non-zero diagonal.", "quantifier": "for all dimensions, R and x", "why_tests_cant": "Induction over the dimension with reals.", "anchors": [{"file": "pymcmcstat/samplers/Adaptation.py", "symbols": ["cholupdate", "setup_cholupdate", "update_covariance_mean_sum"]}]}
{"id": "C20", "title": "Robust adaptation keeps the covariance positive definite", "statement": "With the ram method the updated proposal covariance is positive definite at every iteration and grows in the direction of the last proposal exactly when the acceptance probability of that proposal exceeds the target.", "quantifier": "for all iterations, draws, acceptance probabilities and invertible R", "why_tests_cant": "Quantifies over all reals; the update receives a log ratio where a probability is meant.", "anchors": [{"file": "pymcmcstat/samplers/Adaptation.py", "symbols": ["update_cov_via_ram"]}, {"file": "pymcmcstat/samplers/Metropolis.py", "symbols": ["Metropolis.run_metropolis_step"]}, {"file": "pymcmcstat/MCMC.py", "symbols": ["MCMC.__execute_simulator"]}]}
{"id": "C21", "title": "The default initial proposal is valid", "statement": "If no covariance is given, every parameter gets a strictly positive initial proposal variance, whatever its initial value and prior standard deviation (finite, infinite, NaN or zero), and the initial factor satisfies R'R = covariance restricted to the sampled parameters.", "quantifier": "for all initial values and prior standard deviations", "why_tests_cant": "Case distinction over special float values for every parameter.", "anchors": [{"file": "pymcmcstat/procedures/CovarianceProcedures.py", "symbols": ["CovarianceProcedures.setup_covariance_matrix", "CovarianceProcedures.__setup_R_matrix"]}]}
{"id": "C22", "title": "The error-variance prior stays fixed during a run", "statement": "The prior parameters N0 and S20 used in every error-variance draw of a run are those set by the user or their defaults at the start of the run; every draw is from the inverse gamma law with shape (N0+N)/2 and scale (N0*S20+SS)/2.", "quantifier": "for all numbers of observation sets, settings and histories of draws; and for all histories of an object, continued runs included (float types where one times x is x)", "why_tests_cant": "Depends on whether two settings share one array in memory, which is only visible over a history of in-place updates.", "anchors": [{"file": "pymcmcstat/procedures/ErrorVarianceEstimator.py", "symbols": ["ErrorVarianceEstimator.update_error_variance"]}, {"file": "pymcmcstat/settings/ModelSettings.py", "symbols": ["ModelSettings._check_dependent_model_settings", "ModelSettings._check_dependent_model_settings_wrt_nsos"]}]}
{"id": "C23", "title": "Sampled error variances are positive", "statement": "With a positive number of degrees of freedom, a positive sum of prior and data sums-of-squares and uniform draws strictly between zero and one, every sampled error variance of a run is strictly positive and finite.", "quantifier": "for all runs, from scratch or continued, shapes, scales and random streams with finite normal and strictly positive uniform draws on which the sampler returns (exact real arithmetic)", "why_tests_cant": "For all random streams of a rejection sampler.", "anchors": [{"file": "pymcmcstat/procedures/ErrorVarianceEstimator.py", "symbols": ["ErrorVarianceEstimator.gammar", "ErrorVarianceEstimator._gammar_mt1", "ErrorVarianceEstimator.update_error_variance"]}]}
{"id": "C24", "title": "The gamma sampler's quick accept test never changes the distribution", "statement": "The quick test u < 1-0.0331x^4 in the gamma sampler only accepts points that the exact logarithmic test would accept as well; a value the gamma sampler returns is the one the exact test alone would give, for every positive shape.", "quantifier": "for all shapes a>=1, all x with 1+cx>0 and all u in (0,1)", "why_tests_cant": "Real inequality over a three-parameter region.", "anchors": [{"file": "pymcmcstat/procedures/ErrorVarianceEstimator.py", "symbols": ["ErrorVarianceEstimator._gammar_mt1"]}]}
{"id": "C25", "title": "Error-variance settings have one entry per sum-of-squares element", "statement": "After a run has been set up sigma2, S20 and N0 have as many entries as the sum-of-squares function returns, N can be indexed by each of them, and settings of any other length were refused.", "quantifier": "for all lengths and values of the settings and of the sum-of-squares output", "why_tests_cant": "All combinations of lengths.", "anchors": [{"file": "pymcmcstat/settings/ModelSettings.py", "symbols": ["ModelSettings._check_dependent_model_settings_wrt_nsos", "ModelSettings.__check_size_of_setting_wrt_nsos", "ModelSettings.__check_size_of_observations_wrt_nsos"]}]}
{"id": "C26", "title": "Default error variance", "statement": "If the user gives S20 but no sigma2, the initial error variance is S20; if neither is given it is one.", "quantifier": "for all values of S20 and N0", "why_tests_cant": "A guard in the code is constant; only reasoning over all inputs shows the branch is dead.", "anchors": [{"file": "pymcmcstat/settings/ModelSettings.py", "symbols": ["ModelSettings._check_dependent_model_settings"]}]}
{"id": "C27", "title": "Setting up a second run does not change the user's choices", "statement": "Running the same object again, or continuing it, uses the user's updatesigma choice and data description unchanged: with updatesigma=False and no N0 given the error variance is never sampled in any run.", "quantifier": "for all sequences of runs on one object", "why_tests_cant": "Defaults written back by the first run alter the second; only visible over histories.", "anchors": [{"file": "pymcmcstat/MCMC.py", "symbols": ["MCMC._initialize_simulation", "MCMC.__setup_simulator"]}, {"file": "pymcmcstat/settings/SimulationOptions.py", "symbols": ["SimulationOptions._check_dependent_simulation_options"]}, {"file": "pymcmcstat/settings/ModelSettings.py", "symbols": ["ModelSettings._check_dependent_model_settings", "ModelSettings._check_number_of_observations"]}]}
{"id": "C28", "title": "Continuing a run extends the chain without altering it", "statement": "After run_simulation(use_previous_results=True) with nsimu=m on a chain of length n the chain has n+m-1 rows, the first n rows are unchanged, row n is one move away from row n-1, and the same holds for the sum-of-squares chain.", "quantifier": "for all histories of continued runs of a model whose sampled parameters have different names", "why_tests_cant": "Invariant over histories of runs.", "anchors": [{"file": "pymcmcstat/MCMC.py", "symbols": ["MCMC.__expand_chains", "MCMC.__setup_simulator", "MCMC.__execute_simulator"]}, {"file": "pymcmcstat/settings/ModelParameters.py", "symbols": ["ModelParameters._results_to_params"]}]}
{"id": "C29", "title": "Log blocks cover the chain exactly once, in order", "statement": "The row ranges written to the log files during a fresh run are consecutive, start at 0, end at nsimu, and cover every row exactly once; all blocks but the last have savesize rows; each row is final when written.", "quantifier": "for all nsimu >= 2 and savesize", "why_tests_cant": "Counter arithmetic over all pairs of nsimu and savesize.", "anchors": [{"file": "pymcmcstat/MCMC.py", "symbols": ["MCMC.__execute_simulator", "MCMC.__save_to_log_file", "MCMC.__save_chains"]}]}
{"id": "C30", "title": "A text log reads back as the chain", "statement": "Reading the text log of a completed fresh run gives the chain, the sum-of-squares chain and the error-variance chain, row for row.", "quantifier": "for all chains, nsimu and savesize", "why_tests_cant": "Round trip over all block structures.", "anchors": [{"file": "pymcmcstat/MCMC.py", "symbols": ["MCMC.__save_chains"]}, {"file": "pymcmcstat/chain/ChainProcessing.py", "symbols": ["read_in_txt_file", "_save_to_txt_file"]}]}
{"id": "C31", "title": "A binary log reads back as the chain", "statement": "Reading the binary (HDF5) log of a completed fresh run gives the chain row for row.", "quantifier": "for all chains, nsimu and savesize", "why_tests_cant": "Data sets come back in the lexicographic order of their decimal names; the failing sizes are rarely used in tests.", "anchors": [{"file": "pymcmcstat/MCMC.py", "symbols": ["MCMC.__save_chains"]}, {"file": "pymcmcstat/chain/ChainProcessing.py", "symbols": ["read_in_bin_file", "_save_to_bin_file"]}]}
{"id": "C32", "title": "Log files of a continued run contain the new rows", "statement": "After a continued run the log files contain the continued chain: the rows of the first run followed by the rows of the continuation.", "quantifier": "for all pairs of runs", "why_tests_cant": "Depends on which array object the logger holds after the arrays are replaced.", "anchors": [{"file": "pymcmcstat/MCMC.py", "symbols": ["MCMC.__expand_chains", "MCMC.__initialize_chains", "MCMC.__save_chains"]}]}
{"id": "C33", "title": "Restart from a results file resumes at the saved state", "statement": "A run started with json_restart_file starts at the saved last sample and with the saved proposal covariance for every sampled parameter, whichever subset of parameters is sampled.", "quantifier": "for all parameter lists, subsets of sampled parameters and saved results", "why_tests_cant": "Indexing depends on the subset of sampled parameters.", "anchors": [{"file": "pymcmcstat/MCMC.py", "symbols": ["MCMC.__setup_simulator"]}, {"file": "pymcmcstat/settings/ModelParameters.py", "symbols": ["ModelParameters._results_to_params"]}, {"file": "pymcmcstat/procedures/CovarianceProcedures.py", "symbols": ["CovarianceProcedures.__setup_R_based_on_covariance_matrix"]}, {"file": "pymcmcstat/structures/ResultsStructure.py", "symbols": ["ResultsStructure.add_basic"]}]}
{"id": "C34", "title": "Data sets are counted correctly", "statement": "For every sequence of add_data_set calls the stored lists (x, y, n, shape, weight, user objects) have one entry per call, and n is the number of observations in that set, whether y was given as array or list and whether or not n was given; get_number_of_data_sets is the total number of columns.", "quantifier": "for all sequences of calls and shapes of the input", "why_tests_cant": "History of calls with all input kinds.", "anchors": [{"file": "pymcmcstat/settings/DataStructure.py", "symbols": ["DataStructure.add_data_set", "DataStructure._convert_to_numpy_array", "DataStructure._convert_numpy_array_to_2d"]}]}
{"id": "C35", "title": "Parallel chains start inside the limits", "statement": "Every generated initial value of every parallel chain lies within the user's limits, also when a limit is infinite; the number of rows equals the number of chains; user-supplied initial values are accepted exactly when they lie within the user's limits.", "quantifier": "for all limits, initial values, uniform draws and chain counts", "why_tests_cant": "Quantifies over all draws and limits.", "anchors": [{"file": "pymcmcstat/ParallelMCMC.py", "symbols": ["get_parameter_features", "generate_initial_values", "check_initial_values", "check_users_initial_values_wrt_limits"]}, {"file": "pymcmcstat/samplers/utilities.py", "symbols": ["is_sample_outside_bounds"]}]}
{"id": "C36", "title": "Parallel chains are loaded in the order they were numbered", "statement": "Loading a parallel run gives the chains in the order of their numbers: entry i is the chain stored in folder chain_i.", "quantifier": "for all numbers of chains", "why_tests_cant": "Folder names are sorted as strings; tests use few chains.", "anchors": [{"file": "pymcmcstat/chain/ChainProcessing.py", "symbols": ["check_parallel_directory_contents", "read_in_parallel_json_results_files", "read_in_parallel_savedir_files", "load_parallel_simulation_results"]}]}
{"id": "C37", "title": "Parallel chains share the fixed parameters", "statement": "In a parallel run without user-supplied initial values a parameter that is not sampled has the user's value in every chain.", "quantifier": "for all parameter lists, limits and random draws", "why_tests_cant": "For all draws.", "anchors": [{"file": "pymcmcstat/ParallelMCMC.py", "symbols": ["ParallelMCMC.setup_parallel_simulation", "get_parameter_features", "generate_initial_values"]}]}
{"id": "C38", "title": "Parallel chains use different random numbers", "statement": "No two chains of one parallel run consume the same random stream.", "quantifier": "for all numbers of chains and workers and all schedules of the worker pool", "why_tests_cant": "Depends on process forking and the scheduling of the pool.", "anchors": [{"file": "pymcmcstat/ParallelMCMC.py", "symbols": ["ParallelMCMC.run_parallel_simulation", "run_serial_simulation"]}, {"file": "pymcmcstat/MCMC.py", "symbols": ["MCMC.__init__"]}]}
{"id": "C39", "title": "Combining chains loses and mislabels nothing", "statement": "The combined chain contains, for each input chain in order, exactly its rows after the burn-in share, the index array has the same length and names the source chain of every row, and the list form contains the same rows.", "quantifier": "for all lists of chains and burn-in percentages", "why_tests_cant": "All lists of chains of all lengths.", "anchors": [{"file": "pymcmcstat/chain/ChainProcessing.py", "symbols": ["generate_combined_chain_with_index", "generate_chain_list"]}]}
{"id": "C40", "title": "Empirical quantiles are order statistics interpolations", "statement": "The quantile function returns values between minimum and maximum of the sample, is non-decreasing in the probability, gives minimum at 0 and maximum at 1, does not depend on the order of the sample and commutes with increasing affine maps.", "quantifier": "for all samples of at least two values and all probabilities in [0,1]", "why_tests_cant": "All samples and probabilities.", "anchors": [{"file": "pymcmcstat/plotting/utilities.py", "symbols": ["empirical_quantiles"]}, {"file": "pymcmcstat/propagation.py", "symbols": ["generate_quantiles"]}, {"file": "pymcmcstat/plotting/PredictionIntervals.py", "symbols": ["PredictionIntervals._generate_quantiles"]}]}
{"id": "C41", "title": "Wider limits give wider intervals", "statement": "For interval limits l1 >= l2 the interval computed for l1 contains the interval computed for l2, and each contains the median, at every output point.", "quantifier": "for all samples and limits between 0 and 100", "why_tests_cant": "All samples.", "anchors": [{"file": "pymcmcstat/propagation.py", "symbols": ["generate_quantiles", "_convert_limits", "_check_limits"]}]}
{"id": "C42", "title": "Propagation evaluates the model at the drawn rows", "statement": "calculate_intervals evaluates the model at the chain rows drawn at random from the chain.", "quantifier": "for all chains, sample sizes and draws", "why_tests_cant": "The drawn rows are random in tests and the mistake is invisible in shapes.", "anchors": [{"file": "pymcmcstat/propagation.py", "symbols": ["calculate_intervals", "define_sample_points"]}]}
{"id": "C43", "title": "Post-processing does not modify the results", "statement": "Computing credible and prediction intervals leaves the results dictionary unchanged.", "quantifier": "for all chains and parameter layouts", "why_tests_cant": "Aliasing is visible only as a side effect on another object.", "anchors": [{"file": "pymcmcstat/propagation.py", "symbols": ["calculate_intervals"]}, {"file": "pymcmcstat/plotting/PredictionIntervals.py", "symbols": ["PredictionIntervals._calc_credible_ii", "PredictionIntervals._calc_credible_and_prediction_ii"]}]}
{"id": "C44", "title": "Error-variance columns are assigned to outputs consistently", "statement": "The assignment of error-variance columns to data batches gives every batch a range of valid columns, the ranges are consecutive and disjoint when there is one column per output, and inconsistent sizes are refused. In the propagation functions a number or one row of variances is the variance of every row of the chain.", "quantifier": "for all numbers of batches, outputs and columns", "why_tests_cant": "All size combinations.", "anchors": [{"file": "pymcmcstat/plotting/PredictionIntervals.py", "symbols": ["PredictionIntervals._analyze_s2chain", "PredictionIntervals._setup_counting_metrics"]}, {"file": "pymcmcstat/propagation.py", "symbols": ["check_s2chain"]}]}
{"id": "C45", "title": "The requested error model is used", "statement": "Prediction intervals use the observation-error type the user passed.", "quantifier": "for all values of the argument", "why_tests_cant": "The argument is silently replaced.", "anchors": [{"file": "pymcmcstat/plotting/PredictionIntervals.py", "symbols": ["PredictionIntervals._setup_sstype", "PredictionIntervals._observation_sample"]}]}
{"id": "C46", "title": "Interval bands cover what their label says", "statement": "Each credible band drawn has the nominal probability in its label and bands are nested and symmetric about the median.", "quantifier": "for all settings of the interval limits the class uses", "why_tests_cant": "Relates label text and numeric limits.", "anchors": [{"file": "pymcmcstat/plotting/PredictionIntervals.py", "symbols": ["PredictionIntervals._setup_interval_limits", "PredictionIntervals._setup_labels"]}]}
{"id": "C47", "title": "Subsampling for plots respects the maximum", "statement": "The rows selected for plotting are valid, increasing, equally spaced, start at row 0, and are at most maxpoints.", "quantifier": "for all chain lengths and maxima", "why_tests_cant": "All pairs of sizes.", "anchors": [{"file": "pymcmcstat/plotting/utilities.py", "symbols": ["setup_subsample"]}]}
{"id": "C48", "title": "Subplot grid has room for every parameter", "statement": "The grid chosen for n panels has at least n cells and never a completely empty row or column beyond need.", "quantifier": "for all n", "why_tests_cant": "All n with floating square root.", "anchors": [{"file": "pymcmcstat/plotting/utilities.py", "symbols": ["generate_subplot_grid"]}]}
{"id": "C49", "title": "User settings override defaults and nothing else changes", "statement": "Merging user settings into defaults gives the user's value wherever the user set one (recursively in nested dictionaries), the default elsewhere, adds unknown user keys, and is idempotent.", "quantifier": "for all nested dictionaries", "why_tests_cant": "All tree-shaped inputs.", "anchors": [{"file": "pymcmcstat/utilities/general.py", "symbols": ["check_settings"]}, {"file": "pymcmcstat/plotting/utilities.py", "symbols": ["check_settings"]}]}
{"id": "C50", "title": "Light results drop exactly the chains", "statement": "The light results dictionary contains exactly the entries of the full one except chain, s2chain and sschain, all with the same values, and the full one is left unchanged.", "quantifier": "for all dictionaries", "why_tests_cant": "All dictionaries.", "anchors": [{"file": "pymcmcstat/structures/ResultsStructure.py", "symbols": ["lighten_results", "ResultsStructure.export_lightly"]}, {"file": "pymcmcstat/utilities/general.py", "symbols": ["removekey"]}]}
{"id": "C51", "title": "Gelman-Rubin diagnostic", "statement": "For chains with positive within-chain variance the scale reduction factor is invariant under permuting the chains and under shifting and scaling the parameter, is at least sqrt((n-1)/n), equals it exactly when all chain means agree, and the effective sample number never exceeds m*n.", "quantifier": "for all numbers of chains, lengths and values", "why_tests_cant": "All reals.", "anchors": [{"file": "pymcmcstat/chain/ChainStatistics.py", "symbols": ["calculate_psrf", "gelman_rubin"]}]}
{"id": "C52", "title": "Integrated autocorrelation time", "statement": "For every non-constant parameter chain the reported window is the smallest w with 3*tau(w) < w, it lies within the chain, and the reported time is tau(w), one plus twice the sum of the circular autocorrelations of the centred column up to the window; for a constant chain it is zero.", "quantifier": "for all chains of length at least two", "why_tests_cant": "Termination for all real sequences relies on a Fourier identity.", "anchors": [{"file": "pymcmcstat/chain/ChainStatistics.py", "symbols": ["integrated_autocorrelation_time"]}]}
{"id": "C53", "title": "Geweke windows are disjoint", "statement": "The two chain windows compared by the Geweke diagnostic never overlap, and fractions with disjoint windows are accepted.", "quantifier": "for all fractions and lengths", "why_tests_cant": "All fractions.", "anchors": [{"file": "pymcmcstat/chain/ChainStatistics.py", "symbols": ["geweke"]}]}
{"id": "C54", "title": "Batch means use disjoint batches inside the chain", "statement": "The batch-mean estimate partitions an initial part of the chain into consecutive batches of equal size, leaves out fewer rows than one batch, and refuses chains with fewer than two batches.", "quantifier": "for all chain lengths and batch sizes", "why_tests_cant": "All sizes.", "anchors": [{"file": "pymcmcstat/chain/ChainStatistics.py", "symbols": ["batch_mean_standard_deviation"]}]}
{"id": "C55", "title": "Ellipse points lie on the covariance contour", "statement": "Every point of the generated ellipse has Mahalanobis distance one from its centre under the given covariance; asymmetric or non-positive-definite matrices are refused.", "quantifier": "for all centres and covariance matrices", "why_tests_cant": "All matrices.", "anchors": [{"file": "pymcmcstat/plotting/utilities.py", "symbols": ["generate_ellipse", "check_symmetric", "is_semi_pos_def_chol"]}]}
{"id": "C56", "title": "Interquartile range does not depend on sample order", "statement": "The interquartile range is non-negative and the same for every ordering of the sample.", "quantifier": "for all samples and permutations", "why_tests_cant": "All permutations.", "anchors": [{"file": "pymcmcstat/plotting/utilities.py", "symbols": ["iqrange", "scale_bandwidth"]}]}
{"id": "C57", "title": "Every plotted parameter has a name", "statement": "Name completion returns at least one name per parameter, keeps the user's names as prefix, and default names are pairwise different: parameter k without a name is called $p_{k}$.", "quantifier": "for all name lists and counts", "why_tests_cant": "All lists.", "anchors": [{"file": "pymcmcstat/plotting/utilities.py", "symbols": ["generate_names", "generate_default_names", "extend_names_to_match_nparam"]}]}
{"id": "C58", "title": "Default prior", "statement": "The default prior penalty is the sum of squared standardized deviations over the parameters with finite prior standard deviation; it is non-negative, zero at the prior mean, and parameters with infinite or non-positive prior standard deviation contribute nothing.", "quantifier": "for all parameters, means and standard deviations", "why_tests_cant": "All real and infinite values.", "anchors": [{"file": "pymcmcstat/procedures/PriorFunction.py", "symbols": ["PriorFunction.default_priorfun"]}, {"file": "pymcmcstat/settings/ModelParameters.py", "symbols": ["ModelParameters._check_prior_sigma", "ModelParameters.setup_prior_sigma"]}]}
{"id": "C59", "title": "Default sum-of-squares", "statement": "With a model function and no sum-of-squares function, entry i is the weighted sum of squared residuals of batch i; with non-negative weights it is non-negative, and it is zero exactly when the model reproduces every positively weighted observation. A column of predictions of another length than the observations raises ValueError; a single prediction is compared with every observation.", "quantifier": "for all data, weights and model functions", "why_tests_cant": "All data.", "anchors": [{"file": "pymcmcstat/procedures/SumOfSquares.py", "symbols": ["SumOfSquares.mcmc_sos_function"]}]}
{"id": "C60", "title": "Random sample indices are valid rows", "statement": "Every sample index drawn for propagation refers to an existing chain row, and each row is selected for a set of uniform draws of equal length.", "quantifier": "for all uniform draws in [0,1) and chain lengths", "why_tests_cant": "Boundary draw zero has probability zero in tests.", "anchors": [{"file": "pymcmcstat/propagation.py", "symbols": ["define_sample_points"]}, {"file": "pymcmcstat/plotting/PredictionIntervals.py", "symbols": ["PredictionIntervals._define_sample_points"]}]}
{"id": "C61", "title": "Method defaults", "statement": "define_simulation_options gives every method its documented defaults, never adapts for mh and dr whatever the user asks, keeps user values otherwise, and the dependent checks leave savesize between 1 and nsimu and are idempotent.", "quantifier": "for all option values", "why_tests_cant": "All option combinations.", "anchors": [{"file": "pymcmcstat/settings/SimulationOptions.py", "symbols": ["SimulationOptions.define_simulation_options", "SimulationOptions._check_dependent_simulation_options", "check_lightly_save"]}]}
{"id": "C62", "title": "Progress bar has constant width", "statement": "The progress bar text has the same width at every iteration of a run, and the last iteration is always shown. The line reads [bar] i of iterations complete in t sec; the bar carries the percentage, rounded down, in its middle, and its other positions show a dash exactly when the share of the iterations they stand for has been completed.", "quantifier": "for all iteration counts and positions", "why_tests_cant": "All iterations.", "anchors": [{"file": "pymcmcstat/utilities/progressbar.py", "symbols": ["progress_bar", "TextProgressBar"]}]}
{"id": "C63", "title": "A run of any requested length completes", "statement": "run_simulation with valid settings and nsimu >= 1 completes without an error that does not come from the user's functions.", "quantifier": "for all nsimu >= 1 and valid option sets", "why_tests_cant": "Boundary of the loop.", "anchors": [{"file": "pymcmcstat/MCMC.py", "symbols": ["MCMC.__execute_simulator"]}]}
{"id": "C64", "title": "A run that has been set up returns", "statement": "run_simulation, from scratch or continued, with nsimu >= 2, at least one sampled parameter, at least one data set and a sum-of-squares function that returns everywhere either returns results or raises LinAlgError because an adapted factor of a delayed-rejection run is not invertible. No IndexError, TypeError, AttributeError, UnboundLocalError or ZeroDivisionError is raised from the main loop.", "quantifier": "for all options (delayed rejection requested in the supported way), data, draws and user functions that return", "why_tests_cant": "Absence of errors over all option combinations and run lengths.", "anchors": [{"file": "pymcmcstat/MCMC.py", "symbols": ["MCMC.run_simulation", "MCMC.__execute_simulator"]}, {"file": "pymcmcstat/samplers/Adaptation.py", "symbols": ["Adaptation.run_adaptation"]}]}
{"id": "C65", "title": "A run in exact arithmetic always returns", "statement": "With exact linear algebra, finite normal draws, a finite initial point, a positive definite initial covariance and finite non-zero scales, a run from scratch or continued with nsimu >= 2 (with or without delayed rejection, adaptation and burn-in, not RAM) returns results; every chain row is finite and the proposal factor after every adaptation is finite and invertible.", "quantifier": "for all run lengths, draws, sum-of-squares functions that return, option values as described", "why_tests_cant": "That no adaptation ever yields a singular factor is an invariant of all runs.", "anchors": [{"file": "pymcmcstat/MCMC.py", "symbols": ["MCMC.run_simulation", "MCMC.__execute_simulator"]}, {"file": "pymcmcstat/samplers/Adaptation.py", "symbols": ["Adaptation.run_adaptation", "update_delayed_rejection"]}]}
{"id": "C66", "title": "Every saved parallel run can be loaded", "statement": "load_parallel_simulation_results returns one results entry per chain, holding that chain's saved samples, whichever output formats (log files, json file or both) were chosen for the run.", "quantifier": "for all numbers of chains, saved contents and choices of output format", "why_tests_cant": "Every combination of output formats and number of chains.", "anchors": [{"file": "pymcmcstat/ParallelMCMC.py", "symbols": ["load_parallel_simulation_results"]}, {"file": "pymcmcstat/chain/ChainProcessing.py", "symbols": ["load_parallel_simulation_results", "read_in_parallel_json_results_files"]}]}
{"id": "C67", "title": "Chain statistics exist for every chain", "statement": "chainstats returns the mean, standard deviation, Monte Carlo error, autocorrelation time and Geweke statistic of every parameter for every chain with at least two rows.", "quantifier": "for all chains with at least two rows", "why_tests_cant": "The admissible chain lengths depend on two nested batch computations; tests use long chains.", "anchors": [{"file": "pymcmcstat/chain/ChainStatistics.py", "symbols": ["chainstats", "batch_mean_standard_deviation", "geweke", "spectral_estimate_for_variance"]}]}
{"id": "C68", "title": "Geweke diagnostic does not depend on unit and origin", "statement": "Multiplying a parameter chain by a non-zero number or adding a constant to it does not change the two-sided Geweke p-value.", "quantifier": "for all chains, factors and shifts", "why_tests_cant": "Invariance under all affine maps.", "anchors": [{"file": "pymcmcstat/chain/ChainStatistics.py", "symbols": ["geweke", "spectral_estimate_for_variance", "power_spectral_density_using_hanning_window"]}]}
{"id": "C69", "title": "Adaptation of a continued run uses every row once", "statement": "In a run continued with use_previous_results, each adaptation past the burn-in gives the adapted mean, covariance and weight of the chain rows so far (those of the earlier runs and those of this run), each row counted once.", "quantifier": "for all histories of runs, generators, options without initqcovn and all iterations, over exact finite arithmetic", "why_tests_cant": "The fault needs a continued run with two adaptations and a comparison of moments; tests look at shapes only.", "anchors": [{"file": "pymcmcstat/MCMC.py", "symbols": ["MCMC.__setup_simulator", "MCMC.__execute_simulator", "MCMC.__expand_chains"]}, {"file": "pymcmcstat/samplers/Adaptation.py", "symbols": ["Adaptation.run_adaptation", "update_covariance_mean_sum"]}]}
{"id": "C70", "title": "A completed run can be continued", "statement": "If run_simulation has completed on an object, it can be continued with use_previous_results and any options with which it could have been started afresh; the continuation starts in the last row of the chain.", "quantifier": "for all histories of runs and option changes, all options, any float type", "why_tests_cant": "All pairs of first and second option sets.", "anchors": [{"file": "pymcmcstat/MCMC.py", "symbols": ["MCMC.__setup_simulator", "MCMC._initialize_simulation", "MCMC.__expand_chains"]}, {"file": "pymcmcstat/settings/ModelSettings.py", "symbols": ["ModelSettings._check_dependent_model_settings", "ModelSettings._check_dependent_model_settings_wrt_nsos", "ModelSettings._check_number_of_observations"]}, {"file": "pymcmcstat/settings/SimulationOptions.py", "symbols": ["SimulationOptions._check_dependent_simulation_options"]}, {"file": "pymcmcstat/settings/ModelParameters.py", "symbols": ["ModelParameters._results_to_params"]}]}
{"id": "C71", "title": "The prior stays the user's through all runs", "statement": "In every run of an object, whatever runs, restarts, continuations and option changes came before, the prior function receives as centre the prior mean the user gave (or the user's initial value where none was given), and as width the prior standard deviation the user gave, infinite where it is zero or negative.", "quantifier": "for all histories of an object, parameter tables with initial values that are not NaN, options and random streams, any float type", "why_tests_cant": "A continuation overwrites the stored initial values with the last row; whether the prior follows needs an invariant over all histories.", "anchors": [{"file": "pymcmcstat/settings/ModelParameters.py", "symbols": ["ModelParameters._results_to_params", "ModelParameters._openparameterstructure", "ModelParameters.setup_prior_mu", "ModelParameters.setup_prior_sigma"]}, {"file": "pymcmcstat/procedures/PriorFunction.py", "symbols": ["PriorFunction.evaluate_prior"]}, {"file": "pymcmcstat/MCMC.py", "symbols": ["MCMC._initialize_simulation"]}]}
{"id": "C72", "title": "Every acceptance decision of a run", "statement": "In every run of an object, whatever runs came before, the iteration after row k of the chain proposes that row plus a vector of normal draws times the Cholesky factor which the last adaptation gave (the initial one before any adaptation). The proposal is rejected if it violates a limit. Otherwise it is accepted exactly if the log of the uniform draw is below the difference of the log posterior at the proposal and at row k, taken with the user's sum of squares, the user's prior, and the error variance in force at row k. In exact arithmetic this means: the uniform draw is below the ratio of the two posterior densities.", "quantifier": "for all histories of an object, iterations, user functions, random streams and options, any float type; the density-ratio form over the reals for finite values and positive error variances", "why_tests_cant": "The ingredients (row, sum of squares, prior value, variance, factor) are kept in separate places across iterations, adaptations and restarts; a stale one changes the target distribution silently without breaking any sampled output.", "anchors": [{"file": "pymcmcstat/samplers/Metropolis.py", "symbols": ["Metropolis.run_metropolis_step"]}, {"file": "pymcmcstat/samplers/utilities.py", "symbols": ["log_posterior_ratio_acceptance_test", "calculate_log_posterior_ratio", "sample_candidate_from_gaussian_proposal"]}, {"file": "pymcmcstat/MCMC.py", "symbols": ["MCMC.__execute_simulator", "MCMC.run_simulation"]}, {"file": "pymcmcstat/procedures/PriorFunction.py", "symbols": ["PriorFunction.evaluate_prior"]}]}
{"id": "C73", "title": "Scaling of the proposal during the burn-in", "statement": "Every adaptation before burnintime takes the fraction of rejected moves among the last adaptint iterations. Above 0.95 the proposal factor is divided by burnin_scale, below 0.05 it is multiplied by it, otherwise it is unchanged. The mean, covariance and weight of the chain and the index of the last adaptation stay as they were, so the rows of the burn-in still count in the first adaptation after it.", "quantifier": "for all objects, runs (new and continued), options, user functions and random streams, any float type; thresholds as exact fractions over the reals", "why_tests_cant": "The counter is shared with the total rejection count and reset at every adaptation; a wrong reset or window shows only as a badly scaled proposal.", "anchors": [{"file": "pymcmcstat/samplers/Adaptation.py", "symbols": ["Adaptation.run_adaptation", "below_burnin_threshold"]}, {"file": "pymcmcstat/MCMC.py", "symbols": ["MCMC.__execute_simulator", "MCMC.__update_rejected"]}]}
{"id": "C74", "title": "What the results report", "statement": "Whatever the history of an object, the results of a run report the names and limits of the sampled parameters and all names as the user gave them; as theta the last row of the chain completed with the user's values of the fixed parameters; as R, mean and cov the values of the last adaptation (the initial ones without adaptation), with qcov = R^T R; and the numbers of rejected moves divided by nsimu, with 0 <= outside <= total < 1. In qcovorig the block of the sampled parameters is qcov and all other entries are the user's; a new object that is given qcovorig as initial covariance starts with the covariance at which the earlier run ended.", "quantifier": "for all histories of an object, sets of sampled parameters, options, user functions and random streams, any float type; the bounds of the rates over the reals", "why_tests_cant": "The entries come from five objects that live through different stages of a run; a stale one looks plausible.", "anchors": [{"file": "pymcmcstat/structures/ResultsStructure.py", "symbols": ["ResultsStructure.add_basic"]}, {"file": "pymcmcstat/MCMC.py", "symbols": ["MCMC.__generate_simulation_results"]}, {"file": "pymcmcstat/procedures/CovarianceProcedures.py", "symbols": ["CovarianceProcedures._update_covariance_from_adaptation", "CovarianceProcedures.__setup_R_matrix"]}]}
{"id": "C75", "title": "Acceptance information", "statement": "For the results and the chain of a run from scratch with more than one try, print_chain_acceptance_info prints one percentage per stage; these sum up to the net percentage, which is positive and at most 100; the net count is one more than the number of accepted moves, out of nsimu; the count for the chain is the number of different values of the first parameter, out of nsimu rows, at least 1 and at most the net count.", "quantifier": "for all objects, runs, options, user functions and random streams and all chains without NaN", "why_tests_cant": "The count from the chain is a count of different values, the other one a count of moves; their relation is a statement about all chains.", "anchors": [{"file": "pymcmcstat/chain/ChainStatistics.py", "symbols": ["print_chain_acceptance_info"]}, {"file": "pymcmcstat/structures/ResultsStructure.py", "symbols": ["ResultsStructure.add_dram"]}, {"file": "pymcmcstat/samplers/DelayedRejection.py", "symbols": ["DelayedRejection.run_delayed_rejection"]}]}
{"id": "C76", "title": "Every valid problem runs to the end", "statement": "run_simulation returns a chain of finite rows for every problem as the documentation asks for it: at least two simulations and one sampled parameter, finite initial values within the (possibly infinite) limits, data, a sum-of-squares function that returns a value everywhere, settings of the right length, a positive definite proposal covariance or none, delayed rejection only with the methods for it. In particular with nothing but the number of simulations and one of the methods mh, am, dr, dram given.", "quantifier": "for all such problems, random streams with finite normal draws and chain lengths, in exact arithmetic with exact linear algebra; with error-variance sampling except for runs in which the rejection loop of the gamma generator exceeds the bound of the model", "why_tests_cant": "Tests run a few problems; any exception that needs an unusual combination of parameters, limits, adaptation outcome and options stays unseen.", "anchors": [{"file": "pymcmcstat/MCMC.py", "symbols": ["MCMC.run_simulation", "MCMC.__setup_simulator", "MCMC._initialize_simulation", "MCMC.__execute_simulator"]}, {"file": "pymcmcstat/procedures/CovarianceProcedures.py", "symbols": ["CovarianceProcedures._initialize_covariance_settings", "CovarianceProcedures.setup_covariance_matrix"]}, {"file": "pymcmcstat/settings/ModelSettings.py", "symbols": ["ModelSettings._check_dependent_model_settings_wrt_nsos"]}, {"file": "pymcmcstat/settings/SimulationOptions.py", "symbols": ["SimulationOptions.define_simulation_options"]}]}
{"id": "C77", "title": "Problems that do not fit are refused before the model is called", "statement": "If the limits of a sampled parameter are not in order or its initial value is not between them, run_simulation exits with a message and never calls the model, the prior or the random generator; the same, with a ValueError, for a parameter that is local but not sampled when there is more than one batch. Conversely every problem that was run had limits in order around its initial values and settings of the right lengths.", "quantifier": "for all parameter tables, settings, data sizes, user functions, random streams and linear algebra routines, any float type", "why_tests_cant": "That a function is never called, and that nothing unfit passes, are statements about all inputs; the unhandled one (NaN) does not come to mind when tests are written.", "anchors": [{"file": "pymcmcstat/settings/ModelParameters.py", "symbols": ["ModelParameters._check_parameter_limits", "ModelParameters._check_initial_values_wrt_parameter_limits", "ModelParameters.scan_for_local_variables"]}, {"file": "pymcmcstat/MCMC.py", "symbols": ["MCMC._initialize_simulation"]}, {"file": "pymcmcstat/settings/ModelSettings.py", "symbols": ["ModelSettings.__check_size_of_setting_wrt_nsos"]}]}
{"id": "C78", "title": "Every stage of delayed rejection", "statement": "Whatever the history of an object, in every iteration of a run stage k proposes the current row plus a normal draw times the factor of stage k, the factors being those the last adaptation before the iteration left; a proposal outside the limits is rejected without a uniform draw; no stage follows an accepted one and at most ntry are made. In exact arithmetic stage k is accepted exactly if the proposal is inside the limits and the uniform draw is below the delayed-rejection acceptance probability of the literature for the path of all proposals so far, with the posterior density of the user's function and prior and the Gaussian proposals whose factors are the first-stage factor divided by the product of the scale factors.", "quantifier": "for all histories of an object, numbers of stages, options, user functions and random streams, any float type; the acceptance probability in exact arithmetic for all histories too, continued runs included", "why_tests_cant": "A wrong factor, order of the path or density in a later stage changes the target distribution slightly and nothing else; no output of a run shows it.", "anchors": [{"file": "pymcmcstat/samplers/DelayedRejection.py", "symbols": ["DelayedRejection.run_delayed_rejection", "DelayedRejection.alphafun", "DelayedRejection.initialize_next_metropolis_step"]}, {"file": "pymcmcstat/samplers/Metropolis.py", "symbols": ["Metropolis.run_metropolis_step"]}, {"file": "pymcmcstat/samplers/utilities.py", "symbols": ["sample_candidate_from_gaussian_proposal"]}, {"file": "pymcmcstat/samplers/Adaptation.py", "symbols": ["update_delayed_rejection"]}, {"file": "pymcmcstat/MCMC.py", "symbols": ["MCMC.__execute_simulator"]}]}
{"id": "C79", "title": "Random numbers are drawn one after the other", "statement": "The first iteration starts from the state of the random generator that the run was given; within an iteration every draw starts from the state the draw before left; the next iteration starts from the state its predecessor left or, if the error variance is sampled, from the state that the draws of the new error variances left, which start where the proposals ended and use the sums of squares of the new row.", "quantifier": "for all histories of an object, options, user functions and random generators, any float type", "why_tests_cant": "Reusing a draw correlates proposal and acceptance; the samples look random all the same.", "anchors": [{"file": "pymcmcstat/MCMC.py", "symbols": ["MCMC.__execute_simulator", "MCMC.run_simulation"]}, {"file": "pymcmcstat/samplers/Metropolis.py", "symbols": ["Metropolis.run_metropolis_step"]}, {"file": "pymcmcstat/samplers/DelayedRejection.py", "symbols": ["DelayedRejection.run_delayed_rejection"]}, {"file": "pymcmcstat/procedures/ErrorVarianceEstimator.py", "symbols": ["ErrorVarianceEstimator.update_error_variance"]}]}
{"id": "C80", "title": "Credible and prediction intervals of every data set", "statement": "After setup_prediction_interval_calculation and generate_prediction_intervals, the credible intervals of data set ii, output column jj are the quantiles of column jj of the responses of the model function for that data set to the sampled rows of the chain after the burn-in; the prediction intervals are the quantiles of the same responses with an error term, whose variance is taken from the same row of the error-variance chain and from the column that belongs to that data set and output column. Prediction intervals are computed exactly if there are error variances and the flag is not off. Limits grow with the level; without error variance both intervals agree; with square-root errors no prediction limit is negative; and no exception occurs when two rows and two samples are available and the shapes fit.", "quantifier": "for all chains, error-variance chains, burn-in lengths, numbers of data sets and shapes, model functions, sample sizes and draws, in exact arithmetic with arbitrary square root and exponential functions", "why_tests_cant": "The rows of two chains, the columns of one of them, the data sets and the model functions are matched by position in three nested loops; a test with one data set and one column cannot see a mismatch.", "anchors": [{"file": "pymcmcstat/plotting/PredictionIntervals.py", "symbols": ["PredictionIntervals.setup_prediction_interval_calculation", "PredictionIntervals.generate_prediction_intervals", "PredictionIntervals._calculate_ci_and_pi_for_data_sets", "PredictionIntervals._calc_credible_and_prediction_ii", "PredictionIntervals._observation_sample", "PredictionIntervals._generate_quantiles", "PredictionIntervals._determine_shape_of_response"]}, {"file": "pymcmcstat/plotting/utilities.py", "symbols": ["set_local_parameters", "convert_flag_to_boolean", "empirical_quantiles"]}]}
{"id": "C81", "title": "Local parameters", "statement": "The model function for a data set receives, when intervals are generated, the parameters common to all data sets and the local parameters of that data set.", "quantifier": "for all parameter tables and numbers of batches and all parameter vectors", "why_tests_cant": "The numbering of the marks and of the data sets start at different values in two modules that no test uses together.", "anchors": [{"file": "pymcmcstat/settings/ModelParameters.py", "symbols": ["ModelParameters._openparameterstructure", "ModelParameters.scan_for_local_variables"]}, {"file": "pymcmcstat/plotting/utilities.py", "symbols": ["set_local_parameters"]}, {"file": "pymcmcstat/plotting/PredictionIntervals.py", "symbols": ["PredictionIntervals._setup_interval_ii"]}]}
{"id": "C82", "title": "The posterior is kept", "statement": "Take a problem with fixed error variances, a given proposal covariance and no adaptation (methods mh and dr). If the initial values are distributed as the posterior density exp(-SS/(2 sigma2) - prior/2) within the limits, and the random generator is ideal, then every row of the chain run_simulation returns is distributed as the posterior, and the chain is stationary: rows j..j+k have the joint distribution of rows 0..k.", "quantifier": "for all dimensions, limits, measurable sum-of-squares and prior functions, covariances, numbers of stages of delayed rejection and chain lengths; exact arithmetic and an ideal random generator", "why_tests_cant": "It is what the package is for, and a statement about a probability distribution; a test can only compare histograms.", "anchors": [{"file": "pymcmcstat/MCMC.py", "symbols": ["MCMC.run_simulation", "MCMC.__execute_simulator"]}, {"file": "pymcmcstat/samplers/Metropolis.py", "symbols": ["Metropolis.run_metropolis_step"]}, {"file": "pymcmcstat/samplers/utilities.py", "symbols": ["calculate_log_posterior_ratio", "log_posterior_ratio_acceptance_test", "sample_candidate_from_gaussian_proposal", "is_sample_outside_bounds"]}, {"file": "pymcmcstat/samplers/DelayedRejection.py", "symbols": ["DelayedRejection.run_delayed_rejection", "DelayedRejection.alphafun"]}, {"file": "pymcmcstat/procedures/CovarianceProcedures.py", "symbols": ["CovarianceProcedures.__setup_R_matrix", "CovarianceProcedures.__setup_RDR_matrix"]}]}
{"id": "C83", "title": "The law of the gamma numbers and of the error variances", "statement": "With an ideal random generator gammar(1, 1, a, b) for positive a and b returns with probability one, and the number returned has the gamma distribution of shape a and scale b, for shapes below and above one; later random numbers are independent of it. One call of update_error_variance returns with probability one; the reciprocals of the new variances are independent, the one of data set j having the gamma distribution of shape (N0+N)/2 and rate (N0*S20+SS)/2, provided S20 is not the same array as sigma2.", "quantifier": "for all shapes, scales, numbers of data sets and observations, sums of squares, and all ideal random generators; exact arithmetic", "why_tests_cant": "A rejection method has an exact law only if the proposal, both tests and the transformation fit together; a test can only compare histograms, and a small error in a constant does not show.", "anchors": [{"file": "pymcmcstat/procedures/ErrorVarianceEstimator.py", "symbols": ["ErrorVarianceEstimator.gammar", "ErrorVarianceEstimator._gammar_mt1", "ErrorVarianceEstimator.update_error_variance"]}]}
{"id": "C84", "title": "The joint posterior of parameters and error variances is kept", "statement": "Take a problem with sampled error variances (updatesigma, or N0 given), a given proposal covariance and no adaptation (methods mh and dr). If initial values and initial variances are distributed as the joint posterior (likelihood of N normal observations per data set, prior exp(-prior/2) within the limits, scaled inverse chi-squared prior with N0 and S20 for every variance) and the random generator is ideal, then every pair of rows of chain and s2chain that run_simulation returns is distributed as the joint posterior, and the pairs are stationary. From every start the run returns with probability one.", "quantifier": "for all dimensions, numbers of data sets, limits, measurable sum-of-squares and prior functions, covariances, numbers of stages of delayed rejection, prior settings (given or default) and chain lengths; exact arithmetic and an ideal random generator; S20 stored apart from sigma2", "why_tests_cant": "A Gibbs step is right only if each of the two updates uses the newest value of the other; a stale sum of squares or variance biases both chains without any visible sign.", "anchors": [{"file": "pymcmcstat/MCMC.py", "symbols": ["MCMC.run_simulation", "MCMC.__execute_simulator"]}, {"file": "pymcmcstat/samplers/Metropolis.py", "symbols": ["Metropolis.run_metropolis_step"]}, {"file": "pymcmcstat/samplers/DelayedRejection.py", "symbols": ["DelayedRejection.run_delayed_rejection"]}, {"file": "pymcmcstat/procedures/ErrorVarianceEstimator.py", "symbols": ["ErrorVarianceEstimator.update_error_variance", "ErrorVarianceEstimator.gammar"]}, {"file": "pymcmcstat/settings/ModelSettings.py", "symbols": ["ModelSettings._check_dependent_model_settings", "ModelSettings._check_dependent_model_settings_wrt_nsos"]}, {"file": "pymcmcstat/settings/SimulationOptions.py", "symbols": ["SimulationOptions._check_dependent_simulation_options"]}]}
{"id": "C85", "title": "The chain converges to the posterior from every start", "statement": "Take a problem as in C82 (fixed error variances, given proposal covariance, no adaptation) with finite limits for every sampled parameter and a bounded posterior density. There is a number epsilon > 0, the same for all run lengths and starts, such that for every event the probability that row j of the chain of run_simulation lies in it differs from its posterior probability by at most (1-epsilon)^j. So the start is forgotten at a geometric rate and the chain has no other limit than the posterior.", "quantifier": "for all dimensions, limits, measurable sum-of-squares and prior functions with bounded density, covariances, numbers of stages, run lengths, starts within the limits and measurable events; exact arithmetic and an ideal random generator", "why_tests_cant": "Convergence in law is a statement about the distribution of all runs and about arbitrarily late rows; finite output cannot show it.", "anchors": [{"file": "pymcmcstat/MCMC.py", "symbols": ["MCMC.run_simulation", "MCMC.__execute_simulator"]}, {"file": "pymcmcstat/samplers/Metropolis.py", "symbols": ["Metropolis.run_metropolis_step"]}, {"file": "pymcmcstat/samplers/utilities.py", "symbols": ["calculate_log_posterior_ratio", "log_posterior_ratio_acceptance_test", "sample_candidate_from_gaussian_proposal", "is_sample_outside_bounds"]}, {"file": "pymcmcstat/samplers/DelayedRejection.py", "symbols": ["DelayedRejection.run_delayed_rejection", "DelayedRejection.alphafun"]}]}
{"id": "C86", "title": "Averages over the chain estimate posterior means", "statement": "For the problems of C85 there is epsilon > 0 such that for every run length k, every start and every function f bounded by c within the limits the average of f over the k rows of the chain is within eta of the posterior mean of f with probability at least 1 - 8 c^2/(epsilon k eta^2). So chain means, variances and frequencies estimate those of the posterior, with an error that vanishes as nsimu grows.", "quantifier": "for all problems as in C85, all bounded measurable functions, run lengths, starts and error bounds; exact arithmetic and an ideal random generator", "why_tests_cant": "The law of large numbers for the chain speaks about probabilities over all runs and about all lengths; a test sees one average.", "anchors": [{"file": "pymcmcstat/MCMC.py", "symbols": ["MCMC.run_simulation", "MCMC.__execute_simulator"]}, {"file": "pymcmcstat/samplers/Metropolis.py", "symbols": ["Metropolis.run_metropolis_step"]}, {"file": "pymcmcstat/samplers/DelayedRejection.py", "symbols": ["DelayedRejection.run_delayed_rejection"]}, {"file": "pymcmcstat/structures/ResultsStructure.py", "symbols": ["ResultsStructure.add_chain"]}]}
{"id": "C87", "title": "Values and error variances converge to the joint posterior from every start", "statement": "Take a problem as in C84 (sampled error variances, given proposal covariance, no adaptation) with finite limits, sums of squares and prior bounded within the limits, and rates N0*S20+SS bounded away from zero. There is epsilon > 0, the same for all run lengths and starts, such that for every event the probability that the pair of row j of chain and row j of s2chain lies in it differs from the joint posterior probability by at most (1-epsilon)^(j//2).", "quantifier": "for all dimensions, numbers of data sets, limits, bounded measurable sum-of-squares and prior functions, prior settings of the variances, covariances, numbers of stages, run lengths, starts and measurable events; exact arithmetic and an ideal random generator", "why_tests_cant": "Convergence in law of both chains together is a statement about the distribution of all runs and about arbitrarily late rows.", "anchors": [{"file": "pymcmcstat/MCMC.py", "symbols": ["MCMC.run_simulation", "MCMC.__execute_simulator"]}, {"file": "pymcmcstat/samplers/Metropolis.py", "symbols": ["Metropolis.run_metropolis_step"]}, {"file": "pymcmcstat/samplers/DelayedRejection.py", "symbols": ["DelayedRejection.run_delayed_rejection"]}, {"file": "pymcmcstat/procedures/ErrorVarianceEstimator.py", "symbols": ["ErrorVarianceEstimator.update_error_variance", "ErrorVarianceEstimator.gammar"]}]}
{"id": "C88", "title": "Averages over chain and s2chain estimate means of the joint posterior", "statement": "For the problems of C87 there is epsilon > 0 such that for every run length k, every start and every function f of values and variances bounded by c the average of f over the k rows of chain and s2chain is within eta of the mean of f under the joint posterior with probability at least 1 - 16 c^2/(epsilon k eta^2).", "quantifier": "for all problems as in C87, all bounded measurable functions, run lengths, starts and error bounds; exact arithmetic and an ideal random generator", "why_tests_cant": "The law of large numbers for the chains speaks about probabilities over all runs and about all lengths; a test sees one average.", "anchors": [{"file": "pymcmcstat/MCMC.py", "symbols": ["MCMC.run_simulation", "MCMC.__execute_simulator"]}, {"file": "pymcmcstat/samplers/Metropolis.py", "symbols": ["Metropolis.run_metropolis_step"]}, {"file": "pymcmcstat/procedures/ErrorVarianceEstimator.py", "symbols": ["ErrorVarianceEstimator.update_error_variance"]}, {"file": "pymcmcstat/structures/ResultsStructure.py", "symbols": ["ResultsStructure.add_chain", "ResultsStructure.add_s2chain"]}]}
{"id": "C89", "title": "Every subplot shows the parameter it names", "statement": "plot_chain_panel, plot_histogram_panel and plot_density_panel draw one subplot per parameter, the k-th at place k of one grid, from column k of the chain (the selected rows for the chain panel, all rows for the others), labelled with the user's name of parameter k or the default name. plot_pairwise_correlation_panel draws exactly one subplot for every pair i<j, in row j-1 and column i of a square grid, with column i of the chain horizontally and column j vertically, labelled with name j in the first column and name i on the diagonal. The label Iteration stands exactly in the last row of the chain panel.", "quantifier": "for all chains, numbers of parameters, lists of names of any length and numbers of points", "why_tests_cant": "The places, columns and names are computed in separate index expressions; a test of a figure checks that it was created, not which column each panel shows.", "anchors": [{"file": "pymcmcstat/plotting/MCMCPlotting.py", "symbols": ["plot_density_panel", "plot_histogram_panel", "plot_chain_panel", "plot_pairwise_correlation_panel"]}, {"file": "pymcmcstat/plotting/utilities.py", "symbols": ["generate_subplot_grid", "generate_names", "setup_plot_features", "setup_subsample"]}]}
{"id": "C90", "title": "The grid of a density plot covers the sample", "statement": "make_x_grid returns equally spaced points, the first at or below and the last at or above every value of the sample.", "quantifier": "for all samples and numbers of points, in exact arithmetic", "why_tests_cant": "The code chooses between two formulas by the size of the sample; for one of them an outlier must be placed precisely to fall outside.", "anchors": [{"file": "pymcmcstat/plotting/utilities.py", "symbols": ["make_x_grid"]}]}
{"id": "C91", "title": "Normal density and bandwidth", "statement": "gaussian_density_function(x, mu, sigma2) is, for every mu and every positive sigma2, a positive probability density with mean mu and variance sigma2, and raises for other sigma2. scale_bandwidth lies between 0 and the normal reference rule 1.06 s n^(-1/5), is positive if not all values are equal, and does not depend on the order of the values.", "quantifier": "for all means, variances and samples of at least eight values, in exact arithmetic", "why_tests_cant": "That a function integrates to one with given moments is not visible at any finite set of points.", "anchors": [{"file": "pymcmcstat/plotting/utilities.py", "symbols": ["gaussian_density_function", "scale_bandwidth", "iqrange"]}]}
{"id": "C92", "title": "Interval plots show the intervals", "statement": "For every result of calculate_intervals plot_intervals draws the prediction bands, then the credible bands, then the median response, then the observations. There is one band per limit, the wider ones first; the band of limit l lies, over the given times, between the quantiles of the samples that cut off (1-l/100)/2 at both ends, and is labelled l. With addcredible or addprediction set to False it draws the same except the bands of that type.", "quantifier": "for all samples of two or more rows, times, limits between 0 and 100, display settings and observations, in exact arithmetic", "why_tests_cant": "The bands are matched with limits, colours and labels by position after sorting; a test can see that a figure exists.", "anchors": [{"file": "pymcmcstat/propagation.py", "symbols": ["plot_intervals", "_check_limits", "setup_interval_colors", "generate_quantiles"]}]}
{"id": "C93", "title": "Interval plots use the colours the user gave", "statement": "If as many colours as limits are given, the k-th colour is the colour of the interval of the k-th limit. Otherwise the colour of an interval is taken from the colour map at a position in [0,1] that increases strictly with the limit; without a given map the maps of credible and prediction intervals are the default ones. The polygons of plot_3d_intervals have the same colours.", "quantifier": "for all lists of limits and colours and colour maps, in exact arithmetic", "why_tests_cant": "The limits are sorted before they are matched with the colours, so only particular orders show a mismatch.", "anchors": [{"file": "pymcmcstat/propagation.py", "symbols": ["setup_interval_colors", "__setup_cmap_norm", "__setup_default_cmap", "_check_limits"]}]}
{"id": "C94", "title": "Plotting leaves its arguments unchanged", "statement": "The lists of names passed to the chain plots and the lists of limits passed to plot_intervals have the same entries after the call as before.", "quantifier": "for all lists of names and limits", "why_tests_cant": "A change of an argument shows only if the caller uses the list again.", "anchors": [{"file": "pymcmcstat/plotting/MCMCPlotting.py", "symbols": ["plot_density_panel", "plot_histogram_panel", "plot_chain_panel", "plot_pairwise_correlation_panel"]}, {"file": "pymcmcstat/plotting/utilities.py", "symbols": ["generate_names", "extend_names_to_match_nparam"]}, {"file": "pymcmcstat/propagation.py", "symbols": ["plot_intervals", "_check_limits"]}]}
{"id": "C95", "title": "Interval plots show the observations", "statement": "plot_intervals and plot_3d_intervals show the observations exactly if there are some and adddata is not False, each at its own position xdata if given, else at the times. plot_3d_intervals draws for every limit the polygon along the lower quantile and back along the upper one; addcredible and addprediction remove the polygons of that type and nothing else.", "quantifier": "for all observations, positions, times, samples and settings, in exact arithmetic", "why_tests_cant": "It depends on the number of observations relative to the number of times, which examples take to be equal.", "anchors": [{"file": "pymcmcstat/propagation.py", "symbols": ["plot_intervals", "plot_3d_intervals"]}]}
{"id": "C96", "title": "Saved results can be loaded again", "statement": "load_serial_simulation_results of the directory of a run that saved its results returns them: the entries other than the chains as they were, the chains as two-dimensional arrays with the rows of the run, and None for a missing error-variance chain, whether the chains are in the json file or in text or binary log files.", "quantifier": "for all runs, option combinations with save_to_json, file names, and orders in which the directory is listed", "why_tests_cant": "Three file formats, four save options and the contents of the directory combine; a round-trip test fixes one of each.", "anchors": [{"file": "pymcmcstat/chain/ChainProcessing.py", "symbols": ["load_serial_simulation_results", "load_json_object", "read_in_savedir_files"]}, {"file": "pymcmcstat/structures/ResultsStructure.py", "symbols": ["ResultsStructure.export_simulation_results_to_json_file", "ResultsStructure.determine_filename", "ResultsStructure.export_lightly"]}, {"file": "pymcmcstat/MCMC.py", "symbols": ["MCMC.run_simulation"]}]}
{"id": "C97", "title": "The log of the proposal covariance is the history of the proposal covariance", "statement": "A run with log files writes one matrix per block of savesize iterations: the covariance R\u1d40R of the proposal used by the first iteration after the block; the last matrix is results['qcov']. Read back from a text or binary file the matrices are the same, in the order of the run.", "quantifier": "for all completed runs, fresh or continued, all numbers of samples and block sizes", "why_tests_cant": "The factor changes inside the loop while the block counter advances; an off-by-one is invisible unless adaptation and saving interact.", "anchors": [{"file": "pymcmcstat/MCMC.py", "symbols": ["MCMC.__save_to_log_file", "MCMC.__save_covmtx_chain", "MCMC.__execute_simulator"]}, {"file": "pymcmcstat/chain/ChainProcessing.py", "symbols": ["read_in_bin_file", "read_in_txt_file"]}]}
{"id": "C98", "title": "A parallel run continues an earlier one chain by chain", "statement": "A parallel run whose json_restart_file is the directory of an earlier parallel run with save_to_json continues it: chain ii starts at the last row of chain ii of that run, with its proposal covariance and the values of its parameters that are not sampled; a chain without a file there starts at its own initial values. The pool has the number of processes asked for, but not more than the machine has processors.", "quantifier": "for all numbers of chains of both runs, all orders in which the chains of the first run end, all directories and all files already there", "why_tests_cant": "The pairing of chain numbers, directories and files must hold for every number of chains and every interleaving of the processes.", "anchors": [{"file": "pymcmcstat/ParallelMCMC.py", "symbols": ["ParallelMCMC.setup_parallel_simulation", "check_for_restart_file", "assign_number_of_cores"]}, {"file": "pymcmcstat/structures/ResultsStructure.py", "symbols": ["ResultsStructure.export_simulation_results_to_json_file"]}, {"file": "pymcmcstat/MCMC.py", "symbols": ["MCMC.run_simulation"]}]}
{"id": "C99", "title": "Every iteration of an adaptive run is a transition that keeps the posterior", "statement": "In a run with adaptation (methods am and dram; fixed error variances, initqcovn not set, no adaptation during burn-in, exact arithmetic and an ideal generator), each iteration is a transition that leaves the posterior invariant: there is one Markov kernel for each proposal factor, all of them keep the posterior, and given all rows and proposal factors so far the next row of the chain has the law of the kernel of the factor in force. The factors in force are invertible and depend on the past only.", "quantifier": "for all posteriors given by measurable user functions and limits, all numbers of parameters, stages and iterations, all adaptation intervals, all starts within the limits", "why_tests_cant": "It is a statement about conditional distributions over all histories of a run.", "anchors": [{"file": "pymcmcstat/MCMC.py", "symbols": ["MCMC.run_simulation"]}, {"file": "pymcmcstat/samplers/Metropolis.py", "symbols": ["Metropolis.run_metropolis_step"]}, {"file": "pymcmcstat/samplers/DelayedRejection.py", "symbols": ["DelayedRejection.run_delayed_rejection"]}, {"file": "pymcmcstat/samplers/Adaptation.py", "symbols": ["Adaptation.run_adaptation", "check_for_singular_cov_matrix", "update_delayed_rejection"]}]}
{"id": "C100", "title": "Custom samplers are updated once per iteration with what the iteration decided", "statement": "In a run with custom samplers each of them is set up once and then updated exactly once in each of the iterations 1 to nsimu-1, in the order of the list: from the state its last call left, with the decision of that iteration, its number, and the parameter set, sums of squares and error variances that the iteration entered in the chains. The random generator passes from the iteration through the samplers to the next iteration; the run ends with the samplers and the outputs of its last iteration.", "quantifier": "for all lists of custom samplers (any state and output types, using the generator or not), user functions, options, random streams, runs from scratch and continued, any float type", "why_tests_cant": "The one test with a custom sampler only checks that the run ends; order, arguments and number of the calls must be right in all iterations.", "anchors": [{"file": "pymcmcstat/MCMC.py", "symbols": ["MCMC._initialize_simulation", "MCMC.__execute_simulator"]}]}
{"id": "C101", "title": "Proposals and current point are compared given the same output of the custom samplers", "statement": "When the user's sum-of-squares function uses the output of the custom samplers, every iteration computes the sum of squares of its proposals with the outputs of the iteration before, and compares it with the sum of squares of the current point for the same outputs. Every accepted point is within the limits and its row of the sum-of-squares chain is the value of the function there, given the outputs of the iteration before.", "quantifier": "for all lists of custom samplers, user functions, options and random streams, any float type", "why_tests_cant": "A value computed with an old output looks like any other value; no output of a run shows it.", "anchors": [{"file": "pymcmcstat/MCMC.py", "symbols": ["MCMC._initialize_simulation", "MCMC.__execute_simulator"]}, {"file": "pymcmcstat/samplers/Metropolis.py", "symbols": ["Metropolis.run_metropolis_step"]}, {"file": "pymcmcstat/samplers/DelayedRejection.py", "symbols": ["DelayedRejection.run_delayed_rejection"]}, {"file": "pymcmcstat/procedures/SumOfSquares.py", "symbols": ["SumOfSquares.evaluate_sos_function"]}]}
{"id": "C102", "title": "The saved chains of custom samplers are complete", "statement": "For a custom sampler that asks for it and that does not change rows of its arrays after the iteration they belong to, the same ranges of rows are saved as for the main chains, and in the file of each of its arrays the saved blocks make up, in order and without gap or overlap, exactly the first nsimu rows of the array.", "quantifier": "for all samplers, numbers of iterations, save sizes, user functions and random streams, runs from scratch and continued, any float type", "why_tests_cant": "Gaps and overlaps depend on how nsimu, savesize and the position of the sampler fall together.", "anchors": [{"file": "pymcmcstat/MCMC.py", "symbols": ["MCMC.__execute_simulator", "MCMC.__save_to_log_file", "MCMC.__save_chains"]}]}
{"id": "C103", "title": "Custom samplers without effect change nothing", "statement": "If the custom samplers neither draw random numbers nor raise, and the user's sum-of-squares function does not look at what it is given for custom, the run succeeds or fails exactly as without them and returns the same results. With an empty list of custom samplers this is the run all other properties are about.", "quantifier": "for all such samplers, user functions, options, histories and random streams, any float type", "why_tests_cant": "It compares two programs on all inputs.", "anchors": [{"file": "pymcmcstat/MCMC.py", "symbols": ["MCMC.run_simulation", "MCMC.__execute_simulator"]}]}
{"id": "C104", "title": "Asking for output does not change the run", "statement": "The verbosity option only decides what is printed: a run returns the same results, or raises the same exception, whatever its value.", "quantifier": "for all runs, verbosities, options, histories of the object and random streams, any float type", "why_tests_cant": "It compares two programs on all inputs, including those on which one of them raises.", "anchors": [{"file": "pymcmcstat/MCMC.py", "symbols": ["MCMC.run_simulation", "MCMC.display_current_mcmc_settings", "print_rejection_statistics"]}, {"file": "pymcmcstat/samplers/Adaptation.py", "symbols": ["Adaptation.run_adaptation", "below_burnin_threshold", "check_for_singular_cov_matrix", "adjust_cov_matrix"]}, {"file": "pymcmcstat/procedures/CovarianceProcedures.py", "symbols": ["CovarianceProcedures._initialize_covariance_settings", "CovarianceProcedures.display_covariance_settings"]}, {"file": "pymcmcstat/utilities/general.py", "symbols": ["message"]}]}
{"id": "C105", "title": "The printed table of parameters is that of the run", "statement": "With verbosity above 0 a run prints one line per sampled parameter, in their order: its name, the value the run starts from, its limits, the centre and width of the prior used in the run, and a mark (*) if the parameter is not adapted. With verbosity 0 or less there is no table.", "quantifier": "for all parameter structures, runs, restarts and continuations, any float type", "why_tests_cant": "Ties the printed table to the values the run uses, for arbitrary structures and histories.", "anchors": [{"file": "pymcmcstat/settings/ModelParameters.py", "symbols": ["ModelParameters.display_parameter_settings", "noadapt_display_setting", "prior_display_setting"]}, {"file": "pymcmcstat/MCMC.py", "symbols": ["MCMC._initialize_simulation"]}]}
{"id": "C106", "title": "Progress reports come at the right iterations with the right numbers", "statement": "With verbosity 2 or more and a positive print interval the rejection statistics are printed exactly at the multiples of the interval, and never otherwise. The three numbers are percentages between 0 and 100: of moves rejected so far, of moves rejected since the last adaptation before this iteration, and of moves rejected with their last proposal outside the limits. The interval defaults to max(100, min(1000, adaptint)).", "quantifier": "for all runs, print and adaptation intervals, verbosities and random streams", "why_tests_cant": "The counters interact with adaptation over arbitrary run lengths.", "anchors": [{"file": "pymcmcstat/MCMC.py", "symbols": ["MCMC.__execute_simulator", "print_rejection_statistics", "MCMC.__update_rejected"]}, {"file": "pymcmcstat/settings/SimulationOptions.py", "symbols": ["SimulationOptions._check_dependent_simulation_options"]}]}
{"id": "C107", "title": "Messages about adaptations say what happened", "statement": "The messages about adaptations appear adaptation by adaptation: in the burn-in whether the proposal was enlarged, reduced or kept; afterwards 'adjusted covariance matrix' exactly if the new covariance has no Cholesky factor but the shifted one has, 'covariance matrix singular, no adaptation' exactly if neither has and the proposal is unchanged; the percentages in them count the moves since the previous adaptation.", "quantifier": "for all runs, covariances, verbosities and random streams, any float type and any linear algebra routines", "why_tests_cant": "Failures of the factorisation are rare and the messages must agree with what was done at every adaptation.", "anchors": [{"file": "pymcmcstat/samplers/Adaptation.py", "symbols": ["Adaptation.run_adaptation", "below_burnin_threshold", "check_for_singular_cov_matrix", "adjust_cov_matrix"]}, {"file": "pymcmcstat/MCMC.py", "symbols": ["MCMC.__execute_simulator"]}]}
{"id": "C108", "title": "Numbers are shown accurately", "statement": "format_number_to_str returns a text that reads back as a number of the same sign: within 0.005 of the given one, and no number with two decimals is closer, if its size is above 0.01 and below 10000; otherwise within 0.5 percent of it, and no number with three significant digits is closer. Larger numbers never read smaller. The text has at least 9 characters, and exactly 9 for zero and all sizes from 1e-99 up to 9.995e99.", "quantifier": "for all finite numbers (exact rational values), and the special values", "why_tests_cant": "Rounding changes the number of digits at infinitely many places; a test fixes a few numbers.", "anchors": [{"file": "pymcmcstat/utilities/general.py", "symbols": ["format_number_to_str"]}]}
{"id": "C109", "title": "The printed table is that of the returned statistics", "statement": "chainstats prints one line per parameter, in the order of the columns: its name, and readable as numbers as in format_number_to_str its mean, standard deviation, Monte Carlo error, autocorrelation time and Geweke statistic, equal to those in the dictionary it returns.", "quantifier": "for all chains on which the statistics exist, all results structures, with or without names, any float type", "why_tests_cant": "Ties a printed text to the returned values for all shapes of chains and lists of names.", "anchors": [{"file": "pymcmcstat/chain/ChainStatistics.py", "symbols": ["chainstats", "print_chain_statistics", "get_parameter_names"]}, {"file": "pymcmcstat/utilities/general.py", "symbols": ["format_number_to_str"]}, {"file": "pymcmcstat/plotting/utilities.py", "symbols": ["extend_names_to_match_nparam", "generate_default_names"]}]}
{"id": "C110", "title": "Gelman-Rubin diagnostics are filed under the parameter's name", "statement": "For two or more chains of the same length, gelman_rubin returns a dictionary with exactly one entry per parameter, under its name: the diagnostic computed from the columns of this parameter in all chains. Without given names those of the results are used, completed by default names.", "quantifier": "for all numbers of chains, rows and parameters, all lists of names, any float type", "why_tests_cant": "Names are dictionary keys: whether entries collide depends on the names.", "anchors": [{"file": "pymcmcstat/chain/ChainStatistics.py", "symbols": ["gelman_rubin", "calculate_psrf", "get_parameter_names"]}, {"file": "pymcmcstat/plotting/utilities.py", "symbols": ["extend_names_to_match_nparam", "generate_default_names"]}]}
{"id": "C111", "title": "Diagnostics leave the results unchanged", "statement": "chainstats and gelman_rubin do not change the results structure they are given.", "quantifier": "for all chains and results structures on which the calls return, any float type", "why_tests_cant": "A change in the caller's hands does not show in the returned values.", "anchors": [{"file": "pymcmcstat/chain/ChainStatistics.py", "symbols": ["chainstats", "gelman_rubin", "get_parameter_names"]}, {"file": "pymcmcstat/plotting/utilities.py", "symbols": ["extend_names_to_match_nparam"]}]}
{"id": "C112", "title": "The chain converges to every proper posterior, bounded or not", "statement": "Take a problem as in C82 (fixed error variances, given proposal covariance, no adaptation). The limits may be infinite and the sum of squares, the prior and the density unbounded; the posterior only has to have a finite, positive integral. From every start within the limits, for every epsilon > 0 there is a row number from which on, in runs of all lengths, the probability that row j of the chain of run_simulation lies in an event differs from its posterior probability by at most epsilon, uniformly over all events.", "quantifier": "for all dimensions, limits (also infinite), measurable sum-of-squares and prior functions with a proper posterior, covariances, numbers of stages, starts within the limits, run lengths and measurable events; exact arithmetic and an ideal random generator", "why_tests_cant": "Parameters without limits are the default (minimum -inf, maximum inf). Whether the chain forgets a far-away start is a statement about the law of arbitrarily late rows; finite output cannot show it.", "anchors": [{"file": "pymcmcstat/MCMC.py", "symbols": ["MCMC.run_simulation", "MCMC.__execute_simulator"]}, {"file": "pymcmcstat/samplers/Metropolis.py", "symbols": ["Metropolis.run_metropolis_step"]}, {"file": "pymcmcstat/samplers/utilities.py", "symbols": ["calculate_log_posterior_ratio", "log_posterior_ratio_acceptance_test", "sample_candidate_from_gaussian_proposal", "is_sample_outside_bounds"]}, {"file": "pymcmcstat/samplers/DelayedRejection.py", "symbols": ["DelayedRejection.run_delayed_rejection", "DelayedRejection.alphafun"]}]}
{"id": "C113", "title": "Averages over the chain approach every finite posterior mean", "statement": "For the problems of C112, for every start within the limits, every function f with a finite posterior mean and all eta, epsilon > 0 there is a run length from which on the average of f over the rows of the chain is within eta of the posterior mean of f with probability at least 1 - epsilon. In particular the mean of a column approaches the posterior mean of its parameter whenever that exists. For functions bounded by c the run length depends on c only.", "quantifier": "for all problems as in C112, all functions with a finite posterior mean, starts and error bounds; exact arithmetic and an ideal random generator", "why_tests_cant": "The law of large numbers for the chain speaks about probabilities over all runs and about all large lengths; a test sees one average.", "anchors": [{"file": "pymcmcstat/MCMC.py", "symbols": ["MCMC.run_simulation", "MCMC.__execute_simulator"]}, {"file": "pymcmcstat/samplers/Metropolis.py", "symbols": ["Metropolis.run_metropolis_step"]}, {"file": "pymcmcstat/samplers/DelayedRejection.py", "symbols": ["DelayedRejection.run_delayed_rejection"]}, {"file": "pymcmcstat/structures/ResultsStructure.py", "symbols": ["ResultsStructure.add_chain"]}]}
{"id": "C114", "title": "Values and error variances converge to every proper joint posterior", "statement": "Take a problem as in C84 (sampled error variances, given proposal covariance, no adaptation) without bounds on limits, sums of squares or prior; only the integral of the joint posterior has to be finite and positive. From every start with positive variances, for every epsilon > 0 there is a row number from which on, in runs of all lengths, the probability that the pair of row j of chain and row j of s2chain lies in an event differs from its joint posterior probability by at most epsilon, uniformly over all events.", "quantifier": "for all dimensions, numbers of data sets, limits (also infinite), measurable sum-of-squares and prior functions with a proper joint posterior, prior settings of the variances, covariances, numbers of stages, starts, run lengths and measurable events; exact arithmetic and an ideal random generator", "why_tests_cant": "Convergence in law of both chains together is a statement about the distribution of all runs and about arbitrarily late rows.", "anchors": [{"file": "pymcmcstat/MCMC.py", "symbols": ["MCMC.run_simulation", "MCMC.__execute_simulator"]}, {"file": "pymcmcstat/samplers/Metropolis.py", "symbols": ["Metropolis.run_metropolis_step"]}, {"file": "pymcmcstat/samplers/DelayedRejection.py", "symbols": ["DelayedRejection.run_delayed_rejection"]}, {"file": "pymcmcstat/procedures/ErrorVarianceEstimator.py", "symbols": ["ErrorVarianceEstimator.update_error_variance", "ErrorVarianceEstimator.gammar"]}]}
{"id": "C115", "title": "Averages over chain and s2chain approach every finite mean of the joint posterior", "statement": "For the problems of C114, for every start, every function f of values and variances with a finite posterior mean and all eta, epsilon > 0 there is a run length from which on the average of f over the rows of chain and s2chain is within eta of the mean of f under the joint posterior with probability at least 1 - epsilon. For functions bounded by c the run length depends on c only.", "quantifier": "for all problems as in C114, all functions with a finite posterior mean, starts and error bounds; exact arithmetic and an ideal random generator", "why_tests_cant": "The law of large numbers for the chains speaks about probabilities over all runs and about all large lengths; a test sees one average.", "anchors": [{"file": "pymcmcstat/MCMC.py", "symbols": ["MCMC.run_simulation", "MCMC.__execute_simulator"]}, {"file": "pymcmcstat/samplers/Metropolis.py", "symbols": ["Metropolis.run_metropolis_step"]}, {"file": "pymcmcstat/procedures/ErrorVarianceEstimator.py", "symbols": ["ErrorVarianceEstimator.update_error_variance"]}, {"file": "pymcmcstat/structures/ResultsStructure.py", "symbols": ["ResultsStructure.add_chain", "ResultsStructure.add_s2chain"]}]}
{"id": "C116", "title": "The table of chainstats approaches the posterior mean and standard deviation", "statement": "For the problems of C112 and C114 (fixed or sampled error variances, bounded or not), for every start and all eta, epsilon > 0 there is a run length from which on, with probability at least 1 - epsilon, the run succeeds, chainstats(chain) succeeds, and for every parameter with a finite posterior second moment the reported mean is within eta of the posterior mean and the reported std within eta of the posterior standard deviation. With sampled variances the same holds for chainstats(s2chain) and the variances.", "quantifier": "for all problems as in C112 or C114, starts, error bounds and all parameters with a finite second moment; exact arithmetic and an ideal random generator", "why_tests_cant": "The printed table is read as an estimate of the posterior; that it is one, for all large run lengths and with any prescribed certainty, cannot be seen from single outputs.", "anchors": [{"file": "pymcmcstat/chain/ChainStatistics.py", "symbols": ["chainstats"]}, {"file": "pymcmcstat/MCMC.py", "symbols": ["MCMC.run_simulation", "MCMC.__execute_simulator"]}, {"file": "pymcmcstat/structures/ResultsStructure.py", "symbols": ["ResultsStructure.add_chain", "ResultsStructure.add_s2chain"]}]}
{"id": "C117", "title": "The Gelman-Rubin diagnostic approaches one", "statement": "For the problems of C112 and C114, take two or more chains with arbitrary starts and arbitrary dependence between their generators. For all eta, epsilon > 0 there is a run length from which on, with probability at least 1 - epsilon, all runs succeed, gelman_rubin of their chains succeeds, and for every parameter with a finite posterior second moment the potential scale reduction factor R is within eta of 1, W and V within eta of the posterior variance.", "quantifier": "for all problems as in C112 or C114, numbers of chains >= 2, starts, joint laws of the generators and error bounds; exact arithmetic and ideal random generators", "why_tests_cant": "That the diagnostic converges to one from every set of starts is a statement about the distribution of all runs.", "anchors": [{"file": "pymcmcstat/chain/ChainStatistics.py", "symbols": ["gelman_rubin", "calculate_psrf"]}, {"file": "pymcmcstat/ParallelMCMC.py", "symbols": ["ParallelMCMC.run_parallel_simulation"]}, {"file": "pymcmcstat/MCMC.py", "symbols": ["MCMC.run_simulation", "MCMC.__execute_simulator"]}]}
{"id": "C118", "title": "Credible intervals cover what their limits say", "statement": "For the problems of C112 and C114, drop a burn-in from the chain of a run and let calculate_intervals evaluate a model with one output column at nsample rows. If the number of rows used is large enough and not less than the burn-in, then with probability at least 1 - epsilon run and evaluation succeed and, for all limits between 0 and 100, the quantile bands drawn by plot_intervals are one per limit, the wider first, and the band of limit l contains the model response at each output point with posterior probability l/100 up to eta: at least l/100 - eta for the closed band, at most l/100 + eta for the open one.", "quantifier": "for all problems as in C112 or C114, measurable model responses of any number of output points (with atoms or not), burn-ins, sample sizes, lists of limits, random draws and error bounds; exact arithmetic and an ideal random generator", "why_tests_cant": "Coverage is a probability under the posterior and holds for all large samples; a plot or a test sees one band.", "anchors": [{"file": "pymcmcstat/propagation.py", "symbols": ["calculate_intervals", "define_sample_points", "generate_quantiles", "_check_limits", "_convert_limits", "plot_intervals"]}, {"file": "pymcmcstat/MCMC.py", "symbols": ["MCMC.run_simulation"]}, {"file": "pymcmcstat/structures/ResultsStructure.py", "symbols": ["ResultsStructure.add_chain"]}]}
{"id": "C119", "title": "The plot of prediction intervals shows the generated intervals", "statement": "After setup_prediction_interval_calculation and generate_prediction_intervals have succeeded, plot_prediction_intervals returns, for every output column jj of every data set ii, its own axes in its own figure, and the axes show, over the independent data of data set ii and in this order: the 95% prediction band of this column (if generated and not switched off), its credible bands with the labels that fit their levels and in different colours, its median curve, column jj of the observations of data set ii (if asked for), and a title with the numbers that are not evident; nothing else is shown there and no other axes are changed. It raises no exception if the independent data are one column and fit the response.", "quantifier": "for all data sets, model functions, chains, error-variance chains, burn-ins, sample sizes, draws, flags, data and earlier contents of the figures", "why_tests_cant": "The mapping of batches, columns, levels, labels and colours to axes has to be right for every number of batches and columns and every combination of flags; and what the axes already show is part of the state.", "anchors": [{"file": "pymcmcstat/plotting/PredictionIntervals.py", "symbols": ["PredictionIntervals.plot_prediction_intervals", "PredictionIntervals._setup_interval_colors", "PredictionIntervals._initialize_plot_features", "PredictionIntervals._add_batch_column_title", "PredictionIntervals._setup_interval_plotting", "PredictionIntervals._check_prediction_interval_flag", "PredictionIntervals._setup_labels", "PredictionIntervals._setup_counting_metrics", "PredictionIntervals.generate_prediction_intervals"]}]}
{"id": "C120", "title": "Intervals of PredictionIntervals cover what their labels say", "statement": "For the problems of C112 and C114, set up PredictionIntervals with the results of a run and a burn-in and call generate_prediction_intervals, with all rows or with nsample rows drawn at random. If enough rows are used, then with probability at least 1 - epsilon run, setup and generation succeed, and for every output column of every data set the curve of level p cuts off the probability p and the bands between two curves contain the difference of the levels, up to eta, at every point: for credible intervals the posterior probability of the model response, for prediction intervals the posterior predictive probability of an observation with normal error and the sampled error variance of its column (additive, square-root or log scale). Each band shown by plot_prediction_intervals contains the percentage of its label. The last sentence is false for the label 90, which contains 85 %.", "quantifier": "for all problems as in C112 or C114, numbers of data sets, measurable model responses of any fixed shapes, burn-ins of at most half the run, sample sizes, flags and error bounds; exact arithmetic, ideal random draws", "why_tests_cant": "Coverage is a probability under the posterior and over the rows drawn; no single set of intervals shows it, and 85 % for 90 % looks right in a plot.", "anchors": [{"file": "pymcmcstat/plotting/PredictionIntervals.py", "symbols": ["PredictionIntervals.setup_prediction_interval_calculation", "PredictionIntervals.generate_prediction_intervals", "PredictionIntervals._calc_credible_ii", "PredictionIntervals._calc_credible_and_prediction_ii", "PredictionIntervals._observation_sample", "PredictionIntervals._generate_quantiles", "PredictionIntervals._define_sample_points", "PredictionIntervals.plot_prediction_intervals"]}, {"file": "pymcmcstat/MCMC.py", "symbols": ["MCMC.run_simulation"]}, {"file": "pymcmcstat/structures/ResultsStructure.py", "symbols": ["ResultsStructure.add_chain"]}]}
{"id": "C121", "title": "Arrays passed as model settings are left as they are", "statement": "After define_model_settings and any number of runs of the object, every numpy array the user has (whether it was passed as sigma2, N, N0 or S20, or belongs to something else) has the entries and the number type it had. False for one case: an array passed as sigma2 with one entry for each of two or more sums of squares is overwritten by the draws and holds the last row of s2chain after the run.", "quantifier": "for all arrays, arguments (None, numbers, lists, arrays, the same array several times), data sets, random draws and numbers of runs", "why_tests_cant": "Whether an array object is kept or copied depends on its length, on nsos and on which defaults apply; a test compares results, not the caller's arrays.", "anchors": [{"file": "pymcmcstat/settings/ModelSettings.py", "symbols": ["ModelSettings.define_model_settings", "ModelSettings._array_type", "ModelSettings._check_dependent_model_settings", "ModelSettings._check_dependent_model_settings_wrt_nsos"]}, {"file": "pymcmcstat/procedures/ErrorVarianceEstimator.py", "symbols": ["ErrorVarianceEstimator.update_error_variance"]}, {"file": "pymcmcstat/MCMC.py", "symbols": ["MCMC.run_simulation"]}]}
{"id": "C122", "title": "Sampled error variances are stored as drawn", "statement": "Whatever type of number the user gave for sigma2, after each call of update_error_variance the entries of sigma2 are the reciprocals of gamma deviates with shape (N0 + N)/2 and scale 2/(N0*S20 + SS), with the settings as they were before the call. False for one case: if sigma2 is a list or an array of integers with one entry for each of two or more sums of squares, such as [1, 1], each draw is cut to an integer, and draws below one become zero.", "quantifier": "for all arguments, arrays, sums of squares, data sets, random draws and numbers of iterations", "why_tests_cant": "The number type of the array follows from the number type of the user's list and survives all checks; tests give floats.", "anchors": [{"file": "pymcmcstat/settings/ModelSettings.py", "symbols": ["ModelSettings.define_model_settings", "ModelSettings._array_type", "ModelSettings._check_dependent_model_settings_wrt_nsos"]}, {"file": "pymcmcstat/procedures/ErrorVarianceEstimator.py", "symbols": ["ErrorVarianceEstimator.update_error_variance", "ErrorVarianceEstimator.gammar"]}]}
{"id": "C123", "title": "Results of a run are not changed by later runs", "statement": "The settings in the results of a run (results['model_settings']: sigma2, N, N0, S20) have the same values after any number of later runs of the object. False for sigma2 with two or more sums of squares: both results hold the same array, so the results kept from the first run show the last row of the second error-variance chain.", "quantifier": "for all settings, data sets, random draws and numbers of runs", "why_tests_cant": "The dictionary in the results is new and its arrays are not; one run does not show that.", "anchors": [{"file": "pymcmcstat/structures/ResultsStructure.py", "symbols": ["ResultsStructure.add_model"]}, {"file": "pymcmcstat/settings/ModelSettings.py", "symbols": ["ModelSettings._check_dependent_model_settings", "ModelSettings._check_dependent_model_settings_wrt_nsos"]}, {"file": "pymcmcstat/procedures/ErrorVarianceEstimator.py", "symbols": ["ErrorVarianceEstimator.update_error_variance"]}, {"file": "pymcmcstat/MCMC.py", "symbols": ["MCMC.run_simulation"]}]}
{"id": "C124", "title": "Every chain of a parallel run is stored", "statement": "Every chain of a parallel run has a folder of its own and leaves its samples there, whatever output formats the user chose: as log files, or in the results file. The formats the user chose are used.", "quantifier": "for all option sets, parameter lists, initial values and numbers of chains", "why_tests_cant": "All combinations of output flags and chain counts.", "anchors": [{"file": "pymcmcstat/ParallelMCMC.py", "symbols": ["ParallelMCMC.setup_parallel_simulation", "check_options_output"]}, {"file": "pymcmcstat/settings/SimulationOptions.py", "symbols": ["SimulationOptions.define_simulation_options", "check_lightly_save"]}, {"file": "pymcmcstat/structures/ResultsStructure.py", "symbols": ["ResultsStructure.export_simulation_results_to_json_file", "ResultsStructure.determine_filename"]}]}
{"id": "C125", "title": "Setting up a parallel run leaves the user's object as it is", "statement": "setup_parallel_simulation changes nothing in the MCMC object it is given. False when no output format was chosen: save_to_bin of that object is True afterwards, so its own later runs write log files.", "quantifier": "for all objects", "why_tests_cant": "The object is not looked at after the set-up.", "anchors": [{"file": "pymcmcstat/ParallelMCMC.py", "symbols": ["ParallelMCMC.setup_parallel_simulation", "unpack_mcmc_set", "check_options_output"]}]}
{"id": "C126", "title": "A restarted run is the run with the saved values written by hand", "statement": "A run with the option json_restart_file does exactly what a run without it does in whose script the saved value of each saved parameter is written as its initial value (by name, everything else as in the script) and the saved covariance as the option qcov: same exceptions, same results, chains, draws, log files and state. Nothing else of the file has an effect.", "quantifier": "for all files with distinct names and matching lengths, scripts, options, model functions, random draws and number types", "why_tests_cant": "Any later use of the previous results at any of the many places that test for them would differ only in some scripts and options.", "anchors": [{"file": "pymcmcstat/MCMC.py", "symbols": ["MCMC.__setup_simulator", "MCMC.run_simulation"]}, {"file": "pymcmcstat/settings/ModelParameters.py", "symbols": ["ModelParameters._results_to_params"]}, {"file": "pymcmcstat/settings/SimulationOptions.py", "symbols": ["SimulationOptions.define_simulation_options"]}]}
{"id": "C127", "title": "A run restarted from an adaptive run samples the posterior", "statement": "Run method mh, dr, am or dram, with all parameters sampled; then restart from its results file with method mh or dr (no adaptation). Whatever the first run was, the probability that row j of the restarted run lies in a set approaches the posterior probability, uniformly in the set, and averages over the rows approach the posterior means of functions with a finite mean. With updatesigma the same holds of values and error variances and the joint posterior.", "quantifier": "for all problems as in C112-C115, first runs (any model function, data, options and draws within exact arithmetic), numbers of parameters, sets, functions and error bounds; exact arithmetic, ideal random draws", "why_tests_cant": "It is a limit statement, and it depends on the covariance that an adaptive run leaves behind being positive definite and its last row being within the limits in every case.", "anchors": [{"file": "pymcmcstat/MCMC.py", "symbols": ["MCMC.run_simulation", "MCMC.__setup_simulator"]}, {"file": "pymcmcstat/settings/ModelParameters.py", "symbols": ["ModelParameters._results_to_params"]}, {"file": "pymcmcstat/structures/ResultsStructure.py", "symbols": ["ResultsStructure.add_basic", "ResultsStructure.add_dram"]}, {"file": "pymcmcstat/samplers/Adaptation.py", "symbols": ["Adaptation.run_adaptation"]}, {"file": "pymcmcstat/procedures/CovarianceProcedures.py", "symbols": ["CovarianceProcedures.setup_covariance_matrix"]}]}
{"id": "C128", "title": "calculate_intervals returns the responses and the observations of every quantity of interest", "statement": "For a model whose output is an array of r points and c quantities (several points if there are several quantities; a single quantity may come as a vector, a row or a column, so a row is always taken as the points of one quantity), calculate_intervals returns one pair credible/prediction for each quantity. Row kk of credible is the response for the quantity at row kk of the chain. Row kk of prediction is this response with an error for each point, additive, on the root scale or multiplicative as sstype says, with a normal draw of its own and the variance that belongs to row and quantity: the number given; or entry kk, or else jj, of a vector; or entry (kk, jj) or kk of a matrix. Without variances, prediction is None.", "quantifier": "for all chains, models, shapes, forms of s2chain that fit, sstypes, draws, numbers of samples and number types", "why_tests_cant": "The variance is chosen by comparing shapes in several nested branches, for one or several quantities; tests use one shape.", "anchors": [{"file": "pymcmcstat/propagation.py", "symbols": ["calculate_intervals", "check_s2chain", "observation_sample"]}]}
{"id": "C129", "title": "Bands of credible and prediction intervals of calculate_intervals cover what their limits say", "statement": "Take a run with fixed or sampled error variances, drop a burn-in and pass chain and variances to calculate_intervals with a model of one or several quantities. If the number of rows used is large enough, then with probability at least 1 - eps everything succeeds, and for every quantity and any limits between 0 and 100 the band drawn for limit l from credible contains the response with posterior probability l/100, and the band drawn from prediction contains a new observation with posterior predictive probability l/100, both up to eta, at every point.", "quantifier": "for all problems as in C112-C115, models with measurable responses, quantities, points, sstypes, limits, burn-ins, numbers of samples, eta and eps; exact arithmetic, ideal random draws", "why_tests_cant": "Coverage is a probability under the posterior predictive law, over runs and draws; no single plot shows it.", "anchors": [{"file": "pymcmcstat/propagation.py", "symbols": ["calculate_intervals", "check_s2chain", "observation_sample", "define_sample_points", "plot_intervals"]}, {"file": "pymcmcstat/MCMC.py", "symbols": ["MCMC.run_simulation"]}, {"file": "pymcmcstat/structures/ResultsStructure.py", "symbols": ["ResultsStructure.add_chain"]}]}
{"id": "C130", "title": "Error variances that do not fit the model are refused", "statement": "A chain of error variances with several columns, not one for each quantity of the model, makes calculate_intervals raise a ValueError. False in two cases: with as many columns as points, column i is silently taken as the variance of point i, for all quantities; and for a single quantity returned as a column of r points, or a single point, k columns of variances silently give r*k observations per row of prediction.", "quantifier": "for all chains, models, shapes, sstypes, draws and number types", "why_tests_cant": "It needs the coincidence of two dimensions.", "anchors": [{"file": "pymcmcstat/propagation.py", "symbols": ["calculate_intervals", "check_s2chain", "observation_sample"]}]}
{"id": "C131", "title": "Every iteration of an adaptive run with sampled error variances keeps the joint posterior", "statement": "Run mh, am, dr or dram with updatesigma, no adaptation in the burn-in. With probability one the run returns. Given everything up to row j, the pair (row j+1 of chain, row j+1 of s2chain) is drawn from a Markov transition that leaves the joint posterior of parameter values and error variances invariant. Which transition it is, among a family indexed by the proposal factor, is decided by the factor in force, a function of the earlier rows; the factor is always invertible.", "quantifier": "for all problems, models with measurable sums of squares and priors, numbers of parameters and data sets, adaptation intervals, scales, numbers of delayed rejection stages, prior weights of the variances and iterations; exact arithmetic, ideal random draws", "why_tests_cant": "Invariance of a law and conditional laws given the whole history are not visible in any finite sample; the adaptation, the delayed rejection, and the draws of the variances interact in one loop.", "anchors": [{"file": "pymcmcstat/MCMC.py", "symbols": ["MCMC.run_simulation"]}, {"file": "pymcmcstat/samplers/Metropolis.py", "symbols": ["Metropolis.run_metropolis_step"]}, {"file": "pymcmcstat/samplers/DelayedRejection.py", "symbols": ["DelayedRejection.run_delayed_rejection"]}, {"file": "pymcmcstat/samplers/Adaptation.py", "symbols": ["Adaptation.run_adaptation", "check_for_singular_cov_matrix", "update_delayed_rejection"]}, {"file": "pymcmcstat/procedures/ErrorVarianceEstimator.py", "symbols": ["ErrorVarianceEstimator.update_error_variance"]}]}
{"id": "C132", "title": "Adaptation diminishes", "statement": "In a fresh run with finite limits, without initqcovn, the mean and covariance the proposal is adapted to settle: between the adaptations in iterations p and q > p past the burn-in, an entry of the covariance moves by at most twice the product of the two parameter ranges times (q-p)/(q-1), and the mean by at most the range times (q-p)/q. Once the sample covariance of the chain is positive definite it stays so, and if all parameters are adapted the proposal covariance R'R moves by at most the square of the scale times that bound, so from one adaptation to the next the change is of the order adaptint/q.", "quantifier": "for all completed adaptive runs (am, dram), numbers of parameters, limits, adaptation intervals, pairs of adaptations past the burn-in; exact arithmetic", "why_tests_cant": "A bound for every pair of adaptations of every run, with a rate in the iteration number; a test sees a few adaptations of short runs.", "anchors": [{"file": "pymcmcstat/samplers/Adaptation.py", "symbols": ["Adaptation.run_adaptation", "update_covariance_mean_sum", "adjust_cov_matrix", "check_for_singular_cov_matrix", "scale_cholesky_decomposition"]}, {"file": "pymcmcstat/MCMC.py", "symbols": ["MCMC.__execute_simulator"]}]}
{"id": "C133", "title": "Adaptive runs converge unless the covariance collapses", "statement": "Adaptive runs with method am or dram (at most two stages, an adaptation every adaptint iterations, all sampled parameters adapted, fixed error variances, finite limits, bounded posterior density): for every e > 0 and c > 0 there are numbers K and J, not depending on the length of the run, such that for every row j >= J of a run of any length and every event the law of the row differs from the posterior by at most e plus the probability that the sample covariance of the first j - K rows is below c in some direction. The chain of an adaptive run can miss the posterior in the long run only by its own covariance collapsing.", "quantifier": "for all such problems, e, c > 0, lengths of run, rows j >= J, events; ideal generator, exact arithmetic", "why_tests_cant": "A limit theorem about the law of a process whose transitions depend on its whole past; tests see finitely many runs of finite length and cannot tell a slow bias from chance.", "anchors": [{"file": "pymcmcstat/samplers/Adaptation.py", "symbols": ["Adaptation.run_adaptation", "update_covariance_mean_sum", "adjust_cov_matrix", "check_for_singular_cov_matrix", "scale_cholesky_decomposition"]}, {"file": "pymcmcstat/MCMC.py", "symbols": ["MCMC.__execute_simulator"]}, {"file": "pymcmcstat/samplers/Metropolis.py", "symbols": ["Metropolis.run_metropolis_step"]}]}
{"id": "C134", "title": "Averages over adaptive chains approach the posterior mean unless the covariance collapses", "statement": "In the setting of C133: for all e, c, eta, C > 0 there are K, J and k0 such that for every run of k >= k0 rows and every function f with |f| <= C within the limits, the average of f over the rows of the chain differs from the posterior mean of f by less than eta, except with probability at most e plus 16 C^2/eta^2 times the average over the rows j of the probability that the sample covariance of the first j - K rows is below c in some direction. So the means and frequencies a user reads off an adaptive chain are consistent as long as the covariance of the chain does not collapse.", "quantifier": "for all such problems, e, c, eta, C > 0, lengths of run k >= k0, bounded measurable functions f; ideal generator, exact arithmetic", "why_tests_cant": "A law of large numbers for dependent rows whose transition depends on the whole past; a finite set of runs cannot establish it for all functions and lengths.", "anchors": [{"file": "pymcmcstat/samplers/Adaptation.py", "symbols": ["Adaptation.run_adaptation", "update_covariance_mean_sum", "adjust_cov_matrix", "check_for_singular_cov_matrix", "scale_cholesky_decomposition"]}, {"file": "pymcmcstat/MCMC.py", "symbols": ["MCMC.__execute_simulator"]}, {"file": "pymcmcstat/samplers/Metropolis.py", "symbols": ["Metropolis.run_metropolis_step"]}]}
{"id": "C135", "title": "The reported covariance is the final one also for an integer covariance", "statement": "Also if the user gives the covariance as an array of integers, the block of the sampled parameters in results['qcovorig'] is results['qcov'], the covariance of the proposal at the end of the run. False: the numbers are converted to integers, towards zero; a proposal covariance with entries below one in size becomes zero, and a later run of two or more sampled parameters that is given results['qcovorig'] as its covariance stops in the set-up. True of results['qcov'] with integer entries; entries of results['qcovorig'] outside the block are not changed.", "quantifier": "for all completed runs, models, numbers of parameters, selections of sampled parameters, methods and number types", "why_tests_cant": "The package's tests give covariances as arrays of floats; the numbers in an array of integers look the same.", "anchors": [{"file": "pymcmcstat/structures/ResultsStructure.py", "symbols": ["ResultsStructure.add_basic"]}, {"file": "pymcmcstat/procedures/CovarianceProcedures.py", "symbols": ["CovarianceProcedures.setup_covariance_matrix", "CovarianceProcedures._initialize_covariance_settings"]}]}
{"id": "C136", "title": "The scales of delayed rejection may be given in any form", "statement": "The factors of the delayed rejection stages, in the set-up of a run and after an adaptation, depend only on the numbers in drscale, not on whether they come as a list, an array of floats or an array of integers. False: with an array of integers, as np.array([5, 4, 3]), every set-up with method dr or dram and two or more stages raises ValueError unless the factors RDR are given, and every adaptation with two or more stages does. True of lists without zeros and arrays of floats.", "quantifier": "for all factors, numbers of stages, scales, numbers of parameters and number types", "why_tests_cant": "The default is an array of floats and tests use it; numpy refuses negative powers of integers at run time only.", "anchors": [{"file": "pymcmcstat/procedures/CovarianceProcedures.py", "symbols": ["CovarianceProcedures.__setup_RDR_matrix"]}, {"file": "pymcmcstat/samplers/Adaptation.py", "symbols": ["update_delayed_rejection"]}, {"file": "pymcmcstat/settings/SimulationOptions.py", "symbols": ["SimulationOptions.define_simulation_options"]}]}
{"id": "C137", "title": "plot_chain_metrics draws the chain and names the parameter", "statement": "plot_chain_metrics(chain, name) draws the point (k, chain[k]) for every row k above a histogram of all values, and the title and the three labels contain the name of the parameter: the string given, or the default name $p_{0}$. False without a name: title and labels then contain ['$p_{0}$'], the text of a list; an empty string raises AttributeError. True of every other name given as a string.", "quantifier": "for all chains and names", "why_tests_cant": "Tests of plots check that a figure is returned, not its texts.", "anchors": [{"file": "pymcmcstat/plotting/MCMCPlotting.py", "symbols": ["plot_chain_metrics"]}, {"file": "pymcmcstat/plotting/utilities.py", "symbols": ["generate_names", "extend_names_to_match_nparam"]}]}
{"id": "C138", "title": "print_log_files prints what was saved when", "statement": "After a fresh run that saved its blocks into a directory without index files, print_log_files(savedir) prints the index files of the formats in use, and nothing else but what other text files with log in their names hold. An index has one line for every block, in order, with the time, the first and the last row; the blocks have savesize rows (all rows if that is not between 1 and nsimu), the last one what is left, and together they are the rows 0 to nsimu-1. False if a binary file has log in its name, as with chainfile='chain_log' and save_to_bin: the function raises. True otherwise, in whatever order the directory is listed.", "quantifier": "for all fresh runs, options, save sizes, formats, readings of the clock, other contents of the directory and orders of listing", "why_tests_cant": "Tests print one log of a few blocks with the default file names.", "anchors": [{"file": "pymcmcstat/chain/ChainProcessing.py", "symbols": ["print_log_files", "_add_to_log"]}, {"file": "pymcmcstat/MCMC.py", "symbols": ["MCMC.__save_to_log_file"]}]}
{"id": "C139", "title": "Adaptive runs that sample the error variances converge to the joint posterior unless the covariance collapses", "statement": "Take an am or dram run with updatesigma on, at most two proposal stages, adaptint > 0, every sampled parameter adapted, finite limits and a sum of squares and prior bounded within the limits. For all e, c > 0 there are K and J such that in a run of any length, for every row j >= J and uniformly over all events, the law of row j of the chain together with row j of s2chain differs from the joint posterior of values and error variances by at most e plus the probability that the sample covariance of the first j - K rows of the chain is below c in some direction.", "quantifier": "for all such problems, e, c > 0, lengths of run, rows j >= J and measurable events; ideal generator, exact arithmetic", "why_tests_cant": "Convergence in law of a non-Markovian process, uniform over events and lengths of run; a finite set of runs shows neither.", "anchors": [{"file": "pymcmcstat/samplers/Adaptation.py", "symbols": ["Adaptation.run_adaptation", "update_covariance_mean_sum", "adjust_cov_matrix", "check_for_singular_cov_matrix", "scale_cholesky_decomposition"]}, {"file": "pymcmcstat/MCMC.py", "symbols": ["MCMC.__execute_simulator"]}, {"file": "pymcmcstat/samplers/Metropolis.py", "symbols": ["Metropolis.run_metropolis_step"]}, {"file": "pymcmcstat/procedures/ErrorVarianceEstimator.py", "symbols": ["ErrorVarianceEstimator.update_error_variance"]}]}
{"id": "C140", "title": "Averages over values and variances of adaptive chains approach the means of the joint posterior unless the covariance collapses", "statement": "In the setting of C139: for all e, c, eta, C > 0 there are K, J and k0 such that for every run of k >= k0 rows and every function f of values and variances with |f| <= C for values within the limits and positive variances, the average of f over the pairs of rows of chain and s2chain differs from the mean of f under the joint posterior by less than eta, except with probability at most e plus 16 C^2/eta^2 times the average over the rows j of the probability that the sample covariance of the first j - K rows is below c in some direction.", "quantifier": "for all such problems, e, c, eta, C > 0, lengths of run k >= k0, bounded measurable functions f; ideal generator, exact arithmetic", "why_tests_cant": "A law of large numbers for dependent rows whose transition depends on the whole past; a finite set of runs cannot establish it for all functions and lengths.", "anchors": [{"file": "pymcmcstat/samplers/Adaptation.py", "symbols": ["Adaptation.run_adaptation", "update_covariance_mean_sum", "adjust_cov_matrix", "check_for_singular_cov_matrix", "scale_cholesky_decomposition"]}, {"file": "pymcmcstat/MCMC.py", "symbols": ["MCMC.__execute_simulator"]}, {"file": "pymcmcstat/samplers/Metropolis.py", "symbols": ["Metropolis.run_metropolis_step"]}, {"file": "pymcmcstat/procedures/ErrorVarianceEstimator.py", "symbols": ["ErrorVarianceEstimator.update_error_variance"]}]}
{"id": "C141", "title": "The table of chainstats for adaptive chains approaches the posterior mean and standard deviation unless the covariance collapses", "statement": "In the setting of C133 (fixed error variances) or C139 (sampled error variances): for every eta > 0 there is A such that for all e, c > 0 there are K, J and k0 such that for every run of k >= k0 rows, except with probability at most e plus A times the average over the rows j of the probability that the sample covariance of the first j-K rows is in some direction below c, the run succeeds, chainstats(chain) succeeds, and for every sampled parameter the reported mean is within eta of the posterior mean and the reported std within eta of the posterior standard deviation.", "quantifier": "for all such problems, eta, e, c > 0 and lengths of run k >= k0; ideal generator, exact arithmetic", "why_tests_cant": "The printed table of an adaptive run, the default, is read as an estimate of the posterior; that it is one, with any prescribed certainty, cannot be seen from single outputs.", "anchors": [{"file": "pymcmcstat/chain/ChainStatistics.py", "symbols": ["chainstats"]}, {"file": "pymcmcstat/samplers/Adaptation.py", "symbols": ["Adaptation.run_adaptation"]}, {"file": "pymcmcstat/MCMC.py", "symbols": ["MCMC.run_simulation", "MCMC.__execute_simulator"]}, {"file": "pymcmcstat/structures/ResultsStructure.py", "symbols": ["ResultsStructure.add_chain"]}]}
{"id": "C142", "title": "The Gelman-Rubin diagnostic of adaptive chains approaches one unless a covariance collapses", "statement": "In the setting of C133 or C139, take two or more chains with the same limits, arbitrary starts and arbitrary dependence between their generators. For every eta > 0 there is A such that for all e, c > 0 and all long enough runs, except with probability at most e plus A times the sum over the chains of the averages over the rows of the probabilities that the sample covariance is in some direction below c, all runs succeed, gelman_rubin of their chains succeeds with one entry per parameter, every factor R is within eta of 1, and W and V are within eta of the posterior variance.", "quantifier": "for all such problems, numbers of chains >= 2, starts, joint laws of the generators, eta, e, c > 0 and lengths of run; ideal generators, exact arithmetic", "why_tests_cant": "A statement about the distribution of all runs of several chains, each with transitions that depend on its whole past.", "anchors": [{"file": "pymcmcstat/chain/ChainStatistics.py", "symbols": ["gelman_rubin", "calculate_psrf"]}, {"file": "pymcmcstat/samplers/Adaptation.py", "symbols": ["Adaptation.run_adaptation"]}, {"file": "pymcmcstat/ParallelMCMC.py", "symbols": ["ParallelMCMC.run_parallel_simulation"]}, {"file": "pymcmcstat/MCMC.py", "symbols": ["MCMC.run_simulation", "MCMC.__execute_simulator"]}]}
{"id": "C143", "title": "display_current_mcmc_settings shows what is in use", "statement": "After a completed run, display_current_mcmc_settings() prints 25 lines: the functions given; the error variance in use (the last one sampled if it is sampled), N, N0, S20 as used by the sampling, nsos and nbatch; nsimu, adaptint, ntry, method, printint, lastadapt (with their defaults filled in), drscale and qcov as given; and the covariance, factor, factors for delayed rejection, index of the last adaptation after the burn-in and sample covariance in use. False in three ways: before a run it prints 7 lines and raises AttributeError; after the first run of an object without delayed rejection in which no adaptation was made it prints 21 lines and raises AttributeError; and the displayed proposal covariance is always the one the run started with, not the one in use after an adaptation. True otherwise.", "quantifier": "for all completed first, repeated and continued runs, all settings, options, methods and generators", "why_tests_cant": "Tests display the settings of one dram object and check the returned list of names.", "anchors": [{"file": "pymcmcstat/MCMC.py", "symbols": ["MCMC.display_current_mcmc_settings"]}, {"file": "pymcmcstat/settings/ModelSettings.py", "symbols": ["ModelSettings.display_model_settings"]}, {"file": "pymcmcstat/settings/SimulationOptions.py", "symbols": ["SimulationOptions.display_simulation_options"]}, {"file": "pymcmcstat/procedures/CovarianceProcedures.py", "symbols": ["CovarianceProcedures.display_covariance_settings"]}]}
{"id": "C144", "title": "The statistics returned by chainstats", "statement": "Whenever chainstats returns statistics for a chain of finite values, mean holds the column averages, std the root mean square deviations, bmstd the batch-means standard deviation over disjoint batches of max(10, nsimu/20) rows, and mcerr this deviation divided by the square root of the number of rows; entry j of geweke compares the averages of the first tenth and of the last half of column j, in units of the standard error estimated from their spectra at frequency zero, and entry j of iact is the autocorrelation time of column j.", "quantifier": "for all chains of finite values for which chainstats succeeds, all autocorrelation-time and distribution functions", "why_tests_cant": "Tests compare a few chains with stored numbers; the identities hold for every chain.", "anchors": [{"file": "pymcmcstat/chain/ChainStatistics.py", "symbols": ["chainstats", "batch_mean_standard_deviation", "geweke"]}]}
{"id": "C145", "title": "The functions kept for older programs decide as the step in use", "statement": "For finite sums of squares, non-zero error variances and finite prior values, Metropolis.calculate_posterior_ratio returns the exponential of the log posterior ratio with which the Metropolis step decides; acceptance_test and posterior_ratio_acceptance_test of exp(a) accept exactly if log_posterior_ratio_acceptance_test accepts a, for every a (infinite and NaN included) and the same uniform number in [0,1).", "quantifier": "for all sums of squares, variances, prior values, ratios and uniform numbers", "why_tests_cant": "Tests check some ratios on either side of the threshold; the equivalence needs all of them, with the infinite ones.", "anchors": [{"file": "pymcmcstat/samplers/Metropolis.py", "symbols": ["Metropolis.calculate_posterior_ratio"]}, {"file": "pymcmcstat/samplers/utilities.py", "symbols": ["acceptance_test", "posterior_ratio_acceptance_test", "log_posterior_ratio_acceptance_test", "calculate_log_posterior_ratio"]}]}
{"id": "C146", "title": "Display settings of interval plots", "statement": "setup_display_settings of the interval plots succeeds exactly if every argument is None or a dictionary; then every setting is the user's if given and otherwise the documented default, and no other key appears.", "quantifier": "for all user settings of any content", "why_tests_cant": "Any dictionaries.", "anchors": [{"file": "pymcmcstat/propagation.py", "symbols": ["setup_display_settings"]}, {"file": "pymcmcstat/plotting/PredictionIntervals.py", "symbols": ["PredictionIntervals._setup_display_settings"]}]}
{"id": "C147", "title": "The printed Gelman-Rubin diagnostic", "statement": "gelman_rubin prints six lines about every parameter, in the order of the names: the name, and R, B, W, V and neff of this parameter; with display=False nothing is printed and the same dictionary is returned.", "quantifier": "for all sets of two or more chains of the same length and all names", "why_tests_cant": "Any chains and names.", "anchors": [{"file": "pymcmcstat/chain/ChainStatistics.py", "symbols": ["gelman_rubin", "display_gelman_rubin"]}]}
{"id": "C148", "title": "The settings recorded in the results", "statement": "After a run that completes, results['simulation_options'] holds method, nsimu, adaptint, ntry, burnintime and adascale as the user gave them, lastadapt and savesize as given or nsimu where the given value is not positive (for savesize also where it exceeds nsimu), and updatesigma is true exactly if s2chain is in the results; drscale, initqcovn, doram, dodram, RDR and verbosity are left out. results['model_settings'] holds as sigma2 the error variances of the last row of the chain, the N0, N and S20 the run used (S20 the sampled sigma2 if none was given) and nsos, without the user's functions. results['prior'] holds for every parameter the user's prior mean, or the user's initial value where none was given, and the prior standard deviation, infinite where it is not positive, through all continuations and restarts; the prior function is called with these values of the sampled parameters. Filtering the settings raises KeyError exactly if a key to be left out is missing.", "quantifier": "for all parameters, options, settings, histories of runs of the object, user functions, random numbers", "why_tests_cant": "Any history of runs.", "anchors": [{"file": "pymcmcstat/structures/ResultsStructure.py", "symbols": ["add_options", "add_model", "add_prior"]}, {"file": "pymcmcstat/utilities/general.py", "symbols": ["removekey"]}, {"file": "pymcmcstat/MCMC.py", "symbols": ["__generate_simulation_results"]}]}
{"id": "C149", "title": "What the user gives decides what adaptation does", "statement": "For every valid problem in the sense of C76 (finite initial values within the limits, data, a sum-of-squares function, fitting settings; all sampled parameters adapted, no initqcovn) a returned run has a chain of nsimu finite rows; it is adapted exactly in the iterations 1 <= i < nsimu divisible by adaptint; past the burn-in the adaptation in iteration i takes the sample mean and the sample covariance of the i rows so far, and leaves an invertible factor R with R'R equal to the square of the scale times that covariance, plus qcov_adjust on the diagonal exactly if the covariance is not positive definite. With nothing but the number of simulations and method am or dram given the run does return, the adaptations are in the iterations 100, 200, ..., the factor is 2.4^2/n and the adjustment 1e-8. With finite limits the moments settle at the rate of C132.", "quantifier": "for all valid problems, any generator with finite normal draws, any number of parameters and simulations; exact arithmetic and linear algebra", "why_tests_cant": "The conditions are on the inputs alone: nothing is assumed about the chain or the run, for problems of every size and runs of every length.", "anchors": [{"file": "pymcmcstat/samplers/Adaptation.py", "symbols": ["Adaptation.run_adaptation", "update_covariance_mean_sum", "adjust_cov_matrix", "check_for_singular_cov_matrix", "scale_cholesky_decomposition"]}, {"file": "pymcmcstat/MCMC.py", "symbols": ["MCMC.run_simulation", "MCMC.__execute_simulator"]}]}
{"id": "C150", "title": "The text of the acceptance information", "statement": "print_chain_acceptance_info prints, for a non-empty chain and results with iacce, the title, one line per stage numbered from one, the net line of the results with the exact counts sum(iacce)/nsimu, the net line of the chain with the exact number of different values of the first parameter and of rows, and the note; without iacce only the title, the net line of the chain and the closing rule. Every percentage is the correctly rounded one: it reads back as a closest number with two decimals. The percentages shown for the stages add up to the net percentage shown. After a run from scratch the first net line shows one more than the number of accepted moves.", "quantifier": "for all chains, counts of stages, numbers of simulations and runs", "why_tests_cant": "Rounding and the layout of lines depend on all counts; a test compares a few printed texts at best (the ones of the package do not look at the text).", "anchors": [{"file": "pymcmcstat/chain/ChainStatistics.py", "symbols": ["print_chain_acceptance_info"]}]}
{"id": "C151", "title": "The power spectral density at all frequencies", "statement": "power_spectral_density_using_hanning_window(x, nfft, nw), with nfft = min(len(x), 256) and nw = nfft//4 unless given, returns exactly if 1 <= nw <= len(x) and nfft >= 1: IndexError for windows longer than the column, ZeroDivisionError for windows of no rows (any column of fewer than four rows with the default arguments), ValueError for a transform of no points. It returns nfft//2 numbers; number j is the mean over the half-overlapping windows of the squared modulus of frequency j of the tapered rows, divided by the energy of the taper. No number is negative, none exceeds nw times the largest square of the column, and multiplying the column by a multiplies every number by a squared. The first number of the spectrum with nfft = len(x) is the estimate used by the Geweke diagnostic. The first number plus twice the others is nfft times the mean energy of the tapered windows.", "quantifier": "for all columns of real numbers, lengths of transform and lengths of window", "why_tests_cant": "The identities concern every column and every pair of lengths (odd, even, truncating, padding); a test computes a few spectra.", "anchors": [{"file": "pymcmcstat/chain/ChainStatistics.py", "symbols": ["power_spectral_density_using_hanning_window", "spectral_estimate_for_variance"]}]}
{"id": "C152", "title": "Credible intervals of adaptive runs cover what their limits say unless the covariance collapses", "statement": "In the setting of C133 (fixed error variances) or C139 (sampled error variances), drop a burn-in from the chain of an adaptive run and let calculate_intervals evaluate a model with one output column. For every eta > 0 there is A such that for all e, c > 0 and enough rows used (not fewer than the burn-in), except with probability at most e plus A times the average over the rows used of the probability that the sample covariance of the first j-K rows is in some direction below c, run and evaluation succeed and, for all limits between 0 and 100, the bands drawn by plot_intervals are one per limit, the wider first, and the band of limit l contains the model response at each output point with posterior probability l/100 up to eta (at least l/100 - eta for the closed band, at most l/100 + eta for the open one).", "quantifier": "for all such problems, measurable model responses of any number of output points, burn-ins, sample sizes, limits, eta, e, c > 0 and lengths of run; ideal generator, exact arithmetic", "why_tests_cant": "Adaptive runs are the default; coverage of their bands is a probability under the posterior and over all runs, whose transitions depend on the whole past.", "anchors": [{"file": "pymcmcstat/propagation.py", "symbols": ["calculate_intervals", "define_sample_points", "generate_quantiles", "_check_limits", "_convert_limits", "plot_intervals"]}, {"file": "pymcmcstat/samplers/Adaptation.py", "symbols": ["Adaptation.run_adaptation"]}, {"file": "pymcmcstat/MCMC.py", "symbols": ["MCMC.run_simulation"]}, {"file": "pymcmcstat/structures/ResultsStructure.py", "symbols": ["ResultsStructure.add_chain"]}]}
{"id": "C153", "title": "Prediction intervals of adaptive runs cover what their limits say unless the covariance collapses", "statement": "In the setting of C133 or C139: for every eta > 0 there is A such that for all e, c > 0 and enough rows used, except with probability at most e plus A times the average over the rows used of the probability that the sample covariance of the first j-K rows is in some direction below c, everything succeeds and, for every quantity at every point, up to eta: (1) the bands drawn for the limits l from the credible and prediction arrays of calculate_intervals contain the response, respectively a new observation, with posterior (predictive) probability l/100, with error variances given by hand or sampled; (2) the curves of generate_prediction_intervals of PredictionIntervals, with all rows or rows drawn at random, cut off the probabilities of their levels, for the response and, with sampled variances, for a new observation.", "quantifier": "for all such problems, numbers of quantities and points, data sets, measurable responses, sstypes 0, 1, 2, limits, burn-ins, numbers of samples, eta, e, c > 0 and lengths of run; ideal random draws, exact arithmetic", "why_tests_cant": "Coverage is a probability under the posterior predictive law, over adaptive runs, rows drawn and observation errors; no single plot shows it.", "anchors": [{"file": "pymcmcstat/propagation.py", "symbols": ["calculate_intervals", "check_s2chain", "observation_sample", "define_sample_points", "plot_intervals"]}, {"file": "pymcmcstat/plotting/PredictionIntervals.py", "symbols": ["PredictionIntervals.setup_prediction_interval_calculation", "PredictionIntervals.generate_prediction_intervals", "PredictionIntervals._observation_sample", "PredictionIntervals._generate_quantiles", "PredictionIntervals._define_sample_points"]}, {"file": "pymcmcstat/samplers/Adaptation.py", "symbols": ["Adaptation.run_adaptation"]}, {"file": "pymcmcstat/MCMC.py", "symbols": ["MCMC.run_simulation"]}, {"file": "pymcmcstat/structures/ResultsStructure.py", "symbols": ["ResultsStructure.add_chain"]}]}
{"id": "C154", "title": "The results structure is a plain record of the calls that filled it", "statement": "Whatever add_* methods of a ResultsStructure are called, in whatever order and including calls that raise: no key appears twice; chain, sschain, s2chain, prior, rndseq, the times and theta hold what the last call of their method was given and are missing if there was none; nsimu is that of the last add_basic with nsimu other than 0 (nsimu = 0 raises ZeroDivisionError after theta has been replaced); add_basic raises IndexError if a sampled parameter is outside the covariance array and completes otherwise, with rates, names, limits and covariance of the sampled parameters; the entries of add_updatesigma are all those of its last call, the variance or the prior parameters being NaN. add_dram returns False and changes nothing unless an add_basic has completed; afterwards it returns True (IndexError if there are no counters), the counters then add up to nsimu less the rejections, only entry 0 is changed, results['iacce'] is the counter array itself, and calling it again changes nothing. Of calls made one after the other the first that raises ends them with its exception, those before it having had their effect. After a completed run no call has raised, the dictionary has exactly the documented keys in a fixed order, drscale, iacce, alpha_count and RDR only if ntry > 1, with the values of the run (chains, factor, covariance, mean, limits, names and the factors of all stages), and saving lightly drops exactly the three chains.", "quantifier": "for all sequences of calls and arguments; for all runs that complete, whatever the numbers", "why_tests_cant": "The structure depends on the order of the calls and on exceptions half way through a method; a test tries one order.", "anchors": [{"file": "pymcmcstat/structures/ResultsStructure.py", "symbols": ["ResultsStructure.__init__", "ResultsStructure.add_basic", "ResultsStructure.add_updatesigma", "ResultsStructure.add_dram", "ResultsStructure.add_prior", "ResultsStructure.add_options", "ResultsStructure.add_model", "ResultsStructure.add_chain", "ResultsStructure.add_s2chain", "ResultsStructure.add_sschain", "ResultsStructure.add_time_stats", "ResultsStructure.add_random_number_sequence", "lighten_results"]}, {"file": "pymcmcstat/MCMC.py", "symbols": ["MCMC.__generate_simulation_results"]}]}
{"id": "C155", "title": "What the adaptation of a single-try run is given", "statement": "In a run with one try per iteration every adaptation uses the normal draw and the proposal factor of the iteration in which it takes place. As acceptance value it gets zero if the proposal of that iteration violates a limit, otherwise the difference of the logarithms of the posterior density at the proposal and at the row from which the iteration started. Robust adaptation after a proposal outside the limits keeps the proposal covariance positive definite and shrinks it along the direction of the proposal.", "quantifier": "for all histories of an object, fresh and continued runs, draws, limits, functions of the user, invertible factors and targets between 0 and 1", "why_tests_cant": "The acceptance value is not part of the results; a wrong one only shifts the later proposals.", "anchors": [{"file": "pymcmcstat/samplers/Adaptation.py", "symbols": ["update_cov_via_ram"]}, {"file": "pymcmcstat/samplers/Metropolis.py", "symbols": ["Metropolis.run_metropolis_step"]}, {"file": "pymcmcstat/MCMC.py", "symbols": ["MCMC.__execute_simulator"]}]}
{"id": "C156", "title": "Robust adaptation with delayed rejection uses the acceptance value of the iteration", "statement": "With delayed rejection (ntry greater than one), too, the acceptance value given to an adaptation is that of a proposal made in the iteration in which the adaptation takes place.", "quantifier": "for all histories of an object, runs, draws, limits and functions of the user", "why_tests_cant": "The value is not part of the results, and the combination of options is rare; a value from an earlier iteration gives plausible chains.", "anchors": [{"file": "pymcmcstat/samplers/DelayedRejection.py", "symbols": ["DelayedRejection.run_delayed_rejection"]}, {"file": "pymcmcstat/samplers/Adaptation.py", "symbols": ["update_cov_via_ram"]}, {"file": "pymcmcstat/MCMC.py", "symbols": ["MCMC.__execute_simulator"]}]}
{"id": "C157", "title": "A continued run uses the error variance in the row it starts from", "statement": "A run with use_previous_results=True starts from the error variances in the last row of the previous s2chain, whatever options were changed between the runs. In every iteration of every run that samples the error variance, the first one of a continued run included, proposals and current point are compared with the row of the returned s2chain that stands beside the row of the chain from which the iteration started.", "quantifier": "for all histories of an object, options, user functions and random streams, any float type with 1*x = x", "why_tests_cant": "The variances reach the next run only through an array of the settings object that the sampler overwrites; a run that started again from the initial variances would give a chain of the right shape and a plausible first row.", "anchors": [{"file": "pymcmcstat/MCMC.py", "symbols": ["MCMC.run_simulation", "MCMC.__setup_simulator", "MCMC._initialize_simulation"]}, {"file": "pymcmcstat/procedures/ErrorVarianceEstimator.py", "symbols": ["ErrorVarianceEstimator.update_error_variance"]}, {"file": "pymcmcstat/settings/ModelSettings.py", "symbols": ["ModelSettings._check_dependent_model_settings"]}]}
{"id": "C158", "title": "The numbers of observations behind the error variances are those of the data", "statement": "A setting N is accepted exactly if it agrees with the data sets: entry by entry, or as one number that every data set has, or as several numbers that all equal the number of the only data set; any other N ends the run with SystemExit before the model is called. In a run that is set up the number of observations behind the variance of a sum-of-squares element is the number of the only data set, the total over all data sets if there is one element, and otherwise the number of the data set at the same position.", "quantifier": "for all lists N, numbers of data sets and observations, numbers of sum-of-squares elements, functions of the user, fresh and continued runs", "why_tests_cant": "All combinations of three lengths; a wrong number only changes the width of the error-variance distribution.", "anchors": [{"file": "pymcmcstat/settings/ModelSettings.py", "symbols": ["ModelSettings._check_number_of_observations", "ModelSettings._check_dependent_model_settings", "ModelSettings.__check_size_of_observations_wrt_nsos"]}]}
{"id": "C159", "title": "The parameters of a run are those of the add_model_parameter calls, in their order", "statement": "After any sequence of add_model_parameter calls on a new object the list of parameters has one entry per call, in the order of the calls. Entry k holds the values given in call k; a missing theta0 becomes 1.0 and a missing name becomes $p_{k}$ with k the position of the entry. Later calls leave earlier entries unchanged. Two parameters added without a name have different names, and no two parameters share a name.", "quantifier": "for all sequences of calls, names and values, any float type", "why_tests_cant": "Default names depend on the position and so on all earlier calls; a test adds a few parameters, all with names or all without.", "anchors": [{"file": "pymcmcstat/settings/ModelParameters.py", "symbols": ["ModelParameters.__init__", "ModelParameters.add_model_parameter", "generate_default_name"]}]}
