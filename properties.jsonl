{"id": "C01", "title": "Coupled model file round trip", "statement": "For every coupled model accepted by save_model_to_JSON, load_model_from_JSON of the file just written succeeds and returns the same number of surfaces and modes and, for every parameter, the same values, where an array that is absent stands for an array of zeros.", "quantifier": "all models: any number of surfaces and modes, any subset of the optional arrays, any contents including all-zero arrays", "why_tests_cant": "Zero arrays are dropped on save and only some are recreated on load, so correctness depends on every combination of present, absent and all-zero arrays and every size; tests try random dense models.", "anchors": ["pibronic/vibronic/vibronic_model_io.py:save_model_to_JSON", "pibronic/vibronic/vibronic_model_io.py:load_model_from_JSON", "pibronic/vibronic/vibronic_model_io.py:_save_to_JSON", "pibronic/vibronic/vibronic_model_io.py:_load_from_JSON"]}
{"id": "C02", "title": "Diagonal (sampling) model file round trip", "statement": "For every diagonal model accepted by save_diagonal_model_to_JSON, load_diagonal_model_from_JSON of the file just written succeeds and returns the same dimensions and parameter values (absent = zeros).", "quantifier": "all diagonal models, including those whose energies are all zero", "why_tests_cant": "A random model has non-zero energies with probability one, so sampling never reaches the all-zero case where the loader rebuilds the energies with a coupled-model shape.", "anchors": ["pibronic/vibronic/vibronic_model_io.py:save_diagonal_model_to_JSON", "pibronic/vibronic/vibronic_model_io.py:load_diagonal_model_from_JSON", "pibronic/vibronic/vibronic_model_io.py:_load_from_JSON"]}
{"id": "C03", "title": "Saving rejects malformed models before touching the disk", "statement": "Saving a model whose dimensions are missing or in which some known array has the wrong shape raises and leaves every file unchanged; saving a well-formed model changes only the target file, and the caller's dictionary is the same afterwards.", "quantifier": "all dictionaries, all previous disk contents", "why_tests_cant": "Needs every possible malformed dictionary and every previous state of the disk.", "anchors": ["pibronic/vibronic/vibronic_model_io.py:verify_model_parameters", "pibronic/vibronic/vibronic_model_io.py:save_model_to_JSON", "pibronic/vibronic/vibronic_model_io.py:save_diagonal_model_to_JSON"]}
{"id": "C04", "title": "Loading into preallocated arrays leaves nothing stale", "statement": "When a model file is loaded into caller-provided arrays of the file's dimensions, every provided array afterwards holds exactly the file's values (zeros when the file omits it), whatever it held before; the result equals what a fresh load gives.", "quantifier": "all files written by the saver, all previous array contents", "why_tests_cant": "Stale values survive only for particular combinations of omitted keys and previous contents.", "anchors": ["pibronic/vibronic/vibronic_model_io.py:_load_inplace_from_JSON", "pibronic/pimc/pimc.py:ModelClass.load_model", "pibronic/pimc/pimc.py:ModelSampling.load_model"]}
{"id": "C05", "title": "Artificial coupling is a unitary change of basis", "statement": "create_fake_coupled_model replaces every surface matrix M of the model (energies and each mode's coupling matrix) by U M U^T; the new matrices are symmetric, have the same eigenvalues (characteristic polynomial) and trace, frequencies and dimensions are unchanged, and applying the routine again with U^T restores the original model.", "quantifier": "all symmetric models of any size and order of coupling, all orthonormal matrices", "why_tests_cant": "Floating point tests see a few sizes and matrices only; spectrum preservation must hold for all.", "anchors": ["pibronic/vibronic/vibronic_model_io.py:create_fake_coupled_model"]}
{"id": "C06", "title": "The model is never lost while coupling is created", "statement": "At every point where create_fake_coupled_model can crash, the model that was in coupled_model.json before the call is still complete in coupled_model.json or in original_coupled_model.json; after success it is in original_coupled_model.json.", "quantifier": "all crash points of a call, all disk contents; histories of repeated calls for the claim that the first, uncoupled model is kept", "why_tests_cant": "Tests cannot kill the process between every pair of file operations, nor try all histories of repeated calls.", "anchors": ["pibronic/vibronic/vibronic_model_io.py:create_fake_coupled_model", "pibronic/data/file_structure.py:FileStructure"]}
{"id": "C07", "title": "Removing the coupling keeps exactly the diagonal", "statement": "Zeroing the off-diagonal of a model keeps every diagonal entry, clears all others and is idempotent; remove_coupling_from_model writes a valid diagonal model whose entries are exactly the diagonal entries of the source, whether or not the source was zeroed first.", "quantifier": "all coupled models of any size", "why_tests_cant": "Must hold for all sizes, all coupling orders and absent arrays.", "anchors": ["pibronic/vibronic/vibronic_model_io.py:fill_offdiagonal_of_model_with_zeros", "pibronic/vibronic/vibronic_model_io.py:remove_coupling_from_model", "pibronic/vibronic/vibronic_model_io.py:create_harmonic_model", "pibronic/vibronic/vibronic_model_io.py:create_basic_diagonal_model"]}
{"id": "C08", "title": "Harmonic and sampling model files derived from any saved coupled model are loadable", "statement": "After a coupled model is saved, create_harmonic_model and create_basic_diagonal_model produce harmonic and sampling model files that load_diagonal_model_from_JSON accepts.", "quantifier": "all coupled models accepted by the saver", "why_tests_cant": "The failing case (all diagonal energies zero) has measure zero for random models.", "anchors": ["pibronic/vibronic/vibronic_model_io.py:create_harmonic_model", "pibronic/vibronic/vibronic_model_io.py:create_basic_diagonal_model", "pibronic/vibronic/vibronic_model_io.py:load_diagonal_model_from_JSON"]}
{"id": "C09", "title": "Tuned rotation matrices are orthonormal and ordered", "statement": "For any order and tuning parameter in [0,1] the created matrix is orthonormal; 0 gives the identity; the chosen sequence entry has the requested fraction of the maximal distance (up to the tolerance of numpy's isclose) or is the last one whose distance does not exceed it, so a larger parameter never gives a matrix closer to the identity; values outside [0,1], orders below one and orders without a stored sequence are rejected.", "quantifier": "all orders, all tuning parameters, all stored sequences that start at the identity and have increasing distances", "why_tests_cant": "The orthonormality of a matrix exponential and the monotonicity of the look-up concern a continuum of parameters.", "anchors": ["pibronic/vibronic/orthonormal/create.py:create_orthonormal_matrix_lambda_close_to_identity", "pibronic/vibronic/orthonormal/sequences.py:select_pair", "pibronic/vibronic/orthonormal/sequences.py:build_SKSM_and_identity"]}
{"id": "C10", "title": "Generated models are symmetric and valid", "statement": "generate_vibronic_model_data returns a model with correctly shaped arrays whose energies and every linear coupling matrix are symmetric in the surfaces, for every outcome of the random draws; with diagonal=True it returns a valid diagonal model.", "quantifier": "all random draws, all sizes", "why_tests_cant": "Random draws range over a continuum.", "anchors": ["pibronic/vibronic/vibronic_model_io.py:generate_vibronic_model_data", "pibronic/vibronic/vibronic_model_io.py:_generate_linear_terms"]}
{"id": "C11", "title": "Re-weighted sampling energies reproduce the single point energies", "statement": "After recalculate_energy_values_of_diagonal_model, the minimum of every diagonal oscillator (energy plus its linear displacement shift) equals the single point energy that was computed for that surface, and frequencies and couplings are unchanged; models with quadratic terms above numpy's tolerance are refused.", "quantifier": "all diagonal models with non-zero frequencies", "why_tests_cant": "An algebraic identity over all real parameters.", "anchors": ["pibronic/vibronic/vibronic_model_io.py:recalculate_energy_values_of_diagonal_model", "pibronic/vibronic/vibronic_model_io.py:simple_single_point_energy_calculation"]}
{"id": "C12", "title": "MCTDH operator files are read faithfully", "statement": "For every operator file that lists each coupling once (upper triangle of the surfaces), the model read from it has each listed value at its position and at the transposed position, diagonal entries unchanged, and zeros elsewhere.", "quantifier": "all numbers of surfaces and modes, all values", "why_tests_cant": "The rescaling loop is only right for one surface; test files contain no quadratic terms, so the wrong branch only multiplies zeros.", "anchors": ["pibronic/vibronic/model_op.py:read_model_op_file"]}
{"id": "C13", "title": "Result file names encode their parameters", "statement": "For PIMC result files and thermo files written in a results directory whose path contains no 'P', '_T', '_J' or '_X', the extraction functions return exactly the bead count, temperature text, job number and sample count used to build the name; different parameters give different names.", "quantifier": "all parameters (any natural number of beads, samples, jobs; any temperature rendered with two decimals), all directory paths", "why_tests_cant": "Splitting on substrings must be right for all numbers and directory names.", "anchors": ["pibronic/data/file_name.py:pimc", "pibronic/data/file_name.py:jackknife", "pibronic/data/postprocessing.py:extract_bead_value_from_pimc_file_path", "pibronic/data/postprocessing.py:extract_temperature_value_from_pimc_file_path", "pibronic/data/postprocessing.py:extract_job_value_from_pimc_file_path", "pibronic/data/postprocessing.py:extract_sample_value_from_thermo_file_path"]}
{"id": "C14", "title": "Parameter lists are sorted, unique and complete", "statement": "The bead, temperature and basis lists extracted from a list of files are strictly increasing and contain a value exactly when some file has it (for the basis list: when both the coupled and the sampling files have it); the order and multiplicity of the input files do not matter.", "quantifier": "all lists of file paths", "why_tests_cant": "Quantifies over all lists, orders and duplicates.", "anchors": ["pibronic/data/postprocessing.py:extract_bead_paramater_list", "pibronic/data/postprocessing.py:extract_temperature_paramater_list", "pibronic/data/postprocessing.py:extract_sos_basis_paramater_list"]}
{"id": "C15", "title": "Trotter result files can be enumerated", "statement": "extract_trotter_paramater_list maps every trotter file name to its basis size and bead number.", "quantifier": "all trotter file names", "why_tests_cant": "The function is never exercised by the tests; it fails on every input.", "anchors": ["pibronic/data/postprocessing.py:extract_bead_value_from_trotter_file_path", "pibronic/data/postprocessing.py:extract_trotter_paramater_list"]}
{"id": "C16", "title": "Hash pruning keeps exactly the results of the current models", "statement": "prune_results_using_hashes returns, in the original order, exactly those files whose two stored hashes both equal the current ones; files lacking a hash are dropped; a file of an unknown kind raises.", "quantifier": "all file lists and stored hashes", "why_tests_cant": "All combinations of present, absent, equal and different hashes in lists of any length.", "anchors": ["pibronic/data/postprocessing.py:prune_results_using_hashes"]}
{"id": "C17", "title": "Loading PIMC data for (P, T) selects exactly the files of that (P, T)", "statement": "The file pattern used to load data for a bead number and temperature matches a PIMC result file in the results directory exactly when the file was written for that bead number and that temperature text, whatever its job number.", "quantifier": "all parameter values and job numbers", "why_tests_cant": "Prefix confusion (P=1 versus P=10, T=30.00 versus T=300.00) must be excluded for all values.", "anchors": ["pibronic/data/postprocessing.py:load_pimc_data", "pibronic/data/file_structure.py:FileStructure.template_pimc", "pibronic/data/file_name.py:pimc"]}
{"id": "C18", "title": "Directory layout: every location is inside its data set and data sets never overlap", "statement": "All directories and files of a FileStructure lie under root/data_set_D/, the sampling ones under root/data_set_D/rho_R/; structures with different data ids share no location besides the root, and with different rho ids share no sampling location.", "quantifier": "all roots and ids", "why_tests_cant": "Needs all pairs of ids (e.g. 1 and 11) and all roots.", "anchors": ["pibronic/data/file_structure.py:FileStructure.__init__"]}
{"id": "C19", "title": "Switching the sampling distribution redirects all sampling paths", "statement": "After change_rho(r) every sampling location of the object is the one a fresh FileStructure with rho id r has, coupled-model locations are unchanged, the result does not depend on previous switches, and the four sampling sub-directories of r exist.", "quantifier": "all sequences of change_rho calls, all initial ids", "why_tests_cant": "A property of all call histories.", "anchors": ["pibronic/data/file_structure.py:FileStructure.change_rho", "pibronic/data/file_structure.py:FileStructure.make_rho_directories"]}
{"id": "C20", "title": "directories_exist reports whether the directories exist", "statement": "directories_exist returns True exactly when all directories of the structure exist.", "quantifier": "all file systems, all structures", "why_tests_cant": "Depends on every possible file system state and working directory.", "anchors": ["pibronic/data/file_structure.py:FileStructure.directories_exist", "pibronic/data/file_structure.py:FileStructure.make_directories"]}
{"id": "C21", "title": "Model hashes identify the models currently selected", "statement": "After generate_model_hashes() the stored hashes are those of the files currently at the coupled and sampling model paths.", "quantifier": "all histories of model rewrites, change_rho and generate_model_hashes calls, with and without force", "why_tests_cant": "A property of all call histories: stale hashes appear only after a particular sequence.", "anchors": ["pibronic/data/file_structure.py:FileStructure.generate_model_hashes", "pibronic/data/file_structure.py:FileStructure.change_rho"]}
{"id": "C22", "title": "Estimates do not depend on the order of the samples", "statement": "Z, E, Cv and their errors, basic and jackknife, are unchanged when the samples are permuted (all four arrays in the same way).", "quantifier": "all sample sets and permutations", "why_tests_cant": "All permutations of arrays of any length.", "anchors": ["pibronic/stats/stats.py:basic_statistical_analysis", "pibronic/stats/stats.py:basic_jackknife_analysis", "pibronic/stats/jackknife.py:estimate_jackknife"]}
{"id": "C23", "title": "Estimates do not depend on the per-sample scaling", "statement": "Multiplying g, g+, g- and rho of any individual sample by a common non-zero factor changes none of the reported values.", "quantifier": "all samples, all non-zero factors per sample", "why_tests_cant": "A continuum of factors for arrays of any length; this is what justifies the internal scaling of the O matrices.", "anchors": ["pibronic/stats/stats.py:calculate_basic_property_terms", "pibronic/pimc/pimc.py:scale_o_matrices"]}
{"id": "C24", "title": "Alpha analysis with unit alphas is the basic analysis", "statement": "When both alpha factors are one, the alpha statistical and alpha jackknife analyses return exactly the values of the basic ones.", "quantifier": "all sample sets, temperatures and analytic data", "why_tests_cant": "Equality over all real inputs.", "anchors": ["pibronic/stats/stats.py:alpha_statistical_analysis", "pibronic/stats/stats.py:alpha_jackknife_analysis", "pibronic/stats/jackknife.py:calculate_alpha_jackknife_terms"]}
{"id": "C25", "title": "Jackknife replicates are leave-one-out means and the estimator is bias corrected", "statement": "The i-th jackknife replicate of an array is the mean of the array without its i-th entry; the mean of the replicates is the mean of the array; for a statistic that is linear in the sample means the jackknife estimate equals the plain estimate; errors are never negative and vanish when all replicates agree.", "quantifier": "all arrays of length at least two", "why_tests_cant": "Identities over all lengths and values.", "anchors": ["pibronic/stats/jackknife.py:calculate_jackknife_term", "pibronic/stats/jackknife.py:estimate_jackknife"]}
{"id": "C26", "title": "Constant ratios give exact answers", "statement": "If g, g+ and g- are fixed multiples of rho for every sample (same multiples for all samples), then Z, E and Cv equal the exact finite difference values of those multiples plus the analytic sampling contribution, the jackknife values are identical to the plain ones and all errors are zero.", "quantifier": "all sample numbers >= 2, all multiples", "why_tests_cant": "Exactness must hold for all inputs of this form.", "anchors": ["pibronic/stats/stats.py:estimate_basic_properties", "pibronic/stats/jackknife.py:estimate_jackknife"]}
{"id": "C27", "title": "The analytic contribution is added exactly once", "statement": "In the basic and the jackknife outputs, E and Cv contain the sampling model's E and Cv exactly once; errors and Z do not depend on it.", "quantifier": "all inputs", "why_tests_cant": "The jackknife estimator multiplies its input by the number of samples, so adding before or after differs for all inputs.", "anchors": ["pibronic/stats/stats.py:add_harmonic_contribution", "pibronic/stats/stats.py:basic_jackknife_analysis", "pibronic/stats/stats.py:alpha_jackknife_analysis"]}
{"id": "C28", "title": "Every available (P, T) is analysed and written once", "statement": "If each bead/temperature combination has data and analytic results, and the object's hashes are not stale, the analysis writes, in whatever order the processes run, exactly one thermo file per combination, named after that combination and its number of samples, carrying the current hashes and the statistics of all its samples; no other file changes. If a combination lacks data it raises.", "quantifier": "all sets of result files and all schedules of the worker processes", "why_tests_cant": "All possible sets of result files, including incomplete grids, and all orders of the workers.", "anchors": ["pibronic/stats/stats.py:statistical_analysis_of_pimc", "pibronic/stats/stats.py:starmap_wrapper"]}
{"id": "C29", "title": "Only results of the current models enter the analysis", "statement": "A thermo file stamped with the current hashes is computed only from result files carrying these hashes.", "quantifier": "all sets of result files and hashes", "why_tests_cant": "Needs result files from older models left in the directory.", "anchors": ["pibronic/stats/stats.py:starmap_wrapper", "pibronic/data/postprocessing.py:load_pimc_data", "pibronic/pimc/pimc.py:BoxResultPM.load_multiple_results"]}
{"id": "C30", "title": "Folding the linear terms is completing the square", "statement": "For every surface, energy + sum of linear and harmonic terms at a point R equals (energy + displacement shift) + harmonic terms at R minus the surface's shift: precomputation removes exactly the terms that the shifted oscillators carry.", "quantifier": "all models with non-zero frequencies, all points", "why_tests_cant": "Identity over all reals.", "anchors": ["pibronic/pimc/pimc.py:ModelVibronic.compute_linear_displacement", "pibronic/pimc/pimc.py:ModelVibronic.finish_folding_in_terms", "pibronic/pimc/pimc.py:ModelSampling.compute_linear_displacement"]}
{"id": "C31", "title": "Sampling weights are a probability distribution", "statement": "The surface weights of a sampling model are positive and sum to one, a lower minimum never has a smaller weight, and shifting all energies by a constant changes nothing.", "quantifier": "all sampling models with at least one surface, all positive temperatures", "why_tests_cant": "All real parameters.", "anchors": ["pibronic/pimc/pimc.py:ModelSampling.compute_weight_for_each_state"]}
{"id": "C32", "title": "Sampling standard deviations are well defined", "statement": "For all bead numbers >= 3, positive frequencies and temperatures, every inverse covariance is strictly positive, so no NaN or division by zero can occur in the standard deviations.", "quantifier": "all bead numbers, frequencies, temperatures", "why_tests_cant": "Relies on the spectrum of the circulant matrix for all sizes.", "anchors": ["pibronic/pimc/pimc.py:BoxData.preprocess", "pibronic/pimc/pimc.py:ModelSampling.compute_sampling_constants"]}
{"id": "C33", "title": "The denominator is the sampling density", "statement": "The computed denominator of a sample is, up to one constant factor that does not depend on the sample, the density of the Gaussian mixture the sample was drawn from.", "quantifier": "all sampling models, all sample points, all bead numbers >= 3", "why_tests_cant": "An identity between two different code paths (drawing in collective coordinates, evaluating in bead coordinates) for all points.", "anchors": ["pibronic/pimc/pimc.py:ModelSampling.draw_sample", "pibronic/pimc/pimc.py:BoxData.transform_sampled_coordinates", "pibronic/pimc/pimc.py:build_o_matrix", "pibronic/pimc/pimc.py:build_denominator"]}
{"id": "C34", "title": "The scaling factors cancel", "statement": "The ratio g/rho stored for a sample is the ratio of the unscaled quantities; scaled denominators are positive; exactly the potentials that are not symmetric to numpy's precision are refused.", "quantifier": "all models, all sample points", "why_tests_cant": "All real inputs.", "anchors": ["pibronic/pimc/pimc.py:build_scaling_factors", "pibronic/pimc/pimc.py:scale_o_matrices", "pibronic/pimc/pimc.py:build_denominator", "pibronic/pimc/pimc.py:build_numerator"]}
{"id": "C35", "title": "Sampling the exact model has zero variance", "statement": "If the system model has no coupling and the sampling model is its diagonal, then for every sample g equals rho, so Z is exactly one with zero error.", "quantifier": "all diagonal models without quadratic terms, all sample points, all bead numbers", "why_tests_cant": "Must hold for every point of the sample space.", "anchors": ["pibronic/pimc/pimc.py:block_compute", "pibronic/vibronic/vibronic_model_io.py:create_basic_diagonal_model"]}
{"id": "C36", "title": "The integrand does not depend on which bead is first", "statement": "Rotating the bead labels of a path leaves the numerator g and the denominator rho unchanged.", "quantifier": "all paths, all rotations", "why_tests_cant": "All real paths of any number of beads.", "anchors": ["pibronic/pimc/pimc.py:build_numerator", "pibronic/pimc/pimc.py:build_o_matrix", "pibronic/pimc/pimc.py:build_denominator"]}
{"id": "C37", "title": "The integrand does not depend on the choice of electronic basis ordering", "statement": "Relabelling (permuting) the electronic surfaces of both models leaves g and rho of every path unchanged.", "quantifier": "all models, paths and permutations of surfaces", "why_tests_cant": "All real inputs and permutations.", "anchors": ["pibronic/pimc/pimc.py:build_numerator", "pibronic/pimc/pimc.py:diagonalize_coupling_matrix"]}
{"id": "C38", "title": "The energy finite difference is taken on the right function", "statement": "The plus and minus numerators are the numerator function evaluated at the inverse temperature beta +- delta_beta.", "quantifier": "all models and paths", "why_tests_cant": "All real inputs; the deviation shows only in models with coupling.", "anchors": ["pibronic/pimc/pimc.py:block_compute_pm", "pibronic/pimc/pimc.py:build_numerator", "pibronic/pimc/pimc.py:ModelVibronicPM.precompute"]}
{"id": "C39", "title": "Blocks cover all requested samples exactly once", "statement": "The block loop computes every one of the requested samples exactly once and nothing outside the arrays.", "quantifier": "all numbers of samples and block sizes", "why_tests_cant": "Boundary arithmetic for all combinations.", "anchors": ["pibronic/pimc/pimc.py:block_compute", "pibronic/pimc/pimc.py:block_compute_pm", "pibronic/server/job_boss.py:PimcSubmissionClass.setup_blocks_and_jobs"]}
{"id": "C40", "title": "Loading several result files concatenates them", "statement": "load_multiple_results with distinct files yields the samples of all usable files, each exactly once, in some order of the files; its sample count is the total; unusable files (missing keys) are ignored; a zero denominator is refused.", "quantifier": "all sets of files, all contents, all iteration orders of the path set", "why_tests_cant": "Set iteration order is arbitrary and differs between runs.", "anchors": ["pibronic/pimc/pimc.py:BoxResult.load_multiple_results", "pibronic/pimc/pimc.py:BoxResultPM.load_multiple_results"]}
{"id": "C41", "title": "A sample limit is respected when loading", "statement": "load_multiple_results with desired_number_of_samples loads exactly the minimum of the limit and the available samples.", "quantifier": "all limits, all sets of files, all iteration orders", "why_tests_cant": "The failing case needs a limit that ends inside a later file.", "anchors": ["pibronic/pimc/pimc.py:BoxResult.load_multiple_results", "pibronic/pimc/pimc.py:BoxResultPM.load_multiple_results"]}
{"id": "C42", "title": "Saved results can be loaded back", "statement": "Results saved by save_results can be loaded by load_results into an object that expects the same number of samples, giving the same arrays.", "quantifier": "all results", "why_tests_cant": "An identity comparison of a freshly read array scalar with an int fails on every run but is not exercised.", "anchors": ["pibronic/pimc/pimc.py:BoxResult.save_results", "pibronic/pimc/pimc.py:BoxResult.load_results"]}
{"id": "C43", "title": "Temperature and inverse temperature conversions are inverse", "statement": "extract_T_from_beta(beta(T)) = T and beta(extract_T_from_beta(b)) = b, beta is strictly decreasing in T > 0.", "quantifier": "all non-zero temperatures", "why_tests_cant": "All reals.", "anchors": ["pibronic/constants.py:beta", "pibronic/constants.py:extract_T_from_beta"]}
{"id": "C44", "title": "Job parameters survive the trip through the batch system", "statement": "A parameter dictionary serialised for a job is decoded by the job to the same parameters, its text fits into one environment variable, and the job's members are the submitted values; a missing required value is an error.", "quantifier": "all parameter dictionaries (numbers, strings, lists and dictionaries of any depth)", "why_tests_cant": "The comma replacement is global, so it depends on every character of every string.", "anchors": ["pibronic/pimc/pimc.py:BoxData.json_serialize", "pibronic/pimc/pimc.py:BoxData.load_json_string", "pibronic/server/job_boss.py:serialize_BoxData_dictionary"]}
{"id": "C45", "title": "Jobs cover the requested number of samples within the limit", "statement": "The submitted jobs together compute at least the requested number of samples, no job computes more than the maximum per job, each job's blocks cover its samples, and at least one job is submitted.", "quantifier": "all sample numbers and block sizes", "why_tests_cant": "Rounding errors appear only for non-multiples.", "anchors": ["pibronic/server/job_boss.py:PimcSubmissionClass.setup_blocks_and_jobs", "pibronic/server/job_boss.py:PimcSubmissionClass.submit_jobs"]}
{"id": "C46", "title": "One batch of jobs per bead and temperature", "statement": "submit_jobs submits exactly n_jobs jobs for each pair in temperature_list x bead_list, each with that pair's parameters, and leaves the submission object's parameters as set up.", "quantifier": "all lists of temperatures and beads", "why_tests_cant": "All list lengths.", "anchors": ["pibronic/server/job_boss.py:PimcSubmissionClass.submit_jobs"]}
{"id": "C47", "title": "Submission objects are independent", "statement": "Creating or using one submission object does not change the parameters of another one.", "quantifier": "all histories of creating and configuring submission objects", "why_tests_cant": "Sharing shows only in histories with two or more objects.", "anchors": ["pibronic/server/job_boss.py:SubmissionClass.__init__", "pibronic/server/job_boss.py:PimcSubmissionClass"]}
{"id": "C48", "title": "Waiting for a job ends only when the job has completed", "statement": "synchronize_with_job returns only if the scheduler's record contains COMPLETED, raises when the scheduler reports an error, and otherwise keeps waiting.", "quantifier": "all sequences of scheduler answers and signals", "why_tests_cant": "All schedules of scheduler answers.", "anchors": ["pibronic/server/job_boss.py:synchronize_with_job", "pibronic/server/job_boss.py:SIGUSR1_handle"]}
{"id": "C49", "title": "The job id is read from the submission message", "statement": "For the message 'Submitted batch job N' the extracted id is N; for shorter messages it is None.", "quantifier": "all job numbers", "why_tests_cant": "All numbers.", "anchors": ["pibronic/server/job_boss.py:extract_id_job_from_output"]}
{"id": "C50", "title": "Analytic result files never mix models", "statement": "After any history of calculations, model changes, failures and external truncation to an empty file, every temperature entry of a results file was computed for the models whose hashes the file carries.", "quantifier": "all histories of calculations and model rewrites", "why_tests_cant": "A property of all histories.", "anchors": ["pibronic/julia_wrapper.py:base_func", "pibronic/julia_wrapper.py:validate_old_rho_data", "pibronic/julia_wrapper.py:validate_old_model_data"]}
{"id": "C51", "title": "A calculation adds its temperature and keeps the others", "statement": "A successful calculation with unchanged models writes its temperature's entry and leaves the other temperatures' entries as they were; with changed models it discards all old entries; a failed calculation raises and leaves the file unchanged.", "quantifier": "all previous file contents, all outputs of the external program", "why_tests_cant": "All contents and outputs.", "anchors": ["pibronic/julia_wrapper.py:base_func", "pibronic/julia_wrapper.py:compute", "pibronic/julia_wrapper.py:convert_keys"]}
{"id": "C52", "title": "Stored analytic results can be used by the statistics", "statement": "After analytic_of_sampling_model succeeded for a temperature with the current models, load_analytic_data for that temperature succeeds.", "quantifier": "all temperatures, all outputs of the external program", "why_tests_cant": "The producer and consumer use different key names, which only an end-to-end run shows; that needs Julia.", "anchors": ["pibronic/julia_wrapper.py:convert_keys", "pibronic/julia_wrapper.py:keyDict", "pibronic/data/postprocessing.py:load_analytic_data"]}
{"id": "C53", "title": "The electronic structure workflow resumes after the last completed stage", "statement": "When the state file lists completed stages, a restarted workflow continues with the stage after the last recorded one; it never skips a stage that was not recorded and never repeats a recorded one.", "quantifier": "all crash points, all histories of restarts", "why_tests_cant": "All crash points and restart histories.", "anchors": ["pibronic/vibronic/electronic_structure.py:VibronExecutionClass._set_state_from_file", "pibronic/vibronic/electronic_structure.py:VibronExecutionClass.calculate_vibronic_model"]}
{"id": "C54", "title": "The workflow runs its stages in order", "statement": "An uninterrupted run executes optimisation, NIP estimation, vibrational, IP-EOMCC, preparation and vibronic stages exactly once each in this order and records each after it is done.", "quantifier": "all runs in which the stages succeed", "why_tests_cant": "Statement about the trace of the run.", "anchors": ["pibronic/vibronic/electronic_structure.py:VibronExecutionClass.calculate_vibronic_model", "pibronic/vibronic/electronic_structure.py:State"]}
{"id": "C55", "title": "Line skipping helpers find line starts", "statement": "Skipping back or forward n lines in a buffer lands exactly on the n-th newline before or after the start position, or on the furthest one when there are fewer than n (and stays where it was when there is none); the string search finds the first or last occurrence or raises.", "quantifier": "all byte strings, positions and counts", "why_tests_cant": "All buffers.", "anchors": ["pibronic/vibronic/electronic_structure.py:skip_back_n_lines", "pibronic/vibronic/electronic_structure.py:skip_forward_n_lines", "pibronic/helper.py"]}
{"id": "C56", "title": "Error bars are the standard ones", "statement": "The reported error of the partition function ratio is the standard error of the mean; the reported jackknife error is the textbook jackknife standard error sqrt((n-1)/n * sum (r_i - mean r)^2).", "quantifier": "all arrays of length at least two", "why_tests_cant": "A factor depending on the number of samples is invisible in tests with loose tolerances.", "anchors": ["pibronic/stats/jackknife.py:estimate_jackknife", "pibronic/stats/stats.py:basic_jackknife_analysis", "pibronic/stats/stats.py:basic_statistical_analysis"]}
{"id": "C57", "title": "Loading a model file into arrays of other dimensions is rejected", "statement": "Loading a model file into a given dictionary of arrays either fills every array with the file's values or raises; a file with another number of surfaces or modes never fills the arrays.", "quantifier": "all files, all dictionaries of arrays of any dimensions", "why_tests_cant": "numpy assignment broadcasts silently for some combinations of dimensions; a test covers single combinations.", "anchors": ["pibronic/vibronic/vibronic_model_io.py:_load_inplace_from_JSON", "pibronic/vibronic/vibronic_model_io.py:load_model_from_JSON", "pibronic/vibronic/vibronic_model_io.py:load_diagonal_model_from_JSON"]}
{"id": "C58", "title": "Model comparison decides equality of models", "statement": "The comparison of two model dictionaries answers True exactly when both describe the same model: same dimensions and the same value of every parameter to numpy's precision, where a missing parameter counts as zero.", "quantifier": "all pairs of well-formed model dictionaries with any set of keys and fewer than 100000 modes and surfaces", "why_tests_cant": "All pairs of dictionaries.", "anchors": ["pibronic/vibronic/vibronic_model_io.py:_same_model", "pibronic/vibronic/vibronic_model_io.py:_same_diagonal_model"]}
{"id": "C59", "title": "The stored ratio is an unbiased estimator", "statement": "The expectation of the stored ratio g/rho of a path drawn by the program is the integral of the system integrand divided by the integral of the sampling integrand, so the reported Z has this quotient as its expectation for every number of samples; the expectation exists for models with linear couplings and for models whose quadratic couplings are small against the frequencies, and for one mode only for these.", "quantifier": "all models, all temperatures, all bead numbers >= 3, all numbers of samples", "why_tests_cant": "An expectation over a continuous distribution; a test sees one random number.", "anchors": ["pibronic/pimc/pimc.py:ModelSampling.draw_sample", "pibronic/pimc/pimc.py:block_compute", "pibronic/stats/stats.py:basic_statistical_analysis"]}
{"id": "C60", "title": "The estimates converge", "statement": "With independent samples everything the analyses report settles with probability one when the number of samples grows: Z tends to the quotient of the integrals, E and Cv (plain and jackknife, with and without the alpha factors) to the difference quotients of the integrals that the program samples plus the analytic contributions, and the reported errors tend to zero.", "quantifier": "all models with linear couplings and small quadratic couplings, all temperatures, all bead numbers >= 3", "why_tests_cant": "A statement about infinitely many samples.", "anchors": ["pibronic/pimc/pimc.py:block_compute_pm", "pibronic/stats/stats.py:basic_statistical_analysis"]}
{"id": "C61", "title": "The harmonic part has no discretisation error", "statement": "For every number of beads >= 3 the integral of the sampling integrand is the textbook partition function of the displaced oscillators (times sqrt(2 pi) per coordinate), so the mean ratio times the analytic partition function of the sampling model is the discretised partition function of the system.", "quantifier": "all sampling models, all temperatures, all bead numbers >= 3", "why_tests_cant": "An identity between integrals of unbounded dimension.", "anchors": ["pibronic/pimc/pimc.py:build_o_matrix", "pibronic/pimc/pimc.py:build_denominator", "pibronic/pimc/pimc.py:TemperatureDependentClass"]}
{"id": "C62", "title": "Jobs of one submission do not overwrite each other's results", "statement": "Two jobs with different Slurm job ids, bead numbers or temperatures write their samples to different files, so no job destroys the results of another one.", "quantifier": "all pairs of jobs, all directories", "why_tests_cant": "All pairs of names.", "anchors": ["pibronic/pimc/pimc.py:BoxResult.save_results", "pibronic/data/file_name.py:pimc"]}
{"id": "C63", "title": "A resume signal is never lost and never ends the waiting process", "statement": "While the driver waits for a job, the signal that announces the end of the job ends the wait whenever it arrives: before, while or after the process goes to sleep, and its arrival never terminates the process.", "quantifier": "all interleavings of the signal, the signal handler, the alarm and the main thread", "why_tests_cant": "Races between a signal handler and the main thread cannot be scheduled by a test.", "anchors": ["pibronic/server/job_boss.py:SIGUSR1_handle", "pibronic/server/job_boss.py:synchronize_with_job"]}
{"id": "C64", "title": "A data object can write down its own parameters", "statement": "Encoding a data object without further arguments produces a text from which an equal object can be built; encoding given parameters produces a text that decodes to them.", "quantifier": "all data objects, all parameter dictionaries", "why_tests_cant": "All member values and all dictionaries.", "anchors": ["pibronic/pimc/pimc.py:BoxData.encode_self", "pibronic/pimc/pimc.py:BoxData.json_serialize", "pibronic/server/server.py:ServerExecutionParameters"]}
{"id": "C65", "title": "States with too few single excitations are dropped", "statement": "After the ionisation calculation the number of ionised states that is used is the largest one, at most the initial guess, for which every state of the table has a percentage of singles above the cutoff; when there is none the workflow stops.", "quantifier": "all output tables, all initial numbers of states", "why_tests_cant": "All tables.", "anchors": ["pibronic/vibronic/electronic_structure.py:parse_ip_output", "pibronic/vibronic/electronic_structure.py:verify_ip_states"]}
{"id": "C66", "title": "Cleaning an effective Hamiltonian file keeps exactly the right part", "statement": "Removing the extra effective Hamiltonians from an output file keeps exactly the text from the beginning of the first line that contains the target on; a file without the target is rejected and left as it is; cleaning twice is the same as cleaning once.", "quantifier": "all file contents", "why_tests_cant": "All file contents.", "anchors": ["pibronic/vibronic/electronic_structure.py:_remove_extra_heff"]}
{"id": "C67", "title": "Writing the number of states changes only the placeholder", "statement": "Writing the number of ionised states into the input of the coupling calculation replaces the placeholder and nothing else.", "quantifier": "all templates, all numbers", "why_tests_cant": "All templates.", "anchors": ["pibronic/vibronic/electronic_structure.py:_add_nip_to_file"]}
{"id": "C68", "title": "The completion check looks at the last ten lines", "statement": "The check of a calculation's output succeeds exactly when the success message is in one of the last ten lines of the file, and raises otherwise.", "quantifier": "all file contents", "why_tests_cant": "All file contents.", "anchors": ["pibronic/vibronic/electronic_structure.py:verify_aces2_completed", "pibronic/vibronic/electronic_structure.py:parse_vibron_output"]}
{"id": "C69", "title": "The parameter file of a molecule decides its calculation", "statement": "After reading a parameter file every parameter has the last value the file gives for it and its default otherwise, independently of other molecules treated in the same process; the file is accepted exactly when basis, theory and kind of calculation are supported; an unknown header or a missing value is an error.", "quantifier": "all parameter files, all histories of the process", "why_tests_cant": "All files, and all sequences of files in one process.", "anchors": ["pibronic/vibronic/electronic_structure.py:VibronExecutionClass.parse_input_parameters"]}
{"id": "C70", "title": "The geometry survives reading, updating and writing", "statement": "Reading a geometry file and writing it again reproduces relations and coordinates in order (without the optimisation marks when they are not asked for); new values replace exactly the coordinates they name; new cartesian coordinates replace the last lines; more lines than before are rejected.", "quantifier": "all geometry files, all updates", "why_tests_cant": "All texts.", "anchors": ["pibronic/vibronic/electronic_structure.py:ZmatClass"]}
{"id": "C71", "title": "The optimised geometry is taken from the output", "statement": "After a geometry optimisation the geometry used by the later stages is the one in the summary of the output; when there is no complete summary the workflow stops with an error.", "quantifier": "all outputs, all geometries", "why_tests_cant": "All texts.", "anchors": ["pibronic/vibronic/electronic_structure.py:parse_opt_output"]}
{"id": "C72", "title": "Input files describe the requested calculation", "statement": "The input file of each calculation is the current geometry followed by the keywords with the requested basis, theory, numerical parameters and number of states.", "quantifier": "all geometries, all parameters", "why_tests_cant": "All geometries and parameters.", "anchors": ["pibronic/vibronic/electronic_structure.py:hartree_fock_calculation", "pibronic/vibronic/electronic_structure.py:geometry_optimization", "pibronic/vibronic/electronic_structure.py:vibrational_frequency", "pibronic/vibronic/electronic_structure.py:ip_calculation", "pibronic/vibronic/electronic_structure.py:prepVibron_calculation"]}
{"id": "C73", "title": "Numbers of orbitals are suggested from the largest gap and confirmed by the user", "statement": "The suggested number of ionised states is the number of orbitals above the largest ratio of neighbouring energies, leaving out the dropped orbitals; a number is used only after the user agreed to it.", "quantifier": "all lists of orbital energies, all numbers of dropped orbitals, all sequences of answers", "why_tests_cant": "All lists and all dialogues.", "anchors": ["pibronic/vibronic/electronic_structure.py:_guess_NIP_value", "pibronic/vibronic/electronic_structure.py:_estimate_NIP", "pibronic/vibronic/electronic_structure.py:_estimate_dropmo", "pibronic/vibronic/electronic_structure.py:get_yes_no_from_user", "pibronic/vibronic/electronic_structure.py:get_integer_from_user"]}
{"id": "C74", "title": "Generated sequences start at the identity and move away from it", "statement": "Every sequence file that generate_full_monotonic_sequence saves starts with (0, 0), its distances increase strictly, every row records the Frobenius distance from the identity of the rotation for its argument, and there are at least fifty rows; for order one the generation fails.", "quantifier": "all orders up to fifteen (the program generates two to ten)", "why_tests_cant": "The sampled points say nothing about the behaviour of the matrix exponential between them; that the distance increases up to the chosen end point is a statement about the spectrum.", "anchors": ["pibronic/vibronic/orthonormal/sequences.py:generate_full_monotonic_sequence", "pibronic/vibronic/orthonormal/sequences.py:list_of_turning_points", "pibronic/vibronic/orthonormal/sequences.py:generate_and_save_x_pairs", "pibronic/vibronic/orthonormal/sequences.py:save_sequence"]}
{"id": "C75", "title": "Training data for g holds the values of g", "statement": "Every value that the training functions store for a path is the unscaled integrand g of the model at exactly this path: at the sampled path in block_compute_gR, at the saved coordinates in block_compute_gR_from_raw_samples.", "quantifier": "all models, all paths, all numbers of beads", "why_tests_cant": "All coordinates and all models; the tests only look at shapes.", "anchors": ["pibronic/pimc/pimc.py:block_compute_gR", "pibronic/pimc/pimc.py:block_compute_gR_from_raw_samples", "pibronic/pimc/pimc.py:BoxData.generate_random_R_values", "pibronic/pimc/pimc.py:build_o_matrix"]}
{"id": "C76", "title": "Training data for rho holds the values of rho", "statement": "Every value that block_compute_rhoR_from_input_samples stores for given coordinates is the sampling density of the sampling model at these coordinates, independently of earlier calculations with the same object.", "quantifier": "all systems, all sampling models, all coordinates, all earlier calculations", "why_tests_cant": "All coordinates, models and histories.", "anchors": ["pibronic/pimc/pimc.py:block_compute_rhoR_from_input_samples", "pibronic/pimc/pimc.py:build_o_matrix", "pibronic/pimc/pimc.py:build_denominator"]}
{"id": "C77", "title": "A calculation uses the models in the files", "statement": "Preparing an object that was made from a directory loads exactly the coupled model and the sampling model stored there; missing files and a sampling model with another number of modes are refused.", "quantifier": "all pairs of models, all contents of the disk, all temperatures and numbers of beads", "why_tests_cant": "All models; that a term of a model is ignored does not show in a test with a model without it.", "anchors": ["pibronic/pimc/pimc.py:BoxData.from_FileStructure", "pibronic/pimc/pimc.py:BoxData.preprocess", "pibronic/pimc/pimc.py:BoxData.initialize_models", "pibronic/pimc/pimc.py:ModelClass.load_model", "pibronic/pimc/pimc.py:ModelSampling.load_model", "pibronic/vibronic/vibronic_model_io.py:extract_dimensions_of_model", "pibronic/vibronic/vibronic_model_io.py:extract_dimensions_of_diagonal_model"]}
{"id": "C78", "title": "A prepared calculation has the temperatures that were asked for", "statement": "After preparation the time steps are those of the object's temperature and number of beads, and of beta plus and minus delta beta, whatever the object held before, and the object's own plus and minus values are the ones used; fewer than three beads are refused.", "quantifier": "all objects, all histories of assignments and preparations", "why_tests_cant": "All histories of an object.", "anchors": ["pibronic/pimc/pimc.py:BoxData.preprocess", "pibronic/pimc/pimc.py:BoxDataPM.preprocess", "pibronic/pimc/pimc.py:ModelVibronicPM.precompute"]}
{"id": "C79", "title": "A finished calculation is saved", "statement": "When all blocks of a calculation were computed, the results are in a file.", "quantifier": "all ways to make the data object, all numbers of samples and blocks", "why_tests_cant": "The calculation must be finished before the failure shows.", "anchors": ["pibronic/pimc/pimc.py:simple_wrapper", "pibronic/pimc/pimc.py:plus_minus_wrapper", "pibronic/pimc/pimc.py:block_compute", "pibronic/pimc/pimc.py:block_compute_pm", "pibronic/pimc/pimc.py:BoxResult.save_results", "pibronic/pimc/pimc.py:BoxData.from_FileStructure"]}
{"id": "C80", "title": "Plotting loads exactly the current results", "statement": "A plotting object has the bead numbers, temperatures and sample numbers, in increasing order, for which the results directory has a thermo file calculated from the models now in the model files; each entry of its table is the number stored in the file with these parameters, and NaN if there is none; files of other models are never read into it.", "quantifier": "all directories with names the program gives, all contents of the files, all orders of the listing, all models", "why_tests_cant": "All sets of files; a number in the wrong cell looks like a number.", "anchors": ["pibronic/plotting/plotting.py:plot_Z_test.generate_file_lists", "pibronic/plotting/plotting.py:plot_Z_test.generate_parameter_lists", "pibronic/plotting/plotting.py:plot_Z_test.load_data", "pibronic/plotting/plotting.py:plot_Z_multiple_FS.load_pimc_data", "pibronic/plotting/plotting.py:plot_original_Z_test", "pibronic/plotting/virtual.py:plottingBase"]}
{"id": "C81", "title": "Plotted percentages are relative to the exact result", "statement": "For each result the plotted percentage is 100 (Z Zrho - Zexact) / Zexact and its error bar 100 dZ Zrho / Zexact, with the exact partition functions of the current sampling model and of the current original model at the same temperature; energies and heat capacities are not changed.", "quantifier": "all results, all numbers of temperatures and samples, all analytic files", "why_tests_cant": "All combinations of parameters; a factor taken from another temperature gives a plausible figure.", "anchors": ["pibronic/plotting/plotting.py:plot_original_Z_test.prepare_data", "pibronic/plotting/plotting.py:plot_original_Z_vs_diagonal_test.prepare_data", "pibronic/plotting/plotting.py:load_analytical_original", "pibronic/plotting/plotting.py:load_analytical_sampling"]}
{"id": "C82", "title": "Abscissas are imaginary time steps", "statement": "The abscissas of a curve are beta / P for the bead numbers in the list, in its order.", "quantifier": "all lists of bead numbers, all temperatures", "why_tests_cant": "All lists.", "anchors": ["pibronic/plotting/plotting.py:plot_original_Z_test.generate_tau_values", "pibronic/plotting/plotting.py:plot_Z_multiple_FS.generate_tau_values"]}
{"id": "C83", "title": "A saved figure shows all current results and nothing else", "statement": "Every current result is a point of the saved figure at its time step, with its value and its error bar, on the curve of its temperature and sample number; every point of the figure is a current result; there is a figure for each of the quantities that the class announces.", "quantifier": "all results directories, all models, any number of temperatures", "why_tests_cant": "All sets of results; figures are not compared in tests.", "anchors": ["pibronic/plotting/plotting.py:plot_original_Z_test.plot_Z", "pibronic/plotting/plotting.py:plot_original_Z_vs_diagonal_test.plot_Z", "pibronic/plotting/plotting.py:plot_Z_test.plot_Z", "pibronic/plotting/plotting.py:plot_Z_test.plot_E", "pibronic/plotting/plotting.py:plot_Z_test.plot_Cv", "pibronic/plotting/plotting.py:plot_sos_Z_vs_rho_n", "pibronic/plotting/plotting.py:plot_rectangle"]}
{"id": "C84", "title": "Sum over states and Trotter results belong to their object", "statement": "Each object gets the results of its own files at its own temperatures; a missing Trotter result is NaN, and never an exception.", "quantifier": "all lists of objects, all subsets of existing files", "why_tests_cant": "All subsets of files; the results of another object look plausible.", "anchors": ["pibronic/plotting/plotting.py:load_sos", "pibronic/plotting/plotting.py:load_trotter_coupled"]}
{"id": "C85", "title": "Grid figures show the model", "statement": "Plotting the energies, linear or quadratic terms saves one figure for each matrix of the original and of the coupled model (for each mode, or pair of modes), under a name no other figure has; the square in row a and column b shows the entry (a, b) of that matrix and is marked with its sign.", "quantifier": "all models, all numbers of surfaces and modes", "why_tests_cant": "All models; a mark on the wrong square does not show in a symmetric test model.", "anchors": ["pibronic/plotting/grid_plots.py:plotGrids.plot_energy", "pibronic/plotting/grid_plots.py:plotGrids.plot_linear_coupling", "pibronic/plotting/grid_plots.py:plotGrids.plot_quadratic_coupling", "pibronic/plotting/grid_plots.py:plotGrids.annotate_intensity_grid", "pibronic/plotting/grid_plots.py:plotGrids.generate_sign_array"]}
{"id": "C86", "title": "Parameters for the analysis with sum over states results", "statement": "For result files with the names the program gives them, the lists of bead numbers, temperatures (and numbers of samples) handed to the older analysis hold exactly the values that occur in the names, and the list of basis sizes exactly those for which both models have a sum over states file; every list is in increasing order without repetitions, also when the directory's path has capital letters.", "quantifier": "all sets of result files, all directories whose path does not hold the separators", "why_tests_cant": "All names and all directories; a test has one short path.", "anchors": ["pibronic/data/postprocessing.py:extract_pimc_parameters", "pibronic/data/postprocessing.py:extract_jackknife_parameters", "pibronic/data/postprocessing.py:retrive_file_paths_for_jackknife"]}
{"id": "C87", "title": "Sum over states results of the sampling model", "statement": "What is loaded for the sampling model at a temperature is what the file lists for that very temperature, the two ratios are those of the listed partition functions, and a file that is missing, is not JSON, lists no temperatures or not the requested one is reported.", "quantifier": "all files, all temperatures, whatever was loaded before", "why_tests_cant": "All files and temperatures, and the failures of the file system a test does not produce.", "anchors": ["pibronic/data/postprocessing.py:load_rho_sos_data"]}
{"id": "C88", "title": "Models in automatically generated files", "statement": "Reading a file with the documented layout (title, header, parent gradient, parent Hessian, reference Hamiltonian, gradients, diagonal and off-diagonal second order corrections) gives the model whose entries are the numbers in the file, with every off-diagonal quadratic term for both orders of the modes; blank lines and rulers do not matter and a model that is not symmetric in the surfaces is rejected.", "quantifier": "all files with the documented layout, any number of surfaces and modes", "why_tests_cant": "All files; a test has one molecule, and the reader consumes lines in a fixed order.", "anchors": ["pibronic/vibronic/model_auto.py:read_model_auto_file", "pibronic/vibronic/model_auto.py:fill_in_offdiagonal_quadratic_couplings", "pibronic/vibronic/vibronic_model_io.py:read_model_auto_file"]}
{"id": "C89", "title": "Models in files of the older format", "statement": "Reading a *.h file returns the model described by it and its *.in file, with the numbers of states and modes in front of their labels and the frequencies of the two lines; a missing file or label is reported; creating the coupled model from such a file or from a link writes a complete model or nothing.", "quantifier": "all files, all directories", "why_tests_cant": "All files; the failure depends only on the way the functions call each other.", "anchors": ["pibronic/vibronic/model_h.py:read_model_h_file", "pibronic/vibronic/model_h.py:get_number_of_electronic_states", "pibronic/vibronic/model_h.py:get_number_of_normal_modes", "pibronic/vibronic/model_h.py:extract_normal_mode_frequencies", "pibronic/vibronic/vibronic_model_io.py:create_coupling_from_h_file", "pibronic/vibronic/vibronic_model_io.py:create_coupling_from_op_hyperlink"]}
{"id": "C90", "title": "Electronic structure calculations are submitted", "statement": "Each stage of the electronic structure calculations submits its calculation once, obtains the id of the job and waits for it; a submission that Slurm refuses is reported and does not count as submitted.", "quantifier": "all stages, all answers of sbatch", "why_tests_cant": "All answers of Slurm; the tests replace the submission by a stub.", "anchors": ["pibronic/vibronic/electronic_structure.py:submit_job", "pibronic/vibronic/electronic_structure.py:hartree_fock_calculation", "pibronic/vibronic/electronic_structure.py:vibron_calculation", "pibronic/server/job_boss.py:submit_job"]}
{"id": "C91", "title": "Failed jobs are noticed", "statement": "Waiting for a job returns normally only if the job was completed, and the check of the output file of a job reports a segmentation fault, a killed job and lack of memory.", "quantifier": "all answers of Slurm, all contents of the output file", "why_tests_cant": "All contents; a test can only show single files.", "anchors": ["pibronic/vibronic/electronic_structure.py:wait_on_results", "pibronic/server/job_boss.py:check_acct_state", "pibronic/server/job_boss.py:check_slurm_output"]}
{"id": "C92", "title": "Cluster and partition", "statement": "The name of the cluster is the one in Slurm's configuration, and a partition is accepted only if Slurm lists it.", "quantifier": "all configurations, all listings, all names of partitions", "why_tests_cant": "All listings and names; whether a wrong name passes depends on the other names.", "anchors": ["pibronic/server/job_boss.py:get_hostname", "pibronic/server/job_boss.py:assert_partition_exists"]}
{"id": "C93", "title": "Progress report", "statement": "The report on the progress of the electronic structure calculations has one line for each molecule, with the last state in its own state file or the remark that it has none.", "quantifier": "all sets of state files", "why_tests_cant": "All combinations of files; a value left over from another molecule only shows in some of them.", "anchors": ["pibronic/vibronic/electronic_structure.py:pretty_print_job_status"]}
{"id": "C94", "title": "Command of a job", "statement": "The command handed to Slurm names the job, its resources, its directories and its parameters as given, and starts the job script and the sampling script of the package with the running interpreter.", "quantifier": "all parameters of jobs, all directories the package is installed in", "why_tests_cant": "All parameters and installations; the tests never run the command.", "anchors": ["pibronic/server/job_boss.py:prepare_job_nlogn", "pibronic/server/job_boss.py:prepare_job_compute_canada", "pibronic/server/job_boss.py:get_path_of_job_boss_directory", "pibronic/server/job_boss.py:get_path_to_python_executable"]}
{"id": "C95", "title": "Results of a job arrive", "statement": "When a job ends, its results are in the results directory of the file structure it was submitted from, and no result of another job is lost.", "quantifier": "all paths of file structures, all data sets and sampling distributions, all files already present", "why_tests_cant": "All paths; the script moves files between directories whose names are derived from each other.", "anchors": ["pibronic/server/job_boss.py:SubmissionClass.prepare_paths", "pibronic/server/nlogn_feynman/pimc_job.sh", "pibronic/server/compute_canada/pimc_job.sh", "pibronic/server/compute_canada/pimc.py", "pibronic/data/file_structure.py:FileStructure.from_boxdata"]}
{"id": "C96", "title": "Commands for Julia", "statement": "Every analytic, sum over states and Trotter calculation runs the script of its method from the installed Julia package, on the file of its own model, at the given temperature and with the given basis size and number of beads; without a working Julia nothing is run and the failure is reported.", "quantifier": "all root directories, data sets, sampling distributions, methods, sizes and temperatures, all answers of Julia", "why_tests_cant": "All paths and parameters; the command is one text made by filling templates and is split again by the shell.", "anchors": ["pibronic/julia_wrapper.py:construct_command_dictionary", "pibronic/julia_wrapper.py:analytic_wrapper", "pibronic/julia_wrapper.py:sos_wrapper", "pibronic/julia_wrapper.py:trotter_wrapper", "pibronic/julia_wrapper.py:prepare_julia"]}
{"id": "C97", "title": "Command line of the Julia wrapper", "statement": "From the command line every offered method can be run, with the temperature or inverse temperature, the number of beads and the basis size of the options; wrong options are refused.", "quantifier": "all combinations of options", "why_tests_cant": "All combinations of options; the tests never use the command line.", "anchors": ["pibronic/julia_wrapper.py:main"]}
{"id": "C98", "title": "Iterative method", "statement": "The iterative method reads the coupled model and writes the iterative model and matrix of the same data set; when the call returns, they are there.", "quantifier": "all root directories, data sets, numbers of iterations and behaviours of the external program", "why_tests_cant": "All behaviours of the external program, including failures.", "anchors": ["pibronic/julia_wrapper.py:iterate_method"]}
{"id": "C99", "title": "Whole workflow of a molecule", "statement": "Given the number of a molecule, the workflow makes its directories, copies its input files, calculates the model and submits the sampling jobs; other numbers are refused.", "quantifier": "all numbers, all arguments, all contents of the disk", "why_tests_cant": "All arguments and disks; the workflow needs a cluster and is never run by a test.", "anchors": ["pibronic/everything.py:execute", "pibronic/everything.py:copyInput"]}
{"id": "C100", "title": "Data for plots do not change the tuned matrices", "statement": "Generating data for plots leaves the matrices returned for every order and tuning parameter as they were.", "quantifier": "all histories of generations, orders and tuning parameters", "why_tests_cant": "All histories of generator calls; the generators and the tuned matrices share files, which no test of one function sees.", "anchors": ["pibronic/vibronic/orthonormal/sequences.py:generate_sequences_for_plotting", "pibronic/vibronic/orthonormal/sequences.py:generate_turning_point_sequence_for_plotting", "pibronic/vibronic/orthonormal/sequences.py:generate_full_monotonic_sequence_for_plotting", "pibronic/vibronic/orthonormal/sequences.py:save_sequence"]}
{"id": "C101", "title": "Turning points in the data for plots", "statement": "In the data for plots every turning point of the distance is shown in the row of its argument.", "quantifier": "all orders and all turning points", "why_tests_cant": "All turning points of ten thousand samples; a single turning point is shown correctly.", "anchors": ["pibronic/vibronic/orthonormal/sequences.py:generate_turning_point_sequence_for_plotting", "pibronic/vibronic/orthonormal/sequences.py:list_of_turning_points"]}
{"id": "C102", "title": "Training files belong together", "statement": "The two files a training run saves under one job number have the stated number of rows, and row s of the one is the value of g at row s of the other; later calls and interruptions do not change that.", "quantifier": "all sample numbers, block sizes, block numbers, random points, histories of saves and crash points", "why_tests_cant": "All sizes, histories and crash points; a test compares one pair of files of one undisturbed run.", "anchors": ["pibronic/pimc/pimc.py:block_compute_gR_from_raw_samples", "pibronic/pimc/pimc.py:save_gR_with_samples", "pibronic/pimc/pimc.py:block_compute_rhoR_from_input_samples", "pibronic/pimc/pimc.py:BoxData.generate_random_R_values"]}
{"id": "C103", "title": "The hand-over to the vibronic calculation can be repeated", "statement": "The step that prepares the vibronic calculation makes its three input files from the three outputs of the coupling calculation: two are the outputs from the first line with HEFF_IP2 on, the third is the output with the number of states in place of the placeholder. It never changes the outputs or any other file. Interrupted at any point, it can be repeated and then ends with the same files and the same outcome as an undisturbed run. When an output is missing it fails without touching the input made from it.", "quantifier": "all contents of the files, molecule names, directories, numbers of states and crash points", "why_tests_cant": "All contents and all points of interruption within copies and within the changes in place; a test runs one undisturbed step.", "anchors": ["pibronic/vibronic/electronic_structure.py:parse_prepVibron_output", "pibronic/vibronic/electronic_structure.py:_copy_output_file", "pibronic/vibronic/electronic_structure.py:_remove_extra_heff", "pibronic/vibronic/electronic_structure.py:_add_nip_to_file", "pibronic/vibronic/electronic_structure.py:verify_file_exists"]}
{"id": "C104", "title": "Orbital energies are read from their table in the output", "statement": "The suggestions for the number of dropped orbitals and of ionised states are based on the energies in the fourth column of exactly the rows of the table of orbital energies, in their order; an output without the table is an error; when an energy cannot be read the user is asked for the number.", "quantifier": "all output files (any text before and after the table, any number of rows), all answers", "why_tests_cant": "The table may stand anywhere in a file of any length and have any number of rows.", "anchors": ["pibronic/vibronic/electronic_structure.py:_extract_lines_for_estimating_NIP", "pibronic/vibronic/electronic_structure.py:_estimate_dropmo", "pibronic/vibronic/electronic_structure.py:_estimate_NIP"]}
{"id": "C105", "title": "A model object or a data object can be made straight from a file", "statement": "A plain model object that loads the file of a saved model has the saved dimensions, energies, frequencies, linear and quadratic terms (zeros for terms the model does not have); the constructors that take the path of a file return an object with the parameters in the file.", "quantifier": "all saved models, all files", "why_tests_cant": "All models, with any combination of missing or zero terms, and all files.", "anchors": ["pibronic/pimc/pimc.py:ModelClass.load_model", "pibronic/pimc/pimc.py:ModelClass.from_json_file", "pibronic/pimc/pimc.py:BoxData.from_json_file"]}
{"id": "C106", "title": "The error of the discretisation vanishes with the number of beads", "statement": "For every system whose potential rises in every direction, with enough beads the expectation of the stored ratio times the analytic partition function of the sampling model is as close as one likes to the partition function of the system's Hamiltonian: the trace of exp(-beta H) in a basis of oscillator functions, in the limit of a complete basis. The distance falls at least like one over the square root of the number of beads.", "quantifier": "all systems whose potential rises in every direction, with any couplings up to second order, all sampling models, all temperatures, all tolerances", "why_tests_cant": "A limit of integrals whose dimension grows without bound.", "anchors": ["pibronic/pimc/pimc.py:build_numerator", "pibronic/pimc/pimc.py:build_o_matrix", "pibronic/pimc/pimc.py:block_compute", "pibronic/stats/stats.py:basic_estimate_Z_monte_carlo"]}
{"id": "C107", "title": "The reported energy is the energy of the system", "statement": "As the number of samples grows, the energy that an analysis reports settles at the energy of the system: minus the (difference) derivative of the logarithm of its partition function.", "quantifier": "all systems, numbers of beads and temperatures, with probability one over the samples", "why_tests_cant": "A statement about limits of random averages for all systems; the deviation is hidden in the statistical error of any finite run.", "anchors": ["pibronic/stats/stats.py:basic_statistical_analysis", "pibronic/stats/stats.py:alpha_statistical_analysis", "pibronic/stats/stats.py:add_harmonic_contribution", "pibronic/stats/stats.py:basic_estimate_internal_energy", "pibronic/pimc/pimc.py:block_compute_pm"]}
{"id": "C108", "title": "Converting the keys of a model dictionary loses nothing", "statement": "Converting the keys of a dictionary from names to members of the enumeration, or back, keeps every value under the corresponding key and the order of the items; converting a converted dictionary changes nothing; an unknown name is refused.", "quantifier": "all dictionaries", "why_tests_cant": "All sets and orders of keys; the conversion changes the dictionary while it goes through it.", "anchors": ["pibronic/vibronic/vibronic_model_keys.py:VibronicModelKeys.change_dictionary_keys_from_strings_to_enum_members", "pibronic/vibronic/vibronic_model_keys.py:VibronicModelKeys.change_dictionary_keys_from_enum_members_to_strings", "pibronic/vibronic/vibronic_model_keys.py:VibronicModelKeys.key_list"]}
{"id": "C109", "title": "The electronic structure program starts the calculation it is asked for", "statement": "Called with the name of a molecule, and possibly the number of a stage, the program runs the calculations of this molecule in a directory of its own; the calculations of a data set are run in the directory of the data set.", "quantifier": "all argument lists, all molecules, stages and data sets", "why_tests_cant": "All arguments; the tests never call the entry points, which submit jobs.", "anchors": ["pibronic/vibronic/electronic_structure.py:main", "pibronic/vibronic/electronic_structure.py:test_one", "pibronic/vibronic/electronic_structure.py:calculate_vibronic_model_wrapper_one"]}
{"id": "C110", "title": "The check of a covariance matrix accepts exactly the positive semidefinite ones", "statement": "The check raises an assertion error for a matrix that is not positive semidefinite and returns for every other one.", "quantifier": "all square matrices", "why_tests_cant": "All matrices.", "anchors": ["pibronic/pimc/pimc.py:pos_sym_assert"]}
{"id": "C111", "title": "The electronic basis does not change the result", "statement": "Take a system whose matrices are symmetric and whose potential energy rises in every direction, and the same system written in another orthonormal electronic basis. With enough beads, the expectation of the stored ratio times the analytic partition function of the sampling model is the same for both as closely as one likes, whatever sampling model is used for each.", "quantifier": "all such systems, all orthogonal matrices, all pairs of sampling models, all temperatures, all tolerances", "why_tests_cant": "The code splits off a different part of the potential in each basis, so the two numbers differ for every finite number of beads; only a limit of integrals of growing dimension compares them.", "anchors": ["pibronic/pimc/pimc.py:build_numerator", "pibronic/pimc/pimc.py:build_o_matrix", "pibronic/pimc/pimc.py:build_scaling_factors", "pibronic/pimc/pimc.py:block_compute"]}
{"id": "C112", "title": "The result converges with the number of beads", "statement": "For every system whose matrices are symmetric and whose potential energy rises in every direction, the expectation of the stored ratio times the analytic partition function of the sampling model approaches a number when the number of beads grows. That number depends on the system and the temperature only, not on the sampling model. The distance falls at least as fast as one over the square root of the number of beads.", "quantifier": "all such systems, all sampling models, all temperatures, all numbers of beads from some number on", "why_tests_cant": "A statement about all large numbers of beads, each with its own integral of its own dimension; runs at a few numbers of beads cannot show that a plateau is the limit.", "anchors": ["pibronic/pimc/pimc.py:build_numerator", "pibronic/pimc/pimc.py:build_o_matrix", "pibronic/pimc/pimc.py:block_compute", "pibronic/stats/stats.py:basic_estimate_Z_monte_carlo"]}
{"id": "C113", "title": "Enough beads and enough samples give the partition function", "statement": "For every system whose potential rises in every direction and every tolerance there is a number of beads from which on, whatever the sampling model, the partition function reported by any of the four analyses of independently drawn samples, times the analytic partition function of the sampling model, comes within the tolerance of the trace of exp(-beta H) over a large basis and stays there as samples are added, with probability one.", "quantifier": "all systems whose potential rises in every direction, all sampling models, all temperatures, all tolerances, almost every sequence of samples", "why_tests_cant": "A limit in two unbounded numbers of the outcome of random draws.", "anchors": ["pibronic/pimc/pimc.py:BoxData", "pibronic/pimc/pimc.py:block_compute_pm", "pibronic/stats/stats.py:basic_statistical_analysis", "pibronic/stats/stats.py:alpha_statistical_analysis", "pibronic/stats/stats.py:basic_jackknife_analysis", "pibronic/stats/stats.py:alpha_jackknife_analysis"]}
{"id": "C114", "title": "The error bar of Z is a standard error", "statement": "The error that an analysis reports for the partition function, times the square root of the number of samples, settles with probability one at the standard deviation of the ratio of the two integrands, so four times as many samples halve the error bar; and for many samples the probability that the expectation lies within c error bars of the reported value is the probability that a normal variable lies within c standard deviations.", "quantifier": "all systems, all sampling models, all temperatures, all numbers of beads from three on, all multiples c, almost every sequence of samples", "why_tests_cant": "A limit of the outcome of random draws; a test sees one finite sample and cannot tell a finite spread from an infinite one.", "anchors": ["pibronic/pimc/pimc.py:BoxData", "pibronic/pimc/pimc.py:block_compute_pm", "pibronic/stats/stats.py:basic_estimate_Z_monte_carlo", "pibronic/stats/stats.py:basic_statistical_analysis", "pibronic/stats/stats.py:alpha_statistical_analysis", "pibronic/stats/stats.py:basic_jackknife_analysis", "pibronic/stats/stats.py:alpha_jackknife_analysis"]}
{"id": "C115", "title": "The jackknife error bars of E and Cv are standard errors", "statement": "Whenever the ratios of the two integrands have a finite spread, the error that a jackknife analysis reports for the energy and for the heat capacity, times the square root of the number of samples, settles with probability one at the standard deviation of the influence that one path has on the quantity; and for many samples the probability that the value which the integrals give lies within c error bars of the plain estimate, and of the jackknife estimate, is the probability that a normal variable lies within c standard deviations.", "quantifier": "all systems, all sampling models under which the ratios have a finite spread and some path has an influence, all temperatures, all numbers of beads from three on, the analyses with and without the alpha factors, all multiples c, almost every sequence of samples", "why_tests_cant": "A limit of the outcome of random draws through a quotient of averages; a test sees one finite sample and cannot tell a wrong factor in the error from chance.", "anchors": ["pibronic/stats/jackknife.py:calculate_jackknife_term", "pibronic/stats/jackknife.py:calculate_alpha_jackknife_terms", "pibronic/stats/jackknife.py:estimate_jackknife", "pibronic/stats/stats.py:basic_jackknife_analysis", "pibronic/stats/stats.py:alpha_jackknife_analysis"]}
{"id": "C116", "title": "Different temperatures are kept apart", "statement": "The results of runs at different temperatures are never mixed: they are saved in different files, the samples that the analysis loads for one temperature contain none of another, saving one leaves the other, an analytic calculation at one temperature leaves the entry of the other; and the analysis treats each result at the temperature of its run.", "quantifier": "all non-negative temperatures (any number of kelvin, not only those with two decimals), all numbers of beads, jobs, samples, directories and listings, all earlier contents of the files", "why_tests_cant": "Tests use temperatures like 300.0; the names and keys show two decimals, so that the claim depends on how every other number is rounded.", "anchors": ["pibronic/data/file_name.py:pimc", "pibronic/pimc/pimc.py:BoxResult", "pibronic/data/postprocessing.py:extract_temperature_paramater_list", "pibronic/data/postprocessing.py:retrive_pimc_file_list", "pibronic/julia_wrapper.py:convert_keys", "pibronic/data/postprocessing.py:load_analytic_data"]}
{"id": "C117", "title": "A submission does not depend on earlier ones", "statement": "Submitting the jobs of an object again, after Slurm refused a job or after a parameter that made the call fail was corrected, asks for the jobs that the parameters describe; and an object that is created after another one was submitted asks for the number of jobs that its own number of samples needs.", "quantifier": "all parameters, all points at which Slurm refuses a job, all hosts and partitions, all histories of earlier submissions and objects", "why_tests_cant": "The parameters live in one dictionary of the class that the calls change; the claim is about what every earlier call, also a failing one, leaves behind.", "anchors": ["pibronic/server/job_boss.py:PimcSubmissionClass.setup_blocks_and_jobs", "pibronic/server/job_boss.py:PimcSubmissionClass.submit_jobs", "pibronic/server/job_boss.py:SubmissionClass.__init__"]}
{"id": "C118", "title": "A job saves what was asked for at its submission", "statement": "The sampling script that a job runs decodes the submitted parameters, and when the blocks make up the samples asked for it saves exactly these samples, each once and at its own place, together with their number and the hashes of the two models, in one file in the results directory that belongs to the submission; its name shows the beads, the temperature to the nearest hundredth and the id of the job. No other file changes, and two jobs with different ids keep their own files. A job with another number of arguments, with parameters that cannot be decoded, with a failing preparation or with an id that is no number raises and saves nothing. Any submission directory works.", "quantifier": "all submitted dictionaries, directories, numbers of samples, blocks and beads, temperatures, job ids, model texts, computed values and disk contents", "why_tests_cant": "All dictionaries and directories; running a job needs Slurm, and a test uses one set of parameters.", "anchors": ["pibronic/server/nlogn_feynman/pimc.py", "pibronic/server/compute_canada/pimc.py", "pibronic/server/nlogn_feynman/pimc_job.sh", "pibronic/server/compute_canada/pimc_job.sh", "pibronic/pimc/pimc.py:BoxData.from_json_string", "pibronic/pimc/pimc.py:BoxResult.compute_path_to_file", "pibronic/pimc/pimc.py:block_compute_pm"]}
{"id": "C119", "title": "The parameters in a .h file are read from the blocks of their modes", "statement": "From a file of the older .h format the reference Hamiltonian, the linear couplings and the two kinds of quadratic couplings are read as the numbers that stand in their sections, between the first line with the section's title and the first line with the next title. The matrix of a mode is the one below the header that shows the mode's frequency; the matrix of a pair of modes is the one below the header that shows both frequencies. Every matrix that is returned is square with one row for each surface. A missing title and a frequency that is not in the section are errors. Modes with the same frequency, or with a frequency whose text is part of another, keep their own couplings.", "quantifier": "all texts before, between and after the sections, headers, numbers of surfaces and modes, frequencies and conversions of texts to numbers", "why_tests_cant": "All files; the functions are not called by any test.", "anchors": ["pibronic/vibronic/model_h.py:extract_energies", "pibronic/vibronic/model_h.py:extract_linear_couplings", "pibronic/vibronic/model_h.py:extract_quadratic_couplings", "pibronic/vibronic/model_h.py:extract_offdiag_quadratic_couplings", "pibronic/helper.py:find_string_in_file"]}
{"id": "C120", "title": "The numbers of an analysis reach the tables of the plots through the thermo files", "statement": "A thermo file that was written to the end is read back as the two hashes and each number the analysis found (as the nearest float) under its name, and nothing else. A file cut at any character is rejected. When all thermo files of a directory are complete, a plotting object is set up, and the entry of its table for a number of beads, a temperature, a number of samples and a quantity is the number that the analysis of the results of the present models found; it is NaN for quantities the analysis does not calculate and where there is no such file. From samples to the table: after an analysis the entries are the estimates calculated from the samples in the result files. After several analyses of the same results the files are those of the last one. A file that an interrupted analysis left behind does not stop plots of the other results, and results of different kinds of analysis of the same samples are kept side by side.", "quantifier": "all directories, models, hashes, numbers of beads, temperatures, samples, methods and sequences of analyses, orders of tasks, printing and reading of floats, and crash points of a write", "why_tests_cant": "All contents of a directory, all crash points and all sequences of analyses; tests plot no results.", "anchors": ["pibronic/stats/stats.py:statistical_analysis_of_pimc", "pibronic/stats/stats.py:jackknife_analysis_of_pimc", "pibronic/stats/stats.py:testing_execution", "pibronic/plotting/virtual.py:plotVirtual"]}
{"id": "C121", "title": "The example projects work on their listed data sets and on no other", "statement": "The data sets of the artificial systems are 11-15, 21-25 and 31-35: the tens select the system 2x2, 4x6 or 7x12, the ones the strength of the coupling 0.05, 0.25, 0.5, 0.75, 1. Those of the paper are 11-16, 21-26, 31-36 and 41-46, where the tens select superimposed, displaced, elevated or jahnteller. Every other number is refused with an AssertionError. The loops of a system visit each of its data sets with each sampling model listed for it exactly once (0 to 4 for the artificial systems; 0, 1 and 11, for jahnteller also 2), and an unknown name of a system is refused.", "quantifier": "all data set numbers and all names of systems", "why_tests_cant": "All numbers, and the loops as a whole; tests call the programs for a few data sets.", "anchors": ["examples/artificial_systems/systems.py:get_system_name", "examples/artificial_systems/systems.py:get_tuning_parameter", "examples/paper_1.5025058/systems.py:get_system_name", "examples/artificial_systems/submit_jobs_to_server.py:automate_pimc_submission", "examples/artificial_systems/analyze_results.py:automate_statistical_analysis"]}
{"id": "C122", "title": "Each missing deterministic result gets one job, and a result that is there none", "statement": "The wrappers for the sum over states and the Trotter calculations submit, for every combination of basis size, temperature (and number of beads) whose result for the present model is missing, one shell command; as the shell reads it, it runs on the cluster a Python program for this root, data set, basis size, temperature (and number of beads). Combinations whose result is there are left out. After a successful calculation its result counts as there, the results that were there for the same model still do, and after a change of the model every result counts as missing. A results file that cannot be read ends the program with ValueError (KeyError without a hash) after the jobs before it. Without a given root only the two listed hosts are accepted.", "quantifier": "all projects, roots, data sets, models, lists of basis sizes, temperatures and beads, and contents of the results files at the time each is looked at", "why_tests_cant": "All lists and all states of the results files, including torn ones; tests do not submit jobs.", "anchors": ["examples/artificial_systems/submit_jobs_to_server.py:_generate_sos_results", "examples/artificial_systems/submit_jobs_to_server.py:_generate_trotter_results", "examples/paper_1.5025058/submit_jobs_to_server.py:_generate_trotter_results", "examples/artificial_systems/submit_jobs_to_server.py:simple_sos_wrapper", "pibronic/julia_wrapper.py:sos_of_coupled_model"]}
{"id": "C123", "title": "Deterministic calculations that run at the same time leave all their results", "statement": "When several calculations (sum over states, Trotter, analytic) run at the same time, in whatever order they read, calculate and write, and whichever of them are killed at whatever point, each one that ends successfully leaves in its results file what it would leave alone, a calculation that fails leaves its file as it was, every file is as it was or holds a prefix of a complete new text, and no other file changes. A calculation that gets enough turns ends.", "quantifier": "all sets of jobs, all schedules of their reads and writes, all sizes of the pieces in which a text reaches the disk, all crash points", "why_tests_cant": "Every interleaving of the operations of all jobs; a test sees one.", "anchors": ["pibronic/julia_wrapper.py:base_func", "pibronic/julia_wrapper.py:validate_old_model_data", "examples/artificial_systems/submit_jobs_to_server.py:simple_sos_wrapper"]}
{"id": "C124", "title": "Submitting what is missing again and again completes the results", "statement": "Let calculations at different temperatures share a results file, in any order of reads and writes in which none touches the file while another one writes it. Then none of them fails because of the file, the results that were there stay, every result in the file is an old one or that of the calculation at its temperature, and if at least one calculation has ended at least one new result is there. So after as many rounds of submitting the missing temperatures as there were missing temperatures, nothing is missing.", "quantifier": "all results files, lists of temperatures, numbers of rounds, and in each round all such schedules", "why_tests_cant": "Every schedule of every round; a test sees one.", "anchors": ["pibronic/julia_wrapper.py:base_func", "examples/artificial_systems/submit_jobs_to_server.py:_generate_sos_results", "pibronic/julia_wrapper.py:sos_of_coupled_model"]}
{"id": "C125", "title": "Preparing an artificial data set makes its models from the input file, and again the same", "statement": "After an artificial data set was prepared, from whatever was there before and however its iterative part ends, the original coupled model is the input file, the coupled model is the input in the basis given by the stored matrix (the one stored before, or else a new one), the harmonic model and the sampling model 0 are the diagonal of the coupled model, and the sampling model 1 is the diagonal of the input. Preparing it again from the same input, on any host and with any other random draw, changes none of these files and not the matrix.", "quantifier": "all roots, data sets, previous contents of the files, input models symmetric to numpy's precision, matrices and outcomes of the iterative method", "why_tests_cant": "All inputs and all previous states of the directory; no test prepares an example data set.", "anchors": ["examples/artificial_systems/setup_models.py:prepare_model", "examples/artificial_systems/setup_models.py:unitary_transformation", "examples/artificial_systems/setup_models.py:setup_sampling_distributions", "examples/artificial_systems/setup_models.py:copy_input_json_files_into_directories", "pibronic/vibronic/vibronic_model_io.py:create_fake_coupled_model"]}
{"id": "C126", "title": "The iterative part of an artificial data set uses the new coupled model and stays in its root", "statement": "Preparing an artificial data set changes only its own model files under the given root. The sampling model 2 is what the iterative method made of the new coupled model; the sampling models 3 and 4 are the same with other energies: with x the lowest eigenvalue of the new coupled potential at the lowest point of a surface, the surface of model 4 has its lowest point there with the height x, and model 3 stores x as the energy. A failure of the iterative method is reported.", "quantifier": "all roots, data sets, previous contents of the files, input models and outcomes of the iterative method", "why_tests_cant": "All previous states of the directories and all outcomes of a job on the cluster; no test prepares an example data set.", "anchors": ["examples/artificial_systems/setup_models.py:setup_sampling_distributions", "examples/artificial_systems/submit_jobs_to_server.py:iterative_method_wrapper", "pibronic/vibronic/vibronic_model_io.py:recalculate_energy_values_of_diagonal_model", "pibronic/vibronic/vibronic_model_io.py:simple_single_point_energy_calculation"]}
{"id": "C127", "title": "Preparing a data set of the paper copies each alternate sampling model to its number", "statement": "Preparing a data set of the paper makes the coupled model the input file of the system and the last digit of the data set, the harmonic model its diagonal, the sampling model r the file with that system, digit and number r for every such file, and the sampling model 0 the diagonal when there is no file for 0; it changes nothing else.", "quantifier": "all directories of the scripts, roots, data sets, systems, directory listings and their orders, and previous contents", "why_tests_cant": "All paths and listings; no test prepares an example data set.", "anchors": ["examples/paper_1.5025058/setup_models.py:prepare_paper_model", "examples/paper_1.5025058/setup_models.py:copy_input_json_files_into_directories", "examples/paper_1.5025058/setup_models.py:copy_alternate_rhos_into_directories"]}
{"id": "C128", "title": "The sampling model 11 of the paper is the iterative model with corrected energies", "statement": "After a data set of the paper was prepared with the iterative method, the iterative model and the sampling model 11 under the given root are the same file: what the method made of the input model, where each surface keeps its shape and lowest point and its height there is the lowest eigenvalue of the potential of the input.", "quantifier": "all roots, data sets, previous contents of the files, input models and outcomes of the iterative method", "why_tests_cant": "All states of the directories and all outcomes of a job on the cluster; no test prepares an example data set.", "anchors": ["examples/paper_1.5025058/setup_models.py:prepare_paper_model_plus_iterative_method", "examples/paper_1.5025058/setup_models.py:setup_weight_corrected_iterative_model", "examples/paper_1.5025058/submit_jobs_to_server.py:iterative_method_wrapper"]}
{"id": "C129", "title": "Every data set of a system gets its Monte Carlo jobs, each with its own parameters", "statement": "The automated submission for a system submits, for every data set and sampling distribution of the system, every temperature and every number of beads, exactly one job, with the identifiers, paths, numbers of surfaces and modes of that data set, the temperature and the number of beads, 1000 samples per block, the scratch directory and the resources; and before them it starts the analytical calculations of the two models, whose programs call functions of the package. It ends at the first data set without a model file, and at the first job that Slurm refuses, with exactly the jobs before it submitted. A system that is not listed and a machine that is not one of the two servers get nothing. Run as they are, the two programs do this for the first system of their project and for no other.", "quantifier": "all systems of both projects, settings (temperatures, numbers of beads, samples), model files, answers of Slurm", "why_tests_cant": "All jobs of the process go through one dictionary that all submission objects share; a test submits one.", "anchors": ["examples/artificial_systems/submit_jobs_to_server.py:automate_pimc_submission", "examples/artificial_systems/submit_jobs_to_server.py:simple_pimc_wrapper", "examples/paper_1.5025058/submit_jobs_to_server.py:simple_pimc_wrapper", "pibronic/server/job_boss.py:PimcSubmissionClass"]}
{"id": "C130", "title": "The systems can be analysed at the same time", "statement": "The analysis program of the example projects starts one process for each system. Whatever the order in which the processes make their steps, and at every moment (so also if the program is killed), each process is where it would be if it ran alone, and the files of its data sets are what they would be; every process ends; nothing changes outside the data sets of the systems. If what a system needs is there at the beginning, its process ends without an exception, whatever the others find, and leaves for every sampling distribution with a model and every number of beads and temperature with results the basic jackknife analysis of all samples, and no other file of the system has changed.", "quantifier": "all schedules of the processes and their pools, all prefixes of them, contents of the disk, both projects", "why_tests_cant": "The processes share the disk and are not synchronised; a test runs one schedule.", "anchors": ["examples/artificial_systems/analyze_results.py:automate_statistical_analysis", "examples/paper_1.5025058/analyze_results.py:automate_statistical_analysis", "pibronic/stats/stats.py:starmap_wrapper"]}
{"id": "C131", "title": "Preparing all systems gives every data set what preparing it alone gives", "statement": "`automate_prepare_model` of the example projects prepares all data sets of all systems in one process. Every data set before the first one that fails ends up, and so does that one, with the model files and the stored matrix that preparing it alone would leave; the exception of the first failure ends the run and the data sets after it keep what they had; nothing outside of the directories of these data sets changes. After a run without exception every data set and sampling distribution that the other programs of the project visit has its coupled model and its sampling model.", "quantifier": "all contents of the disk, input files, random matrices and outcomes of the iterative method, separately for each data set; both projects", "why_tests_cant": "The data sets share the disk; a test prepares a few of them, with one set of input files.", "anchors": ["examples/artificial_systems/setup_models.py:automate_prepare_model", "examples/paper_1.5025058/setup_models.py:automate_prepare_model", "examples/paper_1.5025058/systems.py:rho_dict"]}
{"id": "C132", "title": "Submitting the calculations of a system submits exactly the missing ones", "statement": "`automate_sos_trotter_submission` goes through the data sets of the system in order; for each one it submits the sum over states with the basis size 80 at 300 K if its result is missing, then the Trotter calculation with each of the 7 numbers of beads whose result is missing, and nothing else. Unknown systems and other machines are refused before anything is submitted, and a data set without its models ends the run at that point. `automate_iterative_submission` runs the iterative method with 50 iterations once for every data set in order, and stops with an exception after the first one whose messages say that its memory ran out.", "quantifier": "all systems of both projects, host names, models, contents of the results files of every data set, and messages of the runs", "why_tests_cant": "Which commands are given depends on the contents of up to 48 results files and on what the cluster prints.", "anchors": ["examples/artificial_systems/submit_jobs_to_server.py:automate_sos_trotter_submission", "examples/artificial_systems/submit_jobs_to_server.py:automate_iterative_submission", "examples/artificial_systems/submit_jobs_to_server.py:execute_command_wrapper", "examples/paper_1.5025058/submit_jobs_to_server.py:automate_sos_trotter_submission", "examples/paper_1.5025058/submit_jobs_to_server.py:automate_iterative_submission"]}
{"id": "C133", "title": "Plotting the results of a system draws every data set with results and skips the others", "statement": "`automate_simple_z_plots` of the example projects (`generate_z_plots.py` and `generate_plots.py`) visit every pair of data set and sampling distribution of the system, save one comparison (respectively one picture per quantity) for every pair whose results can be loaded, under a name of its own, and skip a pair that fails without losing any other picture. `automate_energy_grid_plots` draws the grids of every data set in order. Unknown systems and other machines are refused before anything is drawn.", "quantifier": "all systems of both projects, host names, result files, exact results, models and sampling distributions", "why_tests_cant": "Which pictures are drawn depends on which of many result files exist, are current and can be read, in every combination.", "anchors": ["examples/artificial_systems/generate_z_plots.py:automate_simple_z_plots", "examples/paper_1.5025058/generate_z_plots.py:automate_simple_z_plots", "examples/paper_1.5025058/generate_plots.py:automate_simple_z_plots", "examples/artificial_systems/generate_energy_plots.py:automate_energy_grid_plots"]}
{"id": "C134", "title": "Newly generated input models can always be used", "statement": "For every outcome of the random draws, `generate_input_file` writes for the systems 4x6 and 7x12 a model with 4 surfaces and 6 modes, respectively 7 and 12, that can be read, is symmetric, has evenly spaced frequencies and energies in the stated ranges and linear couplings of at most 0.04 over the frequency, and touches no other file; every data set of the system can then be prepared from it. The hand-made system and unknown names are refused and nothing is written.", "quantifier": "all outcomes of the random draws, directories, previous contents, data sets of the systems and matrices", "why_tests_cant": "The models are random; a test sees single draws.", "anchors": ["examples/artificial_systems/generate_initial_model_parameters.py:generate_input_file", "pibronic/vibronic/vibronic_model_io.py:generate_vibronic_model_data", "examples/artificial_systems/setup_models.py:prepare_model"]}
{"id": "C135", "title": "A data set can be filled from an operator file as well as from a model file", "statement": "Filling a data set from the MCTDH operator file of its system succeeds whenever the file is there and its couplings are such that it is read faithfully: the coupled model is then the model of the operator file, and for the data sets of the paper the harmonic model and the sampling model 0 are its diagonal; no other model file changes. A missing file is an OSError and nothing is written; a file that cannot be read leaves all model files as they are. When the model file that lies with the program is the one written from the operator file, both ways leave the same model files.", "quantifier": "all operator files, systems, data sets, roots and previous contents", "why_tests_cant": "The second way is behind a switch in the source of the programs, so no run of them and no test takes it.", "anchors": ["examples/artificial_systems/setup_models.py:parse_input_mctdh_files_into_directories", "examples/paper_1.5025058/setup_models.py:parse_input_mctdh_files_into_directories", "pibronic/vibronic/vibronic_model_io.py:create_coupling_from_op_file"]}
