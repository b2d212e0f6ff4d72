"""Single source for properties.jsonl (run: python3 tools/props.py)."""
import json, os
P = []
def p(title, statement, quantifier, why, anchors):
    P.append(dict(id=f"C{len(P)+1:02d}", title=title, statement=statement, quantifier=quantifier,
                  why_tests_cant=why, anchors=anchors))
IO = "pibronic/vibronic/vibronic_model_io.py"
PP = "pibronic/data/postprocessing.py"
FN = "pibronic/data/file_name.py"
FST = "pibronic/data/file_structure.py"
ST = "pibronic/stats/stats.py"
JK = "pibronic/stats/jackknife.py"
PM = "pibronic/pimc/pimc.py"
JB = "pibronic/server/job_boss.py"
JW = "pibronic/julia_wrapper.py"
ES = "pibronic/vibronic/electronic_structure.py"
OP = "pibronic/vibronic/model_op.py"

# ---- model files
p("Coupled model file round trip",
  "For every coupled model accepted by save_model_to_JSON, load_model_from_JSON of the file just written succeeds and returns the same number of surfaces and modes and, for every parameter, the same values, where an array that is absent stands for an array of zeros.",
  "all models: any number of surfaces and modes, any subset of the optional arrays, any contents including all-zero arrays",
  "Zero arrays are dropped on save and only some are recreated on load, so correctness depends on every combination of present, absent and all-zero arrays and every size; tests try random dense models.",
  [f"{IO}:save_model_to_JSON", f"{IO}:load_model_from_JSON", f"{IO}:_save_to_JSON", f"{IO}:_load_from_JSON"])
p("Diagonal (sampling) model file round trip",
  "For every diagonal model accepted by save_diagonal_model_to_JSON, load_diagonal_model_from_JSON of the file just written succeeds and returns the same dimensions and parameter values (absent = zeros).",
  "all diagonal models, including those whose energies are all zero",
  "A random model has non-zero energies with probability one, so sampling never reaches the all-zero case where the loader rebuilds the energies with a coupled-model shape.",
  [f"{IO}:save_diagonal_model_to_JSON", f"{IO}:load_diagonal_model_from_JSON", f"{IO}:_load_from_JSON"])
p("Saving rejects malformed models before touching the disk",
  "Saving a model whose dimensions are missing or in which some known array has the wrong shape raises and leaves every file unchanged; saving a well-formed model changes only the target file, and the caller's dictionary is the same afterwards.",
  "all dictionaries, all previous disk contents",
  "Needs every possible malformed dictionary and every previous state of the disk.",
  [f"{IO}:verify_model_parameters", f"{IO}:save_model_to_JSON", f"{IO}:save_diagonal_model_to_JSON"])
p("Loading into preallocated arrays leaves nothing stale",
  "When a model file is loaded into caller-provided arrays of the file's dimensions, every provided array afterwards holds exactly the file's values (zeros when the file omits it), whatever it held before; the result equals what a fresh load gives.",
  "all files written by the saver, all previous array contents",
  "Stale values survive only for particular combinations of omitted keys and previous contents.",
  [f"{IO}:_load_inplace_from_JSON", f"{PM}:ModelClass.load_model", f"{PM}:ModelSampling.load_model"])
p("Artificial coupling is a unitary change of basis",
  "create_fake_coupled_model replaces every surface matrix M of the model (energies and each mode's coupling matrix) by U M U^T; the new matrices are symmetric, have the same eigenvalues (characteristic polynomial) and trace, frequencies and dimensions are unchanged, and applying the routine again with U^T restores the original model.",
  "all symmetric models of any size and order of coupling, all orthonormal matrices",
  "Floating point tests see a few sizes and matrices only; spectrum preservation must hold for all.",
  [f"{IO}:create_fake_coupled_model"])
p("The model is never lost while coupling is created",
  "At every point where create_fake_coupled_model can crash, the model that was in coupled_model.json before the call is still complete in coupled_model.json or in original_coupled_model.json; after success it is in original_coupled_model.json.",
  "all crash points of a call, all disk contents; histories of repeated calls for the claim that the first, uncoupled model is kept",
  "Tests cannot kill the process between every pair of file operations, nor try all histories of repeated calls.",
  [f"{IO}:create_fake_coupled_model", f"{FST}:FileStructure"])
p("Removing the coupling keeps exactly the diagonal",
  "Zeroing the off-diagonal of a model keeps every diagonal entry, clears all others and is idempotent; remove_coupling_from_model writes a valid diagonal model whose entries are exactly the diagonal entries of the source, whether or not the source was zeroed first.",
  "all coupled models of any size",
  "Must hold for all sizes, all coupling orders and absent arrays.",
  [f"{IO}:fill_offdiagonal_of_model_with_zeros", f"{IO}:remove_coupling_from_model", f"{IO}:create_harmonic_model", f"{IO}:create_basic_diagonal_model"])
p("Harmonic and sampling model files derived from any saved coupled model are loadable",
  "After a coupled model is saved, create_harmonic_model and create_basic_diagonal_model produce harmonic and sampling model files that load_diagonal_model_from_JSON accepts.",
  "all coupled models accepted by the saver",
  "The failing case (all diagonal energies zero) has measure zero for random models.",
  [f"{IO}:create_harmonic_model", f"{IO}:create_basic_diagonal_model", f"{IO}:load_diagonal_model_from_JSON"])
p("Tuned rotation matrices are orthonormal and ordered",
  "For any order and tuning parameter in [0,1] the created matrix is orthonormal; 0 gives the identity; the chosen sequence entry has the requested fraction of the maximal distance (up to the tolerance of numpy's isclose) or is the last one whose distance does not exceed it, so a larger parameter never gives a matrix closer to the identity; values outside [0,1], orders below one and orders without a stored sequence are rejected.",
  "all orders, all tuning parameters, all stored sequences that start at the identity and have increasing distances",
  "The orthonormality of a matrix exponential and the monotonicity of the look-up concern a continuum of parameters.",
  ["pibronic/vibronic/orthonormal/create.py:create_orthonormal_matrix_lambda_close_to_identity", "pibronic/vibronic/orthonormal/sequences.py:select_pair", "pibronic/vibronic/orthonormal/sequences.py:build_SKSM_and_identity"])
p("Generated models are symmetric and valid",
  "generate_vibronic_model_data returns a model with correctly shaped arrays whose energies and every linear coupling matrix are symmetric in the surfaces, for every outcome of the random draws; with diagonal=True it returns a valid diagonal model.",
  "all random draws, all sizes",
  "Random draws range over a continuum.",
  [f"{IO}:generate_vibronic_model_data", f"{IO}:_generate_linear_terms"])
p("Re-weighted sampling energies reproduce the single point energies",
  "After recalculate_energy_values_of_diagonal_model, the minimum of every diagonal oscillator (energy plus its linear displacement shift) equals the single point energy that was computed for that surface, and frequencies and couplings are unchanged; models with quadratic terms above numpy's tolerance are refused.",
  "all diagonal models with non-zero frequencies",
  "An algebraic identity over all real parameters.",
  [f"{IO}:recalculate_energy_values_of_diagonal_model", f"{IO}:simple_single_point_energy_calculation"])
# ---- op files
p("MCTDH operator files are read faithfully",
  "For every operator file that lists each coupling once (upper triangle of the surfaces), the model read from it has each listed value at its position and at the transposed position, diagonal entries unchanged, and zeros elsewhere.",
  "all numbers of surfaces and modes, all values",
  "The rescaling loop is only right for one surface; test files contain no quadratic terms, so the wrong branch only multiplies zeros.",
  [f"{OP}:read_model_op_file"])
# ---- names
p("Result file names encode their parameters",
  "For PIMC result files and thermo files written in a results directory whose path contains no 'P', '_T', '_J' or '_X', the extraction functions return exactly the bead count, temperature text, job number and sample count used to build the name; different parameters give different names.",
  "all parameters (any natural number of beads, samples, jobs; any temperature rendered with two decimals), all directory paths",
  "Splitting on substrings must be right for all numbers and directory names.",
  [f"{FN}:pimc", f"{FN}:jackknife", f"{PP}:extract_bead_value_from_pimc_file_path", f"{PP}:extract_temperature_value_from_pimc_file_path", f"{PP}:extract_job_value_from_pimc_file_path", f"{PP}:extract_sample_value_from_thermo_file_path"])
p("Parameter lists are sorted, unique and complete",
  "The bead, temperature and basis lists extracted from a list of files are strictly increasing and contain a value exactly when some file has it (for the basis list: when both the coupled and the sampling files have it); the order and multiplicity of the input files do not matter.",
  "all lists of file paths",
  "Quantifies over all lists, orders and duplicates.",
  [f"{PP}:extract_bead_paramater_list", f"{PP}:extract_temperature_paramater_list", f"{PP}:extract_sos_basis_paramater_list"])
p("Trotter result files can be enumerated",
  "extract_trotter_paramater_list maps every trotter file name to its basis size and bead number.",
  "all trotter file names",
  "The function is never exercised by the tests; it fails on every input.",
  [f"{PP}:extract_bead_value_from_trotter_file_path", f"{PP}:extract_trotter_paramater_list"])
p("Hash pruning keeps exactly the results of the current models",
  "prune_results_using_hashes returns, in the original order, exactly those files whose two stored hashes both equal the current ones; files lacking a hash are dropped; a file of an unknown kind raises.",
  "all file lists and stored hashes",
  "All combinations of present, absent, equal and different hashes in lists of any length.",
  [f"{PP}:prune_results_using_hashes"])
p("Loading PIMC data for (P, T) selects exactly the files of that (P, T)",
  "The file pattern used to load data for a bead number and temperature matches a PIMC result file in the results directory exactly when the file was written for that bead number and that temperature text, whatever its job number.",
  "all parameter values and job numbers",
  "Prefix confusion (P=1 versus P=10, T=30.00 versus T=300.00) must be excluded for all values.",
  [f"{PP}:load_pimc_data", f"{FST}:FileStructure.template_pimc", f"{FN}:pimc"])
# ---- file structure
p("Directory layout: every location is inside its data set and data sets never overlap",
  "All directories and files of a FileStructure lie under root/data_set_D/, the sampling ones under root/data_set_D/rho_R/; structures with different data ids share no location besides the root, and with different rho ids share no sampling location.",
  "all roots and ids",
  "Needs all pairs of ids (e.g. 1 and 11) and all roots.",
  [f"{FST}:FileStructure.__init__"])
p("Switching the sampling distribution redirects all sampling paths",
  "After change_rho(r) every sampling location of the object is the one a fresh FileStructure with rho id r has, coupled-model locations are unchanged, the result does not depend on previous switches, and the four sampling sub-directories of r exist.",
  "all sequences of change_rho calls, all initial ids",
  "A property of all call histories.",
  [f"{FST}:FileStructure.change_rho", f"{FST}:FileStructure.make_rho_directories"])
p("directories_exist reports whether the directories exist",
  "directories_exist returns True exactly when all directories of the structure exist.",
  "all file systems, all structures",
  "Depends on every possible file system state and working directory.",
  [f"{FST}:FileStructure.directories_exist", f"{FST}:FileStructure.make_directories"])
p("Model hashes identify the models currently selected",
  "After generate_model_hashes() the stored hashes are those of the files currently at the coupled and sampling model paths.",
  "all histories of model rewrites, change_rho and generate_model_hashes calls, with and without force",
  "A property of all call histories: stale hashes appear only after a particular sequence.",
  [f"{FST}:FileStructure.generate_model_hashes", f"{FST}:FileStructure.change_rho"])
# ---- stats
p("Estimates do not depend on the order of the samples",
  "Z, E, Cv and their errors, basic and jackknife, are unchanged when the samples are permuted (all four arrays in the same way).",
  "all sample sets and permutations",
  "All permutations of arrays of any length.",
  [f"{ST}:basic_statistical_analysis", f"{ST}:basic_jackknife_analysis", f"{JK}:estimate_jackknife"])
p("Estimates do not depend on the per-sample scaling",
  "Multiplying g, g+, g- and rho of any individual sample by a common non-zero factor changes none of the reported values.",
  "all samples, all non-zero factors per sample",
  "A continuum of factors for arrays of any length; this is what justifies the internal scaling of the O matrices.",
  [f"{ST}:calculate_basic_property_terms", f"{PM}:scale_o_matrices"])
p("Alpha analysis with unit alphas is the basic analysis",
  "When both alpha factors are one, the alpha statistical and alpha jackknife analyses return exactly the values of the basic ones.",
  "all sample sets, temperatures and analytic data",
  "Equality over all real inputs.",
  [f"{ST}:alpha_statistical_analysis", f"{ST}:alpha_jackknife_analysis", f"{JK}:calculate_alpha_jackknife_terms"])
p("Jackknife replicates are leave-one-out means and the estimator is bias corrected",
  "The i-th jackknife replicate of an array is the mean of the array without its i-th entry; the mean of the replicates is the mean of the array; for a statistic that is linear in the sample means the jackknife estimate equals the plain estimate; errors are never negative and vanish when all replicates agree.",
  "all arrays of length at least two",
  "Identities over all lengths and values.",
  [f"{JK}:calculate_jackknife_term", f"{JK}:estimate_jackknife"])
p("Constant ratios give exact answers",
  "If g, g+ and g- are fixed multiples of rho for every sample (same multiples for all samples), then Z, E and Cv equal the exact finite difference values of those multiples plus the analytic sampling contribution, the jackknife values are identical to the plain ones and all errors are zero.",
  "all sample numbers >= 2, all multiples",
  "Exactness must hold for all inputs of this form.",
  [f"{ST}:estimate_basic_properties", f"{JK}:estimate_jackknife"])
p("The analytic contribution is added exactly once",
  "In the basic and the jackknife outputs, E and Cv contain the sampling model's E and Cv exactly once; errors and Z do not depend on it.",
  "all inputs",
  "The jackknife estimator multiplies its input by the number of samples, so adding before or after differs for all inputs.",
  [f"{ST}:add_harmonic_contribution", f"{ST}:basic_jackknife_analysis", f"{ST}:alpha_jackknife_analysis"])
p("Every available (P, T) is analysed and written once",
  "If each bead/temperature combination has data and analytic results, and the object's hashes are not stale, the analysis writes, in whatever order the processes run, exactly one thermo file per combination, named after that combination and its number of samples, carrying the current hashes and the statistics of all its samples; no other file changes. If a combination lacks data it raises.",
  "all sets of result files and all schedules of the worker processes",
  "All possible sets of result files, including incomplete grids, and all orders of the workers.",
  [f"{ST}:statistical_analysis_of_pimc", f"{ST}:starmap_wrapper"])
p("Only results of the current models enter the analysis",
  "A thermo file stamped with the current hashes is computed only from result files carrying these hashes.",
  "all sets of result files and hashes",
  "Needs result files from older models left in the directory.",
  [f"{ST}:starmap_wrapper", f"{PP}:load_pimc_data", f"{PM}:BoxResultPM.load_multiple_results"])
# ---- pimc algebra
p("Folding the linear terms is completing the square",
  "For every surface, energy + sum of linear and harmonic terms at a point R equals (energy + displacement shift) + harmonic terms at R minus the surface's shift: precomputation removes exactly the terms that the shifted oscillators carry.",
  "all models with non-zero frequencies, all points",
  "Identity over all reals.",
  [f"{PM}:ModelVibronic.compute_linear_displacement", f"{PM}:ModelVibronic.finish_folding_in_terms", f"{PM}:ModelSampling.compute_linear_displacement"])
p("Sampling weights are a probability distribution",
  "The surface weights of a sampling model are positive and sum to one, a lower minimum never has a smaller weight, and shifting all energies by a constant changes nothing.",
  "all sampling models with at least one surface, all positive temperatures",
  "All real parameters.",
  [f"{PM}:ModelSampling.compute_weight_for_each_state"])
p("Sampling standard deviations are well defined",
  "For all bead numbers >= 3, positive frequencies and temperatures, every inverse covariance is strictly positive, so no NaN or division by zero can occur in the standard deviations.",
  "all bead numbers, frequencies, temperatures",
  "Relies on the spectrum of the circulant matrix for all sizes.",
  [f"{PM}:BoxData.preprocess", f"{PM}:ModelSampling.compute_sampling_constants"])
p("The denominator is the sampling density",
  "The computed denominator of a sample is, up to one constant factor that does not depend on the sample, the density of the Gaussian mixture the sample was drawn from.",
  "all sampling models, all sample points, all bead numbers >= 3",
  "An identity between two different code paths (drawing in collective coordinates, evaluating in bead coordinates) for all points.",
  [f"{PM}:ModelSampling.draw_sample", f"{PM}:BoxData.transform_sampled_coordinates", f"{PM}:build_o_matrix", f"{PM}:build_denominator"])
p("The scaling factors cancel",
  "The ratio g/rho stored for a sample is the ratio of the unscaled quantities; scaled denominators are positive; exactly the potentials that are not symmetric to numpy's precision are refused.",
  "all models, all sample points",
  "All real inputs.",
  [f"{PM}:build_scaling_factors", f"{PM}:scale_o_matrices", f"{PM}:build_denominator", f"{PM}:build_numerator"])
p("Sampling the exact model has zero variance",
  "If the system model has no coupling and the sampling model is its diagonal, then for every sample g equals rho, so Z is exactly one with zero error.",
  "all diagonal models without quadratic terms, all sample points, all bead numbers",
  "Must hold for every point of the sample space.",
  [f"{PM}:block_compute", f"{IO}:create_basic_diagonal_model"])
p("The integrand does not depend on which bead is first",
  "Rotating the bead labels of a path leaves the numerator g and the denominator rho unchanged.",
  "all paths, all rotations",
  "All real paths of any number of beads.",
  [f"{PM}:build_numerator", f"{PM}:build_o_matrix", f"{PM}:build_denominator"])
p("The integrand does not depend on the choice of electronic basis ordering",
  "Relabelling (permuting) the electronic surfaces of both models leaves g and rho of every path unchanged.",
  "all models, paths and permutations of surfaces",
  "All real inputs and permutations.",
  [f"{PM}:build_numerator", f"{PM}:diagonalize_coupling_matrix"])
p("The energy finite difference is taken on the right function",
  "The plus and minus numerators are the numerator function evaluated at the inverse temperature beta +- delta_beta.",
  "all models and paths",
  "All real inputs; the deviation shows only in models with coupling.",
  [f"{PM}:block_compute_pm", f"{PM}:build_numerator", f"{PM}:ModelVibronicPM.precompute"])
p("Blocks cover all requested samples exactly once",
  "The block loop computes every one of the requested samples exactly once and nothing outside the arrays.",
  "all numbers of samples and block sizes",
  "Boundary arithmetic for all combinations.",
  [f"{PM}:block_compute", f"{PM}:block_compute_pm", f"{JB}:PimcSubmissionClass.setup_blocks_and_jobs"])
p("Loading several result files concatenates them",
  "load_multiple_results with distinct files yields the samples of all usable files, each exactly once, in some order of the files; its sample count is the total; unusable files (missing keys) are ignored; a zero denominator is refused.",
  "all sets of files, all contents, all iteration orders of the path set",
  "Set iteration order is arbitrary and differs between runs.",
  [f"{PM}:BoxResult.load_multiple_results", f"{PM}:BoxResultPM.load_multiple_results"])
p("A sample limit is respected when loading",
  "load_multiple_results with desired_number_of_samples loads exactly the minimum of the limit and the available samples.",
  "all limits, all sets of files, all iteration orders",
  "The failing case needs a limit that ends inside a later file.",
  [f"{PM}:BoxResult.load_multiple_results", f"{PM}:BoxResultPM.load_multiple_results"])
p("Saved results can be loaded back",
  "Results saved by save_results can be loaded by load_results into an object that expects the same number of samples, giving the same arrays.",
  "all results",
  "An identity comparison of a freshly read array scalar with an int fails on every run but is not exercised.",
  [f"{PM}:BoxResult.save_results", f"{PM}:BoxResult.load_results"])
p("Temperature and inverse temperature conversions are inverse",
  "extract_T_from_beta(beta(T)) = T and beta(extract_T_from_beta(b)) = b, beta is strictly decreasing in T > 0.",
  "all non-zero temperatures",
  "All reals.",
  ["pibronic/constants.py:beta", "pibronic/constants.py:extract_T_from_beta"])
# ---- server
p("Job parameters survive the trip through the batch system",
  "A parameter dictionary serialised for a job is decoded by the job to the same parameters, its text fits into one environment variable, and the job's members are the submitted values; a missing required value is an error.",
  "all parameter dictionaries (numbers, strings, lists and dictionaries of any depth)",
  "The comma replacement is global, so it depends on every character of every string.",
  [f"{PM}:BoxData.json_serialize", f"{PM}:BoxData.load_json_string", f"{JB}:serialize_BoxData_dictionary"])
p("Jobs cover the requested number of samples within the limit",
  "The submitted jobs together compute at least the requested number of samples, no job computes more than the maximum per job, each job's blocks cover its samples, and at least one job is submitted.",
  "all sample numbers and block sizes",
  "Rounding errors appear only for non-multiples.",
  [f"{JB}:PimcSubmissionClass.setup_blocks_and_jobs", f"{JB}:PimcSubmissionClass.submit_jobs"])
p("One batch of jobs per bead and temperature",
  "submit_jobs submits exactly n_jobs jobs for each pair in temperature_list x bead_list, each with that pair's parameters, and leaves the submission object's parameters as set up.",
  "all lists of temperatures and beads",
  "All list lengths.",
  [f"{JB}:PimcSubmissionClass.submit_jobs"])
p("Submission objects are independent",
  "Creating or using one submission object does not change the parameters of another one.",
  "all histories of creating and configuring submission objects",
  "Sharing shows only in histories with two or more objects.",
  [f"{JB}:SubmissionClass.__init__", f"{JB}:PimcSubmissionClass"])
p("Waiting for a job ends only when the job has completed",
  "synchronize_with_job returns only if the scheduler's record contains COMPLETED, raises when the scheduler reports an error, and otherwise keeps waiting.",
  "all sequences of scheduler answers and signals",
  "All schedules of scheduler answers.",
  [f"{JB}:synchronize_with_job", f"{JB}:SIGUSR1_handle"])
p("The job id is read from the submission message",
  "For the message 'Submitted batch job N' the extracted id is N; for shorter messages it is None.",
  "all job numbers",
  "All numbers.",
  [f"{JB}:extract_id_job_from_output"])
# ---- julia
p("Analytic result files never mix models",
  "After any history of calculations, model changes, failures and external truncation to an empty file, every temperature entry of a results file was computed for the models whose hashes the file carries.",
  "all histories of calculations and model rewrites",
  "A property of all histories.",
  [f"{JW}:base_func", f"{JW}:validate_old_rho_data", f"{JW}:validate_old_model_data"])
p("A calculation adds its temperature and keeps the others",
  "A successful calculation with unchanged models writes its temperature's entry and leaves the other temperatures' entries as they were; with changed models it discards all old entries; a failed calculation raises and leaves the file unchanged.",
  "all previous file contents, all outputs of the external program",
  "All contents and outputs.",
  [f"{JW}:base_func", f"{JW}:compute", f"{JW}:convert_keys"])
p("Stored analytic results can be used by the statistics",
  "After analytic_of_sampling_model succeeded for a temperature with the current models, load_analytic_data for that temperature succeeds.",
  "all temperatures, all outputs of the external program",
  "The producer and consumer use different key names, which only an end-to-end run shows; that needs Julia.",
  [f"{JW}:convert_keys", f"{JW}:keyDict", f"{PP}:load_analytic_data"])
# ---- electronic structure
p("The electronic structure workflow resumes after the last completed stage",
  "When the state file lists completed stages, a restarted workflow continues with the stage after the last recorded one; it never skips a stage that was not recorded and never repeats a recorded one.",
  "all crash points, all histories of restarts",
  "All crash points and restart histories.",
  [f"{ES}:VibronExecutionClass._set_state_from_file", f"{ES}:VibronExecutionClass.calculate_vibronic_model"])
p("The workflow runs its stages in order",
  "An uninterrupted run executes optimisation, NIP estimation, vibrational, IP-EOMCC, preparation and vibronic stages exactly once each in this order and records each after it is done.",
  "all runs in which the stages succeed",
  "Statement about the trace of the run.",
  [f"{ES}:VibronExecutionClass.calculate_vibronic_model", f"{ES}:State"])
p("Line skipping helpers find line starts",
  "Skipping back or forward n lines in a buffer lands exactly on the n-th newline before or after the start position, or on the furthest one when there are fewer than n (and stays where it was when there is none); the string search finds the first or last occurrence or raises.",
  "all byte strings, positions and counts",
  "All buffers.",
  [f"{ES}:skip_back_n_lines", f"{ES}:skip_forward_n_lines", "pibronic/helper.py"])
# ---- found while modelling
p("Error bars are the standard ones",
  "The reported error of the partition function ratio is the standard error of the mean; the reported jackknife error is the textbook jackknife standard error sqrt((n-1)/n * sum (r_i - mean r)^2).",
  "all arrays of length at least two",
  "A factor depending on the number of samples is invisible in tests with loose tolerances.",
  [f"{JK}:estimate_jackknife", f"{ST}:basic_jackknife_analysis", f"{ST}:basic_statistical_analysis"])
p("Loading a model file into arrays of other dimensions is rejected",
  "Loading a model file into a given dictionary of arrays either fills every array with the file's values or raises; a file with another number of surfaces or modes never fills the arrays.",
  "all files, all dictionaries of arrays of any dimensions",
  "numpy assignment broadcasts silently for some combinations of dimensions; a test covers single combinations.",
  [f"{IO}:_load_inplace_from_JSON", f"{IO}:load_model_from_JSON", f"{IO}:load_diagonal_model_from_JSON"])
p("Model comparison decides equality of models",
  "The comparison of two model dictionaries answers True exactly when both describe the same model: same dimensions and the same value of every parameter to numpy's precision, where a missing parameter counts as zero.",
  "all pairs of well-formed model dictionaries with any set of keys and fewer than 100000 modes and surfaces",
  "All pairs of dictionaries.",
  [f"{IO}:_same_model", f"{IO}:_same_diagonal_model"])
p("The stored ratio is an unbiased estimator",
  "The expectation of the stored ratio g/rho of a path drawn by the program is the integral of the system integrand divided by the integral of the sampling integrand, so the reported Z has this quotient as its expectation for every number of samples; the expectation exists for models with linear couplings and for models whose quadratic couplings are small against the frequencies, and for one mode only for these.",
  "all models, all temperatures, all bead numbers >= 3, all numbers of samples",
  "An expectation over a continuous distribution; a test sees one random number.",
  ["pibronic/pimc/pimc.py:ModelSampling.draw_sample", "pibronic/pimc/pimc.py:block_compute", f"{ST}:basic_statistical_analysis"])
p("The estimates converge",
  "With independent samples everything the analyses report settles with probability one when the number of samples grows: Z tends to the quotient of the integrals, E and Cv (plain and jackknife, with and without the alpha factors) to the difference quotients of the integrals that the program samples plus the analytic contributions, and the reported errors tend to zero.",
  "all models with linear couplings and small quadratic couplings, all temperatures, all bead numbers >= 3",
  "A statement about infinitely many samples.",
  ["pibronic/pimc/pimc.py:block_compute_pm", f"{ST}:basic_statistical_analysis"])
p("The harmonic part has no discretisation error",
  "For every number of beads >= 3 the integral of the sampling integrand is the textbook partition function of the displaced oscillators (times sqrt(2 pi) per coordinate), so the mean ratio times the analytic partition function of the sampling model is the discretised partition function of the system.",
  "all sampling models, all temperatures, all bead numbers >= 3",
  "An identity between integrals of unbounded dimension.",
  ["pibronic/pimc/pimc.py:build_o_matrix", "pibronic/pimc/pimc.py:build_denominator", "pibronic/pimc/pimc.py:TemperatureDependentClass"])
p("Jobs of one submission do not overwrite each other's results",
  "Two jobs with different Slurm job ids, bead numbers or temperatures write their samples to different files, so no job destroys the results of another one.",
  "all pairs of jobs, all directories",
  "All pairs of names.",
  ["pibronic/pimc/pimc.py:BoxResult.save_results", f"{FN}:pimc"])
p("A resume signal is never lost and never ends the waiting process",
  "While the driver waits for a job, the signal that announces the end of the job ends the wait whenever it arrives: before, while or after the process goes to sleep, and its arrival never terminates the process.",
  "all interleavings of the signal, the signal handler, the alarm and the main thread",
  "Races between a signal handler and the main thread cannot be scheduled by a test.",
  ["pibronic/server/job_boss.py:SIGUSR1_handle", "pibronic/server/job_boss.py:synchronize_with_job"])
p("A data object can write down its own parameters",
  "Encoding a data object without further arguments produces a text from which an equal object can be built; encoding given parameters produces a text that decodes to them.",
  "all data objects, all parameter dictionaries",
  "All member values and all dictionaries.",
  ["pibronic/pimc/pimc.py:BoxData.encode_self", "pibronic/pimc/pimc.py:BoxData.json_serialize", "pibronic/server/server.py:ServerExecutionParameters"])
p("States with too few single excitations are dropped",
  "After the ionisation calculation the number of ionised states that is used is the largest one, at most the initial guess, for which every state of the table has a percentage of singles above the cutoff; when there is none the workflow stops.",
  "all output tables, all initial numbers of states",
  "All tables.",
  [f"{ES}:parse_ip_output", f"{ES}:verify_ip_states"])
p("Cleaning an effective Hamiltonian file keeps exactly the right part",
  "Removing the extra effective Hamiltonians from an output file keeps exactly the text from the beginning of the first line that contains the target on; a file without the target is rejected and left as it is; cleaning twice is the same as cleaning once.",
  "all file contents",
  "All file contents.",
  [f"{ES}:_remove_extra_heff"])
p("Writing the number of states changes only the placeholder",
  "Writing the number of ionised states into the input of the coupling calculation replaces the placeholder and nothing else.",
  "all templates, all numbers",
  "All templates.",
  [f"{ES}:_add_nip_to_file"])
p("The completion check looks at the last ten lines",
  "The check of a calculation's output succeeds exactly when the success message is in one of the last ten lines of the file, and raises otherwise.",
  "all file contents",
  "All file contents.",
  [f"{ES}:verify_aces2_completed", f"{ES}:parse_vibron_output"])
p("The parameter file of a molecule decides its calculation",
  "After reading a parameter file every parameter has the last value the file gives for it and its default otherwise, independently of other molecules treated in the same process; the file is accepted exactly when basis, theory and kind of calculation are supported; an unknown header or a missing value is an error.",
  "all parameter files, all histories of the process",
  "All files, and all sequences of files in one process.",
  [f"{ES}:VibronExecutionClass.parse_input_parameters"])
p("The geometry survives reading, updating and writing",
  "Reading a geometry file and writing it again reproduces relations and coordinates in order (without the optimisation marks when they are not asked for); new values replace exactly the coordinates they name; new cartesian coordinates replace the last lines; more lines than before are rejected.",
  "all geometry files, all updates",
  "All texts.",
  [f"{ES}:ZmatClass"])
p("The optimised geometry is taken from the output",
  "After a geometry optimisation the geometry used by the later stages is the one in the summary of the output; when there is no complete summary the workflow stops with an error.",
  "all outputs, all geometries",
  "All texts.",
  [f"{ES}:parse_opt_output"])
p("Input files describe the requested calculation",
  "The input file of each calculation is the current geometry followed by the keywords with the requested basis, theory, numerical parameters and number of states.",
  "all geometries, all parameters",
  "All geometries and parameters.",
  [f"{ES}:hartree_fock_calculation", f"{ES}:geometry_optimization", f"{ES}:vibrational_frequency", f"{ES}:ip_calculation", f"{ES}:prepVibron_calculation"])
p("Numbers of orbitals are suggested from the largest gap and confirmed by the user",
  "The suggested number of ionised states is the number of orbitals above the largest ratio of neighbouring energies, leaving out the dropped orbitals; a number is used only after the user agreed to it.",
  "all lists of orbital energies, all numbers of dropped orbitals, all sequences of answers",
  "All lists and all dialogues.",
  [f"{ES}:_guess_NIP_value", f"{ES}:_estimate_NIP", f"{ES}:_estimate_dropmo", f"{ES}:get_yes_no_from_user", f"{ES}:get_integer_from_user"])
p("Generated sequences start at the identity and move away from it",
  "Every sequence file that generate_full_monotonic_sequence saves starts with (0, 0), its distances increase strictly, every row records the Frobenius distance from the identity of the rotation for its argument, and there are at least fifty rows; for order one the generation fails.",
  "all orders up to fifteen (the program generates two to ten)",
  "The sampled points say nothing about the behaviour of the matrix exponential between them; that the distance increases up to the chosen end point is a statement about the spectrum.",
  ["pibronic/vibronic/orthonormal/sequences.py:generate_full_monotonic_sequence", "pibronic/vibronic/orthonormal/sequences.py:list_of_turning_points", "pibronic/vibronic/orthonormal/sequences.py:generate_and_save_x_pairs", "pibronic/vibronic/orthonormal/sequences.py:save_sequence"])
p("Training data for g holds the values of g",
  "Every value that the training functions store for a path is the unscaled integrand g of the model at exactly this path: at the sampled path in block_compute_gR, at the saved coordinates in block_compute_gR_from_raw_samples.",
  "all models, all paths, all numbers of beads",
  "All coordinates and all models; the tests only look at shapes.",
  ["pibronic/pimc/pimc.py:block_compute_gR", "pibronic/pimc/pimc.py:block_compute_gR_from_raw_samples", "pibronic/pimc/pimc.py:BoxData.generate_random_R_values", "pibronic/pimc/pimc.py:build_o_matrix"])
p("Training data for rho holds the values of rho",
  "Every value that block_compute_rhoR_from_input_samples stores for given coordinates is the sampling density of the sampling model at these coordinates, independently of earlier calculations with the same object.",
  "all systems, all sampling models, all coordinates, all earlier calculations",
  "All coordinates, models and histories.",
  ["pibronic/pimc/pimc.py:block_compute_rhoR_from_input_samples", "pibronic/pimc/pimc.py:build_o_matrix", "pibronic/pimc/pimc.py:build_denominator"])
p("A calculation uses the models in the files",
  "Preparing an object that was made from a directory loads exactly the coupled model and the sampling model stored there; missing files and a sampling model with another number of modes are refused.",
  "all pairs of models, all contents of the disk, all temperatures and numbers of beads",
  "All models; that a term of a model is ignored does not show in a test with a model without it.",
  ["pibronic/pimc/pimc.py:BoxData.from_FileStructure", "pibronic/pimc/pimc.py:BoxData.preprocess", "pibronic/pimc/pimc.py:BoxData.initialize_models", "pibronic/pimc/pimc.py:ModelClass.load_model", "pibronic/pimc/pimc.py:ModelSampling.load_model", "pibronic/vibronic/vibronic_model_io.py:extract_dimensions_of_model", "pibronic/vibronic/vibronic_model_io.py:extract_dimensions_of_diagonal_model"])
p("A prepared calculation has the temperatures that were asked for",
  "After preparation the time steps are those of the object's temperature and number of beads, and of beta plus and minus delta beta, whatever the object held before, and the object's own plus and minus values are the ones used; fewer than three beads are refused.",
  "all objects, all histories of assignments and preparations",
  "All histories of an object.",
  ["pibronic/pimc/pimc.py:BoxData.preprocess", "pibronic/pimc/pimc.py:BoxDataPM.preprocess", "pibronic/pimc/pimc.py:ModelVibronicPM.precompute"])
p("A finished calculation is saved",
  "When all blocks of a calculation were computed, the results are in a file.",
  "all ways to make the data object, all numbers of samples and blocks",
  "The calculation must be finished before the failure shows.",
  ["pibronic/pimc/pimc.py:simple_wrapper", "pibronic/pimc/pimc.py:plus_minus_wrapper", "pibronic/pimc/pimc.py:block_compute", "pibronic/pimc/pimc.py:block_compute_pm", "pibronic/pimc/pimc.py:BoxResult.save_results", "pibronic/pimc/pimc.py:BoxData.from_FileStructure"])
p("Plotting loads exactly the current results",
  "A plotting object has the bead numbers, temperatures and sample numbers, in increasing order, for which the results directory has a thermo file calculated from the models now in the model files; each entry of its table is the number stored in the file with these parameters, and NaN if there is none; files of other models are never read into it.",
  "all directories with names the program gives, all contents of the files, all orders of the listing, all models",
  "All sets of files; a number in the wrong cell looks like a number.",
  ["pibronic/plotting/plotting.py:plot_Z_test.generate_file_lists", "pibronic/plotting/plotting.py:plot_Z_test.generate_parameter_lists", "pibronic/plotting/plotting.py:plot_Z_test.load_data", "pibronic/plotting/plotting.py:plot_Z_multiple_FS.load_pimc_data", "pibronic/plotting/plotting.py:plot_original_Z_test", "pibronic/plotting/virtual.py:plottingBase"])
p("Plotted percentages are relative to the exact result",
  "For each result the plotted percentage is 100 (Z Zrho - Zexact) / Zexact and its error bar 100 dZ Zrho / Zexact, with the exact partition functions of the current sampling model and of the current original model at the same temperature; energies and heat capacities are not changed.",
  "all results, all numbers of temperatures and samples, all analytic files",
  "All combinations of parameters; a factor taken from another temperature gives a plausible figure.",
  ["pibronic/plotting/plotting.py:plot_original_Z_test.prepare_data", "pibronic/plotting/plotting.py:plot_original_Z_vs_diagonal_test.prepare_data", "pibronic/plotting/plotting.py:load_analytical_original", "pibronic/plotting/plotting.py:load_analytical_sampling"])
p("Abscissas are imaginary time steps",
  "The abscissas of a curve are beta / P for the bead numbers in the list, in its order.",
  "all lists of bead numbers, all temperatures",
  "All lists.",
  ["pibronic/plotting/plotting.py:plot_original_Z_test.generate_tau_values", "pibronic/plotting/plotting.py:plot_Z_multiple_FS.generate_tau_values"])
p("A saved figure shows all current results and nothing else",
  "Every current result is a point of the saved figure at its time step, with its value and its error bar, on the curve of its temperature and sample number; every point of the figure is a current result; there is a figure for each of the quantities that the class announces.",
  "all results directories, all models, any number of temperatures",
  "All sets of results; figures are not compared in tests.",
  ["pibronic/plotting/plotting.py:plot_original_Z_test.plot_Z", "pibronic/plotting/plotting.py:plot_original_Z_vs_diagonal_test.plot_Z", "pibronic/plotting/plotting.py:plot_Z_test.plot_Z", "pibronic/plotting/plotting.py:plot_Z_test.plot_E", "pibronic/plotting/plotting.py:plot_Z_test.plot_Cv", "pibronic/plotting/plotting.py:plot_sos_Z_vs_rho_n", "pibronic/plotting/plotting.py:plot_rectangle"])
p("Sum over states and Trotter results belong to their object",
  "Each object gets the results of its own files at its own temperatures; a missing Trotter result is NaN, and never an exception.",
  "all lists of objects, all subsets of existing files",
  "All subsets of files; the results of another object look plausible.",
  ["pibronic/plotting/plotting.py:load_sos", "pibronic/plotting/plotting.py:load_trotter_coupled"])
p("Grid figures show the model",
  "Plotting the energies, linear or quadratic terms saves one figure for each matrix of the original and of the coupled model (for each mode, or pair of modes), under a name no other figure has; the square in row a and column b shows the entry (a, b) of that matrix and is marked with its sign.",
  "all models, all numbers of surfaces and modes",
  "All models; a mark on the wrong square does not show in a symmetric test model.",
  ["pibronic/plotting/grid_plots.py:plotGrids.plot_energy", "pibronic/plotting/grid_plots.py:plotGrids.plot_linear_coupling", "pibronic/plotting/grid_plots.py:plotGrids.plot_quadratic_coupling", "pibronic/plotting/grid_plots.py:plotGrids.annotate_intensity_grid", "pibronic/plotting/grid_plots.py:plotGrids.generate_sign_array"])
p("Parameters for the analysis with sum over states results",
  "For result files with the names the program gives them, the lists of bead numbers, temperatures (and numbers of samples) handed to the older analysis hold exactly the values that occur in the names, and the list of basis sizes exactly those for which both models have a sum over states file; every list is in increasing order without repetitions, also when the directory's path has capital letters.",
  "all sets of result files, all directories whose path does not hold the separators",
  "All names and all directories; a test has one short path.",
  ["pibronic/data/postprocessing.py:extract_pimc_parameters", "pibronic/data/postprocessing.py:extract_jackknife_parameters", "pibronic/data/postprocessing.py:retrive_file_paths_for_jackknife"])
p("Sum over states results of the sampling model",
  "What is loaded for the sampling model at a temperature is what the file lists for that very temperature, the two ratios are those of the listed partition functions, and a file that is missing, is not JSON, lists no temperatures or not the requested one is reported.",
  "all files, all temperatures, whatever was loaded before",
  "All files and temperatures, and the failures of the file system a test does not produce.",
  ["pibronic/data/postprocessing.py:load_rho_sos_data"])
p("Models in automatically generated files",
  "Reading a file with the documented layout (title, header, parent gradient, parent Hessian, reference Hamiltonian, gradients, diagonal and off-diagonal second order corrections) gives the model whose entries are the numbers in the file, with every off-diagonal quadratic term for both orders of the modes; blank lines and rulers do not matter and a model that is not symmetric in the surfaces is rejected.",
  "all files with the documented layout, any number of surfaces and modes",
  "All files; a test has one molecule, and the reader consumes lines in a fixed order.",
  ["pibronic/vibronic/model_auto.py:read_model_auto_file", "pibronic/vibronic/model_auto.py:fill_in_offdiagonal_quadratic_couplings", "pibronic/vibronic/vibronic_model_io.py:read_model_auto_file"])
p("Models in files of the older format",
  "Reading a *.h file returns the model described by it and its *.in file, with the numbers of states and modes in front of their labels and the frequencies of the two lines; a missing file or label is reported; creating the coupled model from such a file or from a link writes a complete model or nothing.",
  "all files, all directories",
  "All files; the failure depends only on the way the functions call each other.",
  ["pibronic/vibronic/model_h.py:read_model_h_file", "pibronic/vibronic/model_h.py:get_number_of_electronic_states", "pibronic/vibronic/model_h.py:get_number_of_normal_modes", "pibronic/vibronic/model_h.py:extract_normal_mode_frequencies", "pibronic/vibronic/vibronic_model_io.py:create_coupling_from_h_file", "pibronic/vibronic/vibronic_model_io.py:create_coupling_from_op_hyperlink"])
p("Electronic structure calculations are submitted",
  "Each stage of the electronic structure calculations submits its calculation once, obtains the id of the job and waits for it; a submission that Slurm refuses is reported and does not count as submitted.",
  "all stages, all answers of sbatch",
  "All answers of Slurm; the tests replace the submission by a stub.",
  ["pibronic/vibronic/electronic_structure.py:submit_job", "pibronic/vibronic/electronic_structure.py:hartree_fock_calculation", "pibronic/vibronic/electronic_structure.py:vibron_calculation", "pibronic/server/job_boss.py:submit_job"])
p("Failed jobs are noticed",
  "Waiting for a job returns normally only if the job was completed, and the check of the output file of a job reports a segmentation fault, a killed job and lack of memory.",
  "all answers of Slurm, all contents of the output file",
  "All contents; a test can only show single files.",
  ["pibronic/vibronic/electronic_structure.py:wait_on_results", "pibronic/server/job_boss.py:check_acct_state", "pibronic/server/job_boss.py:check_slurm_output"])
p("Cluster and partition",
  "The name of the cluster is the one in Slurm's configuration, and a partition is accepted only if Slurm lists it.",
  "all configurations, all listings, all names of partitions",
  "All listings and names; whether a wrong name passes depends on the other names.",
  ["pibronic/server/job_boss.py:get_hostname", "pibronic/server/job_boss.py:assert_partition_exists"])
p("Progress report",
  "The report on the progress of the electronic structure calculations has one line for each molecule, with the last state in its own state file or the remark that it has none.",
  "all sets of state files",
  "All combinations of files; a value left over from another molecule only shows in some of them.",
  ["pibronic/vibronic/electronic_structure.py:pretty_print_job_status"])
p("Command of a job",
  "The command handed to Slurm names the job, its resources, its directories and its parameters as given, and starts the job script and the sampling script of the package with the running interpreter.",
  "all parameters of jobs, all directories the package is installed in",
  "All parameters and installations; the tests never run the command.",
  ["pibronic/server/job_boss.py:prepare_job_nlogn", "pibronic/server/job_boss.py:prepare_job_compute_canada", "pibronic/server/job_boss.py:get_path_of_job_boss_directory", "pibronic/server/job_boss.py:get_path_to_python_executable"])
p("Results of a job arrive",
  "When a job ends, its results are in the results directory of the file structure it was submitted from, and no result of another job is lost.",
  "all paths of file structures, all data sets and sampling distributions, all files already present",
  "All paths; the script moves files between directories whose names are derived from each other.",
  ["pibronic/server/job_boss.py:SubmissionClass.prepare_paths", "pibronic/server/nlogn_feynman/pimc_job.sh", "pibronic/server/compute_canada/pimc_job.sh", "pibronic/server/compute_canada/pimc.py", "pibronic/data/file_structure.py:FileStructure.from_boxdata"])
p("Commands for Julia",
  "Every analytic, sum over states and Trotter calculation runs the script of its method from the installed Julia package, on the file of its own model, at the given temperature and with the given basis size and number of beads; without a working Julia nothing is run and the failure is reported.",
  "all root directories, data sets, sampling distributions, methods, sizes and temperatures, all answers of Julia",
  "All paths and parameters; the command is one text made by filling templates and is split again by the shell.",
  ["pibronic/julia_wrapper.py:construct_command_dictionary", "pibronic/julia_wrapper.py:analytic_wrapper", "pibronic/julia_wrapper.py:sos_wrapper", "pibronic/julia_wrapper.py:trotter_wrapper", "pibronic/julia_wrapper.py:prepare_julia"])
p("Command line of the Julia wrapper",
  "From the command line every offered method can be run, with the temperature or inverse temperature, the number of beads and the basis size of the options; wrong options are refused.",
  "all combinations of options",
  "All combinations of options; the tests never use the command line.",
  ["pibronic/julia_wrapper.py:main"])
p("Iterative method",
  "The iterative method reads the coupled model and writes the iterative model and matrix of the same data set; when the call returns, they are there.",
  "all root directories, data sets, numbers of iterations and behaviours of the external program",
  "All behaviours of the external program, including failures.",
  ["pibronic/julia_wrapper.py:iterate_method"])
p("Whole workflow of a molecule",
  "Given the number of a molecule, the workflow makes its directories, copies its input files, calculates the model and submits the sampling jobs; other numbers are refused.",
  "all numbers, all arguments, all contents of the disk",
  "All arguments and disks; the workflow needs a cluster and is never run by a test.",
  ["pibronic/everything.py:execute", "pibronic/everything.py:copyInput"])
p("Data for plots do not change the tuned matrices",
  "Generating data for plots leaves the matrices returned for every order and tuning parameter as they were.",
  "all histories of generations, orders and tuning parameters",
  "All histories of generator calls; the generators and the tuned matrices share files, which no test of one function sees.",
  ["pibronic/vibronic/orthonormal/sequences.py:generate_sequences_for_plotting", "pibronic/vibronic/orthonormal/sequences.py:generate_turning_point_sequence_for_plotting", "pibronic/vibronic/orthonormal/sequences.py:generate_full_monotonic_sequence_for_plotting", "pibronic/vibronic/orthonormal/sequences.py:save_sequence"])
p("Turning points in the data for plots",
  "In the data for plots every turning point of the distance is shown in the row of its argument.",
  "all orders and all turning points",
  "All turning points of ten thousand samples; a single turning point is shown correctly.",
  ["pibronic/vibronic/orthonormal/sequences.py:generate_turning_point_sequence_for_plotting", "pibronic/vibronic/orthonormal/sequences.py:list_of_turning_points"])
p("Training files belong together",
  "The two files a training run saves under one job number have the stated number of rows, and row s of the one is the value of g at row s of the other; later calls and interruptions do not change that.",
  "all sample numbers, block sizes, block numbers, random points, histories of saves and crash points",
  "All sizes, histories and crash points; a test compares one pair of files of one undisturbed run.",
  ["pibronic/pimc/pimc.py:block_compute_gR_from_raw_samples", "pibronic/pimc/pimc.py:save_gR_with_samples", "pibronic/pimc/pimc.py:block_compute_rhoR_from_input_samples", "pibronic/pimc/pimc.py:BoxData.generate_random_R_values"])
p("The hand-over to the vibronic calculation can be repeated",
  "The step that prepares the vibronic calculation makes its three input files from the three outputs of the coupling calculation: two are the outputs from the first line with HEFF_IP2 on, the third is the output with the number of states in place of the placeholder. It never changes the outputs or any other file. Interrupted at any point, it can be repeated and then ends with the same files and the same outcome as an undisturbed run. When an output is missing it fails without touching the input made from it.",
  "all contents of the files, molecule names, directories, numbers of states and crash points",
  "All contents and all points of interruption within copies and within the changes in place; a test runs one undisturbed step.",
  ["pibronic/vibronic/electronic_structure.py:parse_prepVibron_output", "pibronic/vibronic/electronic_structure.py:_copy_output_file", "pibronic/vibronic/electronic_structure.py:_remove_extra_heff", "pibronic/vibronic/electronic_structure.py:_add_nip_to_file", "pibronic/vibronic/electronic_structure.py:verify_file_exists"])
p("Orbital energies are read from their table in the output",
  "The suggestions for the number of dropped orbitals and of ionised states are based on the energies in the fourth column of exactly the rows of the table of orbital energies, in their order; an output without the table is an error; when an energy cannot be read the user is asked for the number.",
  "all output files (any text before and after the table, any number of rows), all answers",
  "The table may stand anywhere in a file of any length and have any number of rows.",
  ["pibronic/vibronic/electronic_structure.py:_extract_lines_for_estimating_NIP", "pibronic/vibronic/electronic_structure.py:_estimate_dropmo", "pibronic/vibronic/electronic_structure.py:_estimate_NIP"])
p("A model object or a data object can be made straight from a file",
  "A plain model object that loads the file of a saved model has the saved dimensions, energies, frequencies, linear and quadratic terms (zeros for terms the model does not have); the constructors that take the path of a file return an object with the parameters in the file.",
  "all saved models, all files",
  "All models, with any combination of missing or zero terms, and all files.",
  ["pibronic/pimc/pimc.py:ModelClass.load_model", "pibronic/pimc/pimc.py:ModelClass.from_json_file", "pibronic/pimc/pimc.py:BoxData.from_json_file"])
p("The error of the discretisation vanishes with the number of beads",
  "For every system whose potential rises in every direction, with enough beads the expectation of the stored ratio times the analytic partition function of the sampling model is as close as one likes to the partition function of the system's Hamiltonian: the trace of exp(-beta H) in a basis of oscillator functions, in the limit of a complete basis. The distance falls at least like one over the square root of the number of beads.",
  "all systems whose potential rises in every direction, with any couplings up to second order, all sampling models, all temperatures, all tolerances",
  "A limit of integrals whose dimension grows without bound.",
  ["pibronic/pimc/pimc.py:build_numerator", "pibronic/pimc/pimc.py:build_o_matrix", "pibronic/pimc/pimc.py:block_compute", "pibronic/stats/stats.py:basic_estimate_Z_monte_carlo"])
p("The reported energy is the energy of the system",
  "As the number of samples grows, the energy that an analysis reports settles at the energy of the system: minus the (difference) derivative of the logarithm of its partition function.",
  "all systems, numbers of beads and temperatures, with probability one over the samples",
  "A statement about limits of random averages for all systems; the deviation is hidden in the statistical error of any finite run.",
  ["pibronic/stats/stats.py:basic_statistical_analysis", "pibronic/stats/stats.py:alpha_statistical_analysis", "pibronic/stats/stats.py:add_harmonic_contribution", "pibronic/stats/stats.py:basic_estimate_internal_energy", "pibronic/pimc/pimc.py:block_compute_pm"])
p("Converting the keys of a model dictionary loses nothing",
  "Converting the keys of a dictionary from names to members of the enumeration, or back, keeps every value under the corresponding key and the order of the items; converting a converted dictionary changes nothing; an unknown name is refused.",
  "all dictionaries",
  "All sets and orders of keys; the conversion changes the dictionary while it goes through it.",
  ["pibronic/vibronic/vibronic_model_keys.py:VibronicModelKeys.change_dictionary_keys_from_strings_to_enum_members", "pibronic/vibronic/vibronic_model_keys.py:VibronicModelKeys.change_dictionary_keys_from_enum_members_to_strings", "pibronic/vibronic/vibronic_model_keys.py:VibronicModelKeys.key_list"])
p("The electronic structure program starts the calculation it is asked for",
  "Called with the name of a molecule, and possibly the number of a stage, the program runs the calculations of this molecule in a directory of its own; the calculations of a data set are run in the directory of the data set.",
  "all argument lists, all molecules, stages and data sets",
  "All arguments; the tests never call the entry points, which submit jobs.",
  ["pibronic/vibronic/electronic_structure.py:main", "pibronic/vibronic/electronic_structure.py:test_one", "pibronic/vibronic/electronic_structure.py:calculate_vibronic_model_wrapper_one"])
p("The check of a covariance matrix accepts exactly the positive semidefinite ones",
  "The check raises an assertion error for a matrix that is not positive semidefinite and returns for every other one.",
  "all square matrices",
  "All matrices.",
  ["pibronic/pimc/pimc.py:pos_sym_assert"])
p("The electronic basis does not change the result",
  "Take a system whose matrices are symmetric and whose potential energy rises in every direction, and the same system written in another orthonormal electronic basis. With enough beads, the expectation of the stored ratio times the analytic partition function of the sampling model is the same for both as closely as one likes, whatever sampling model is used for each.",
  "all such systems, all orthogonal matrices, all pairs of sampling models, all temperatures, all tolerances",
  "The code splits off a different part of the potential in each basis, so the two numbers differ for every finite number of beads; only a limit of integrals of growing dimension compares them.",
  ["pibronic/pimc/pimc.py:build_numerator", "pibronic/pimc/pimc.py:build_o_matrix", "pibronic/pimc/pimc.py:build_scaling_factors", "pibronic/pimc/pimc.py:block_compute"])
p("The result converges with the number of beads",
  "For every system whose matrices are symmetric and whose potential energy rises in every direction, the expectation of the stored ratio times the analytic partition function of the sampling model approaches a number when the number of beads grows. That number depends on the system and the temperature only, not on the sampling model. The distance falls at least as fast as one over the square root of the number of beads.",
  "all such systems, all sampling models, all temperatures, all numbers of beads from some number on",
  "A statement about all large numbers of beads, each with its own integral of its own dimension; runs at a few numbers of beads cannot show that a plateau is the limit.",
  ["pibronic/pimc/pimc.py:build_numerator", "pibronic/pimc/pimc.py:build_o_matrix", "pibronic/pimc/pimc.py:block_compute", "pibronic/stats/stats.py:basic_estimate_Z_monte_carlo"])
p("Enough beads and enough samples give the partition function",
  "For every system whose potential rises in every direction and every tolerance there is a number of beads from which on, whatever the sampling model, the partition function reported by any of the four analyses of independently drawn samples, times the analytic partition function of the sampling model, comes within the tolerance of the trace of exp(-beta H) over a large basis and stays there as samples are added, with probability one.",
  "all systems whose potential rises in every direction, all sampling models, all temperatures, all tolerances, almost every sequence of samples",
  "A limit in two unbounded numbers of the outcome of random draws.",
  ["pibronic/pimc/pimc.py:BoxData", "pibronic/pimc/pimc.py:block_compute_pm", "pibronic/stats/stats.py:basic_statistical_analysis", "pibronic/stats/stats.py:alpha_statistical_analysis", "pibronic/stats/stats.py:basic_jackknife_analysis", "pibronic/stats/stats.py:alpha_jackknife_analysis"])
p("The error bar of Z is a standard error",
  "The error that an analysis reports for the partition function, times the square root of the number of samples, settles with probability one at the standard deviation of the ratio of the two integrands, so four times as many samples halve the error bar; and for many samples the probability that the expectation lies within c error bars of the reported value is the probability that a normal variable lies within c standard deviations.",
  "all systems, all sampling models, all temperatures, all numbers of beads from three on, all multiples c, almost every sequence of samples",
  "A limit of the outcome of random draws; a test sees one finite sample and cannot tell a finite spread from an infinite one.",
  ["pibronic/pimc/pimc.py:BoxData", "pibronic/pimc/pimc.py:block_compute_pm", "pibronic/stats/stats.py:basic_estimate_Z_monte_carlo", "pibronic/stats/stats.py:basic_statistical_analysis", "pibronic/stats/stats.py:alpha_statistical_analysis", "pibronic/stats/stats.py:basic_jackknife_analysis", "pibronic/stats/stats.py:alpha_jackknife_analysis"])
p("The jackknife error bars of E and Cv are standard errors",
  "Whenever the ratios of the two integrands have a finite spread, the error that a jackknife analysis reports for the energy and for the heat capacity, times the square root of the number of samples, settles with probability one at the standard deviation of the influence that one path has on the quantity; and for many samples the probability that the value which the integrals give lies within c error bars of the plain estimate, and of the jackknife estimate, is the probability that a normal variable lies within c standard deviations.",
  "all systems, all sampling models under which the ratios have a finite spread and some path has an influence, all temperatures, all numbers of beads from three on, the analyses with and without the alpha factors, all multiples c, almost every sequence of samples",
  "A limit of the outcome of random draws through a quotient of averages; a test sees one finite sample and cannot tell a wrong factor in the error from chance.",
  ["pibronic/stats/jackknife.py:calculate_jackknife_term", "pibronic/stats/jackknife.py:calculate_alpha_jackknife_terms", "pibronic/stats/jackknife.py:estimate_jackknife", "pibronic/stats/stats.py:basic_jackknife_analysis", "pibronic/stats/stats.py:alpha_jackknife_analysis"])
p("Different temperatures are kept apart",
  "The results of runs at different temperatures are never mixed: they are saved in different files, the samples that the analysis loads for one temperature contain none of another, saving one leaves the other, an analytic calculation at one temperature leaves the entry of the other; and the analysis treats each result at the temperature of its run.",
  "all non-negative temperatures (any number of kelvin, not only those with two decimals), all numbers of beads, jobs, samples, directories and listings, all earlier contents of the files",
  "Tests use temperatures like 300.0; the names and keys show two decimals, so that the claim depends on how every other number is rounded.",
  ["pibronic/data/file_name.py:pimc", "pibronic/pimc/pimc.py:BoxResult", "pibronic/data/postprocessing.py:extract_temperature_paramater_list", "pibronic/data/postprocessing.py:retrive_pimc_file_list", "pibronic/julia_wrapper.py:convert_keys", "pibronic/data/postprocessing.py:load_analytic_data"])
p("A submission does not depend on earlier ones",
  "Submitting the jobs of an object again, after Slurm refused a job or after a parameter that made the call fail was corrected, asks for the jobs that the parameters describe; and an object that is created after another one was submitted asks for the number of jobs that its own number of samples needs.",
  "all parameters, all points at which Slurm refuses a job, all hosts and partitions, all histories of earlier submissions and objects",
  "The parameters live in one dictionary of the class that the calls change; the claim is about what every earlier call, also a failing one, leaves behind.",
  ["pibronic/server/job_boss.py:PimcSubmissionClass.setup_blocks_and_jobs", "pibronic/server/job_boss.py:PimcSubmissionClass.submit_jobs", "pibronic/server/job_boss.py:SubmissionClass.__init__"])
p("A job saves what was asked for at its submission",
  "The sampling script that a job runs decodes the submitted parameters, and when the blocks make up the samples asked for it saves exactly these samples, each once and at its own place, together with their number and the hashes of the two models, in one file in the results directory that belongs to the submission; its name shows the beads, the temperature to the nearest hundredth and the id of the job. No other file changes, and two jobs with different ids keep their own files. A job with another number of arguments, with parameters that cannot be decoded, with a failing preparation or with an id that is no number raises and saves nothing. Any submission directory works.",
  "all submitted dictionaries, directories, numbers of samples, blocks and beads, temperatures, job ids, model texts, computed values and disk contents",
  "All dictionaries and directories; running a job needs Slurm, and a test uses one set of parameters.",
  ["pibronic/server/nlogn_feynman/pimc.py", "pibronic/server/compute_canada/pimc.py", "pibronic/server/nlogn_feynman/pimc_job.sh", "pibronic/server/compute_canada/pimc_job.sh", "pibronic/pimc/pimc.py:BoxData.from_json_string", "pibronic/pimc/pimc.py:BoxResult.compute_path_to_file", "pibronic/pimc/pimc.py:block_compute_pm"])
p("The parameters in a .h file are read from the blocks of their modes",
  "From a file of the older .h format the reference Hamiltonian, the linear couplings and the two kinds of quadratic couplings are read as the numbers that stand in their sections, between the first line with the section's title and the first line with the next title. The matrix of a mode is the one below the header that shows the mode's frequency; the matrix of a pair of modes is the one below the header that shows both frequencies. Every matrix that is returned is square with one row for each surface. A missing title and a frequency that is not in the section are errors. Modes with the same frequency, or with a frequency whose text is part of another, keep their own couplings.",
  "all texts before, between and after the sections, headers, numbers of surfaces and modes, frequencies and conversions of texts to numbers",
  "All files; the functions are not called by any test.",
  ["pibronic/vibronic/model_h.py:extract_energies", "pibronic/vibronic/model_h.py:extract_linear_couplings", "pibronic/vibronic/model_h.py:extract_quadratic_couplings", "pibronic/vibronic/model_h.py:extract_offdiag_quadratic_couplings", "pibronic/helper.py:find_string_in_file"])
p("The numbers of an analysis reach the tables of the plots through the thermo files",
  "A thermo file that was written to the end is read back as the two hashes and each number the analysis found (as the nearest float) under its name, and nothing else. A file cut at any character is rejected. When all thermo files of a directory are complete, a plotting object is set up, and the entry of its table for a number of beads, a temperature, a number of samples and a quantity is the number that the analysis of the results of the present models found; it is NaN for quantities the analysis does not calculate and where there is no such file. From samples to the table: after an analysis the entries are the estimates calculated from the samples in the result files. After several analyses of the same results the files are those of the last one. A file that an interrupted analysis left behind does not stop plots of the other results, and results of different kinds of analysis of the same samples are kept side by side.",
  "all directories, models, hashes, numbers of beads, temperatures, samples, methods and sequences of analyses, orders of tasks, printing and reading of floats, and crash points of a write",
  "All contents of a directory, all crash points and all sequences of analyses; tests plot no results.",
  ["pibronic/stats/stats.py:statistical_analysis_of_pimc", "pibronic/stats/stats.py:jackknife_analysis_of_pimc", "pibronic/stats/stats.py:testing_execution", "pibronic/plotting/virtual.py:plotVirtual"])
p("The example projects work on their listed data sets and on no other",
  "The data sets of the artificial systems are 11-15, 21-25 and 31-35: the tens select the system 2x2, 4x6 or 7x12, the ones the strength of the coupling 0.05, 0.25, 0.5, 0.75, 1. Those of the paper are 11-16, 21-26, 31-36 and 41-46, where the tens select superimposed, displaced, elevated or jahnteller. Every other number is refused with an AssertionError. The loops of a system visit each of its data sets with each sampling model listed for it exactly once (0 to 4 for the artificial systems; 0, 1 and 11, for jahnteller also 2), and an unknown name of a system is refused.",
  "all data set numbers and all names of systems",
  "All numbers, and the loops as a whole; tests call the programs for a few data sets.",
  ["examples/artificial_systems/systems.py:get_system_name", "examples/artificial_systems/systems.py:get_tuning_parameter", "examples/paper_1.5025058/systems.py:get_system_name", "examples/artificial_systems/submit_jobs_to_server.py:automate_pimc_submission", "examples/artificial_systems/analyze_results.py:automate_statistical_analysis"])
p("Each missing deterministic result gets one job, and a result that is there none",
  "The wrappers for the sum over states and the Trotter calculations submit, for every combination of basis size, temperature (and number of beads) whose result for the present model is missing, one shell command; as the shell reads it, it runs on the cluster a Python program for this root, data set, basis size, temperature (and number of beads). Combinations whose result is there are left out. After a successful calculation its result counts as there, the results that were there for the same model still do, and after a change of the model every result counts as missing. A results file that cannot be read ends the program with ValueError (KeyError without a hash) after the jobs before it. Without a given root only the two listed hosts are accepted.",
  "all projects, roots, data sets, models, lists of basis sizes, temperatures and beads, and contents of the results files at the time each is looked at",
  "All lists and all states of the results files, including torn ones; tests do not submit jobs.",
  ["examples/artificial_systems/submit_jobs_to_server.py:_generate_sos_results", "examples/artificial_systems/submit_jobs_to_server.py:_generate_trotter_results", "examples/paper_1.5025058/submit_jobs_to_server.py:_generate_trotter_results", "examples/artificial_systems/submit_jobs_to_server.py:simple_sos_wrapper", "pibronic/julia_wrapper.py:sos_of_coupled_model"])
p("Deterministic calculations that run at the same time leave all their results",
  "When several calculations (sum over states, Trotter, analytic) run at the same time, in whatever order they read, calculate and write, and whichever of them are killed at whatever point, each one that ends successfully leaves in its results file what it would leave alone, a calculation that fails leaves its file as it was, every file is as it was or holds a prefix of a complete new text, and no other file changes. A calculation that gets enough turns ends.",
  "all sets of jobs, all schedules of their reads and writes, all sizes of the pieces in which a text reaches the disk, all crash points",
  "Every interleaving of the operations of all jobs; a test sees one.",
  ["pibronic/julia_wrapper.py:base_func", "pibronic/julia_wrapper.py:validate_old_model_data", "examples/artificial_systems/submit_jobs_to_server.py:simple_sos_wrapper"])
p("Submitting what is missing again and again completes the results",
  "Let calculations at different temperatures share a results file, in any order of reads and writes in which none touches the file while another one writes it. Then none of them fails because of the file, the results that were there stay, every result in the file is an old one or that of the calculation at its temperature, and if at least one calculation has ended at least one new result is there. So after as many rounds of submitting the missing temperatures as there were missing temperatures, nothing is missing.",
  "all results files, lists of temperatures, numbers of rounds, and in each round all such schedules",
  "Every schedule of every round; a test sees one.",
  ["pibronic/julia_wrapper.py:base_func", "examples/artificial_systems/submit_jobs_to_server.py:_generate_sos_results", "pibronic/julia_wrapper.py:sos_of_coupled_model"])
p("Preparing an artificial data set makes its models from the input file, and again the same",
  "After an artificial data set was prepared, from whatever was there before and however its iterative part ends, the original coupled model is the input file, the coupled model is the input in the basis given by the stored matrix (the one stored before, or else a new one), the harmonic model and the sampling model 0 are the diagonal of the coupled model, and the sampling model 1 is the diagonal of the input. Preparing it again from the same input, on any host and with any other random draw, changes none of these files and not the matrix.",
  "all roots, data sets, previous contents of the files, input models symmetric to numpy's precision, matrices and outcomes of the iterative method",
  "All inputs and all previous states of the directory; no test prepares an example data set.",
  ["examples/artificial_systems/setup_models.py:prepare_model", "examples/artificial_systems/setup_models.py:unitary_transformation", "examples/artificial_systems/setup_models.py:setup_sampling_distributions", "examples/artificial_systems/setup_models.py:copy_input_json_files_into_directories", "pibronic/vibronic/vibronic_model_io.py:create_fake_coupled_model"])
p("The iterative part of an artificial data set uses the new coupled model and stays in its root",
  "Preparing an artificial data set changes only its own model files under the given root. The sampling model 2 is what the iterative method made of the new coupled model; the sampling models 3 and 4 are the same with other energies: with x the lowest eigenvalue of the new coupled potential at the lowest point of a surface, the surface of model 4 has its lowest point there with the height x, and model 3 stores x as the energy. A failure of the iterative method is reported.",
  "all roots, data sets, previous contents of the files, input models and outcomes of the iterative method",
  "All previous states of the directories and all outcomes of a job on the cluster; no test prepares an example data set.",
  ["examples/artificial_systems/setup_models.py:setup_sampling_distributions", "examples/artificial_systems/submit_jobs_to_server.py:iterative_method_wrapper", "pibronic/vibronic/vibronic_model_io.py:recalculate_energy_values_of_diagonal_model", "pibronic/vibronic/vibronic_model_io.py:simple_single_point_energy_calculation"])
p("Preparing a data set of the paper copies each alternate sampling model to its number",
  "Preparing a data set of the paper makes the coupled model the input file of the system and the last digit of the data set, the harmonic model its diagonal, the sampling model r the file with that system, digit and number r for every such file, and the sampling model 0 the diagonal when there is no file for 0; it changes nothing else.",
  "all directories of the scripts, roots, data sets, systems, directory listings and their orders, and previous contents",
  "All paths and listings; no test prepares an example data set.",
  ["examples/paper_1.5025058/setup_models.py:prepare_paper_model", "examples/paper_1.5025058/setup_models.py:copy_input_json_files_into_directories", "examples/paper_1.5025058/setup_models.py:copy_alternate_rhos_into_directories"])
p("The sampling model 11 of the paper is the iterative model with corrected energies",
  "After a data set of the paper was prepared with the iterative method, the iterative model and the sampling model 11 under the given root are the same file: what the method made of the input model, where each surface keeps its shape and lowest point and its height there is the lowest eigenvalue of the potential of the input.",
  "all roots, data sets, previous contents of the files, input models and outcomes of the iterative method",
  "All states of the directories and all outcomes of a job on the cluster; no test prepares an example data set.",
  ["examples/paper_1.5025058/setup_models.py:prepare_paper_model_plus_iterative_method", "examples/paper_1.5025058/setup_models.py:setup_weight_corrected_iterative_model", "examples/paper_1.5025058/submit_jobs_to_server.py:iterative_method_wrapper"])
p("Every data set of a system gets its Monte Carlo jobs, each with its own parameters",
  "The automated submission for a system submits, for every data set and sampling distribution of the system, every temperature and every number of beads, exactly one job, with the identifiers, paths, numbers of surfaces and modes of that data set, the temperature and the number of beads, 1000 samples per block, the scratch directory and the resources; and before them it starts the analytical calculations of the two models, whose programs call functions of the package. It ends at the first data set without a model file, and at the first job that Slurm refuses, with exactly the jobs before it submitted. A system that is not listed and a machine that is not one of the two servers get nothing. Run as they are, the two programs do this for the first system of their project and for no other.",
  "all systems of both projects, settings (temperatures, numbers of beads, samples), model files, answers of Slurm",
  "All jobs of the process go through one dictionary that all submission objects share; a test submits one.",
  ["examples/artificial_systems/submit_jobs_to_server.py:automate_pimc_submission", "examples/artificial_systems/submit_jobs_to_server.py:simple_pimc_wrapper", "examples/paper_1.5025058/submit_jobs_to_server.py:simple_pimc_wrapper", "pibronic/server/job_boss.py:PimcSubmissionClass"])
p("The systems can be analysed at the same time",
  "The analysis program of the example projects starts one process for each system. Whatever the order in which the processes make their steps, and at every moment (so also if the program is killed), each process is where it would be if it ran alone, and the files of its data sets are what they would be; every process ends; nothing changes outside the data sets of the systems. If what a system needs is there at the beginning, its process ends without an exception, whatever the others find, and leaves for every sampling distribution with a model and every number of beads and temperature with results the basic jackknife analysis of all samples, and no other file of the system has changed.",
  "all schedules of the processes and their pools, all prefixes of them, contents of the disk, both projects",
  "The processes share the disk and are not synchronised; a test runs one schedule.",
  ["examples/artificial_systems/analyze_results.py:automate_statistical_analysis", "examples/paper_1.5025058/analyze_results.py:automate_statistical_analysis", "pibronic/stats/stats.py:starmap_wrapper"])
p("Preparing all systems gives every data set what preparing it alone gives",
  "`automate_prepare_model` of the example projects prepares all data sets of all systems in one process. Every data set before the first one that fails ends up, and so does that one, with the model files and the stored matrix that preparing it alone would leave; the exception of the first failure ends the run and the data sets after it keep what they had; nothing outside of the directories of these data sets changes. After a run without exception every data set and sampling distribution that the other programs of the project visit has its coupled model and its sampling model.",
  "all contents of the disk, input files, random matrices and outcomes of the iterative method, separately for each data set; both projects",
  "The data sets share the disk; a test prepares a few of them, with one set of input files.",
  ["examples/artificial_systems/setup_models.py:automate_prepare_model", "examples/paper_1.5025058/setup_models.py:automate_prepare_model", "examples/paper_1.5025058/systems.py:rho_dict"])
p("Submitting the calculations of a system submits exactly the missing ones",
  "`automate_sos_trotter_submission` goes through the data sets of the system in order; for each one it submits the sum over states with the basis size 80 at 300 K if its result is missing, then the Trotter calculation with each of the 7 numbers of beads whose result is missing, and nothing else. Unknown systems and other machines are refused before anything is submitted, and a data set without its models ends the run at that point. `automate_iterative_submission` runs the iterative method with 50 iterations once for every data set in order, and stops with an exception after the first one whose messages say that its memory ran out.",
  "all systems of both projects, host names, models, contents of the results files of every data set, and messages of the runs",
  "Which commands are given depends on the contents of up to 48 results files and on what the cluster prints.",
  ["examples/artificial_systems/submit_jobs_to_server.py:automate_sos_trotter_submission", "examples/artificial_systems/submit_jobs_to_server.py:automate_iterative_submission", "examples/artificial_systems/submit_jobs_to_server.py:execute_command_wrapper", "examples/paper_1.5025058/submit_jobs_to_server.py:automate_sos_trotter_submission", "examples/paper_1.5025058/submit_jobs_to_server.py:automate_iterative_submission"])
p("Plotting the results of a system draws every data set with results and skips the others",
  "`automate_simple_z_plots` of the example projects (`generate_z_plots.py` and `generate_plots.py`) visit every pair of data set and sampling distribution of the system, save one comparison (respectively one picture per quantity) for every pair whose results can be loaded, under a name of its own, and skip a pair that fails without losing any other picture. `automate_energy_grid_plots` draws the grids of every data set in order. Unknown systems and other machines are refused before anything is drawn.",
  "all systems of both projects, host names, result files, exact results, models and sampling distributions",
  "Which pictures are drawn depends on which of many result files exist, are current and can be read, in every combination.",
  ["examples/artificial_systems/generate_z_plots.py:automate_simple_z_plots", "examples/paper_1.5025058/generate_z_plots.py:automate_simple_z_plots", "examples/paper_1.5025058/generate_plots.py:automate_simple_z_plots", "examples/artificial_systems/generate_energy_plots.py:automate_energy_grid_plots"])
p("Newly generated input models can always be used",
  "For every outcome of the random draws, `generate_input_file` writes for the systems 4x6 and 7x12 a model with 4 surfaces and 6 modes, respectively 7 and 12, that can be read, is symmetric, has evenly spaced frequencies and energies in the stated ranges and linear couplings of at most 0.04 over the frequency, and touches no other file; every data set of the system can then be prepared from it. The hand-made system and unknown names are refused and nothing is written.",
  "all outcomes of the random draws, directories, previous contents, data sets of the systems and matrices",
  "The models are random; a test sees single draws.",
  ["examples/artificial_systems/generate_initial_model_parameters.py:generate_input_file", "pibronic/vibronic/vibronic_model_io.py:generate_vibronic_model_data", "examples/artificial_systems/setup_models.py:prepare_model"])
p("A data set can be filled from an operator file as well as from a model file",
  "Filling a data set from the MCTDH operator file of its system succeeds whenever the file is there and its couplings are such that it is read faithfully: the coupled model is then the model of the operator file, and for the data sets of the paper the harmonic model and the sampling model 0 are its diagonal; no other model file changes. A missing file is an OSError and nothing is written; a file that cannot be read leaves all model files as they are. When the model file that lies with the program is the one written from the operator file, both ways leave the same model files.",
  "all operator files, systems, data sets, roots and previous contents",
  "The second way is behind a switch in the source of the programs, so no run of them and no test takes it.",
  ["examples/artificial_systems/setup_models.py:parse_input_mctdh_files_into_directories", "examples/paper_1.5025058/setup_models.py:parse_input_mctdh_files_into_directories", "pibronic/vibronic/vibronic_model_io.py:create_coupling_from_op_file"])
if __name__ == "__main__":
    root = os.path.dirname(os.path.dirname(os.path.abspath(__file__)))
    with open(os.path.join(root, "properties.jsonl"), "w") as f:
        for q in P:
            f.write(json.dumps(q) + "\n")
    print(len(P))
