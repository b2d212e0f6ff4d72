{
 "C01": "Every accepted coupled model of any size, any set of keys, for parsed objects and for the text on the disk (json.dumps with default separators, json.loads); float repr/parse is a parameter, numbers are those that repr and float() preserve.",
 "C02": "True when some energy is nonzero (partial, also for the text on the disk); false when all energies are zero: the file is written without energies and the loader substitutes an (A, A) array that its own verification rejects.",
 "C03": "Exact characterisation of acceptance; the disk is unchanged on rejection; also for the text on the disk.",
 "C04": "In-place load replaces every array that the dictionary holds; equals a fresh load.",
 "C05": "Any size, any order of coupling. Success means that the given matrix is orthonormal and the model symmetric to numpy's precision (C05_succeeds, C05_rejects); with exact orthonormality the spectrum is kept, without it it need not be (C05_near_orthonormal). A re-used matrix is not checked by the code, so the spectrum theorem takes orthonormality as a hypothesis there; C09 covers freshly created matrices.",
 "C06": "Crash points and success proved, down to single characters of the text: an incomplete model file is rejected by the loader and never taken for another model; false over histories: a second call overwrites the backup, with a witness in which neither file holds the first model.",
 "C07": "Zeroing the off-diagonal and removing the coupling, entry by entry, for every saved coupled model.",
 "C08": "True when some diagonal energy is nonzero (partial); false otherwise: both files are written and neither can be loaded.",
 "C10": "All draws and sizes; also the (switched off) quadratic generator.",
 "C11": "The eigenvalue solver is a parameter. The file is characterised by its written contents; whether it can be loaded again is C02. Quadratic terms up to 1e-8 pass the check of the code.",
 "C13": "Names are read back for every directory without the separators; C13_capital_P_in_directory_refuted shows the condition is needed (a checkout called Pibronic breaks the bead parser).",
 "C14": "All three lists, with success conditions, independence of order and multiplicity, which files the retrieval functions list, and the lists obtained from a whole directory.",
 "C15": "False of the code: extract_bead_value_from_trotter_file_path applies int() to a list, so every non-empty list raises TypeError.",
 "C16": "Filter characterisation, exact success condition, and the AttributeError before generate_model_hashes.",
 "C17": "Exact set of selected files for every P, T and directory listing.",
 "C18": "All locations of a file structure lie under its own directory; different data sets and different rho never share a location.",
 "C19": "Proved for the rho result/parameter paths and templates; false for path_rho and for no_makedir switches (witnesses).",
 "C20": "False of the code: directories_exist tests a string of the attribute name; proved: make_directories creates all of them.",
 "C21": "Right after generate_model_hashes the hashes are those of the files, and validity of a dictionary means equality with them; false after the files are rewritten or change_rho.",
 "C22": "Any permutation of the samples, both estimators, with and without jackknife.",
 "C23": "Any nonzero per-sample scaling of all arrays leaves every ratio-based statistic unchanged.",
 "C24": "alpha = 1 gives the basic statistics.",
 "C25": "Replicates, means, plug-in and jackknife estimators; the size of the error bar is C56.",
 "C26": "Constant ratios give exact results with zero error.",
 "C27": "The analytic contribution is added exactly once.",
 "C28": "Any set of result files, any order in which the pool runs the tasks, all four analyses; also: an incomplete grid raises, unknown (or run-time computed) method names write nothing. The object's hashes must not be stale (C21), and the results directory must contain no P, _T, braces or star.",
 "C29": "False of the code: load_pimc_data never looks at the stored hashes; the analysis is proved to give the same thermo files whatever hashes the result files carry, with a witness directory of old results stamped as current. Partial: true when all result files of the directory are current.",
 "C30": "System and sampling models; also that the folded arrays keep exactly the off-diagonal and quadratic terms.",
 "C31": "Positivity, normalisation, order by minima (both directions), Boltzmann ratios, invariance under energy shifts.",
 "C32": "All bead numbers >= 3 for every diagonalisation routine that meets its contract; fewer beads are refused.",
 "C33": "The law of a drawn path (as a measure) has the sampling integrand over its integral as density, for sampling models of any size; the stored denominator is that density up to the common factor if the sampling model has as many surfaces as the system (partial). Fewer surfaces: IndexError. More surfaces: accepted, but the extra surfaces are sampled and missing from the denominator (refuted).",
 "C34": "All paths; includes the bound on scaled denominators and exactly which asymmetric potentials are refused.",
 "C35": "Ratio one for every path, and Z = 1 with error 0 in both analyses.",
 "C36": "Any rotation.",
 "C37": "Independent relabellings of system and sampling model.",
 "C38": "False of the code: the exponential of the coupling keeps beta in the plus/minus values. Proved: what is computed instead, and the property for uncoupled systems (partial); a witness with a quadratic term refutes it.",
 "C39": "True when the block size divides the array length; false otherwise: the trailing entries stay NaN and are saved (refuted theorem); too many blocks are refused by the broadcast error.",
 "C40": "Any number of files, any order of the set of paths; exact characterisation of the concatenation.",
 "C41": "Exact characterisation: works iff the limit falls into the first usable file or no file is cut; otherwise the broadcast error (refuted).",
 "C42": "A fresh object loads every file a job saves; an object that was given the expected count compares with `is` and refuses (refuted); the multi-file loader accepts it.",
 "C43": "Round trips in exact arithmetic; strictly decreasing.",
 "C45": "False of the code (three refutations: remainder of 100000, remainder of the block size, separate overall number); limits and the exact case proved.",
 "C46": "All replies of the scheduler; on failure the accepted jobs are an initial part of the plan. Known hosts, default partitions.",
 "C47": "False of the code: the parameter dictionary is a class attribute; what remains true is proved.",
 "C48": "Exact characterisation of returning and raising for every sequence of scheduler answers.",
 "C49": "Every job number with any trailing line ends; shorter texts give None; the multi-cluster form raises.",
 "C50": "Invariant over all histories in which the hashes are current at each calculation; false with stale hashes, and false of the file of the original model (it carries the hash of another model). Each method, basis and bead number has its own file. A write interrupted at any character leaves a file that is empty or rejected.",
 "C51": "Both success cases, exact success condition, failures change nothing, how the output is read and which values are stored.",
 "C52": "False of the code for every output of the program: the wrapper writes Z_rho, the statistics read Z_sampling. The exact condition under which loading succeeds is proved.",
 "C56": "Z error proved; the jackknife error in the code is sqrt(n/(n-1)) times the textbook one (proved as _partial), hence the equality is refuted with a witness.",
 "C57": "Different numbers of surfaces (at least two in the file) are rejected (partial); a file with one surface is broadcast into larger arrays (witness).",
 "C58": "Both directions, all dictionaries with fewer than 100000 modes and surfaces in the second model; C58_many_modes shows that the bound is needed and C58_not_symmetric that the comparison is not symmetric.",
 "C59": "Expectation as a Bochner integral over the law of a path; integrability is equivalent to that of the integrand and proved for all models with linear couplings and for small quadratic couplings; for one surface and one mode the bound is exact.",
 "C60": "Strong law of large numbers applied to the program's own estimators; the jackknife values are treated with a limit calculus for leave-one-out averages. Linear couplings and quadratic couplings that are small against the frequencies (SmallQuadratic); C59_one_mode_iff shows that without such a bound the integral diverges.",
 "C61": "Closed form for every number of beads through the determinant of the circulant matrix.",
 "C62": "Names are injective in (P, T, job id); jobs without an id share one file (stated as a theorem).",
 "C63": "False of the code in two ways (lost wake-up between the last bytecode and sigwait; unhandled SIGALRM); not lost if handlers run at once.",
 "C44": "Python's json encoder and decoder are modelled on text and loads(dumps(v)) = v is proved for all values. Holds for dictionaries none of whose strings contains a semicolon; exact result given for the others. An integer delta_beta is dropped.",
 "C64": "False of the code: the dictionary of its own members is keyed by enumeration members, which json.dumps rejects. Holds for given parameters.",
 "C53": "False of the code: a restart always begins with the second stage whatever the state file lists, a file that ends with FINISHED raises, and stages are repeated. It never skips a stage, and unknown lines and an explicitly given stage behave as described.",
 "C54": "Order proved for every execution and every set of answers of the external programs. That all stages can succeed is false: the template step returns nothing, so no run passes the preparation of the coupling calculation.",
 "C55": "Proved for all buffers, positions and counts.",
 "C65": "False of the code: reading starts at the newline that ends the header, which looks like the blank line after the table, so every table is accepted. The reduction loop itself is right.",
 "C66": "Proved for all file contents.",
 "C67": "False of the code: six characters are written over the three of the placeholder. Holds when three blanks follow.",
 "C68": "False for files of at most ten lines: the first line is never examined. Holds for longer files.",
 "C69": "False for the second molecule of a process: the dictionary belongs to the class, so parameters left out keep the values of the previous molecule. Proved for the first file and for files that give all parameters.",
 "C70": "Proved for all well-formed files; malformed ones are rejected.",
 "C71": "False for an output that ends within the summary: the reading loop never ends. Proved for complete summaries and for outputs without a summary.",
 "C72": "False for geometries with braces in a title, and for numerical parameters given in the parameter file, which are texts. Proved otherwise, for all geometries.",
 "C73": "False: every answer with a 'y' in it counts as agreement, only the last digit of the number of dropped orbitals is used, and equal ratios confuse the count. The remaining claims are proved.",
 "C09": "Orthonormality is that of the exponential of a skew symmetric real matrix; order is proved for the look-up over any ordered field and for the distances of the resulting matrices. C09_wraps shows why sequences must start at zero.",
 "C74": "For orders 2 to 15; the eigenvalues of the skew matrix bound the first half turn, the sample distance 100/9999 is used. C74_order_two shows that the generation succeeds (non-vacuity). Floating point rounding is not modelled. The files are also followed through the directory: after a successful generation every parameter gives a rotation (C74_usable, C74_order_two_saved), and the search for the first turn with its own generator is characterised (C74_first_turn, C74_first_turn_order_one, C74_first_turn_order_two).",
 "C12": "Text to dictionary, for every file that follows the layout (Spec/OpFile). C12_outcome_partial says exactly what is read; the claim holds for linear models, for one surface and when second or higher order terms only couple surfaces before the last one or belong to the last one (C12_faithful_partial). It is false otherwise: the division loop uses a stale index, so terms of a single surface are doubled and terms that couple to the last surface make the reader raise AssertionError, or are halved at one of their two positions when they are below 2e-8; without the cubic header the quadratic terms are lost.",
 "C75": "C75_sampled_exact settles block_compute_gR. For raw samples the displacement is subtracted twice: the claim holds without linear terms on the diagonal (C75_raw_partial), with a common displacement the stored value is g at moved coordinates (C75_common_displacement, C75_raw_refuted), and with different displacements along a coupling the symmetry assertion refuses a request unless the coordinates are so far out that the difference is within numpy's relative tolerance (C75_refused, an equivalence).",
 "C76": "C76_value says exactly what is stored when both models have the same number of surfaces; it is rho only if the system has no linear terms on the diagonal (C76_partial, C76_refuted). With more surfaces the value does not depend on the coordinates (C76_other_states, C76_other_states_refuted), with fewer the request is refused.",
 "C77": "From saved dictionaries to the arrays of the calculation. Cubic and quartic terms of the file are ignored (C77_higher_orders_refuted); the quadratic terms of a sampling model are ignored too, consistently in the draw and in the denominator.",
 "C78": "What the calculation uses is right for every history (C78_used). What a BoxDataPM object reports about itself is made from the beta before the preparation (C78_reported_refuted), and right if that was right or after a second preparation.",
 "C79": "Objects made by from_FileStructure, build or the wrappers have no hashes, and saving asserts that they exist: proved for all parameters. With hashes the file is proved to hold every sample.",
 "C80": "From the directory listing and the texts of the model files to the table. Names and keys as the program writes them (Tidy).",
 "C81": "The arithmetic is proved for both classes. Refuted: stored hashes of the analytic files are not looked at (C81_stale_exact_refuted), and the program that fills the files stores no Z_sampling and no Z_coupled, so with its files every attempt raises (C81_no_percentages_refuted).",
 "C83": "Proved for the percentages of one object. Refuted: only one temperature can be plotted; the raw figures stop before the heat capacity; the comparison of two models has limits on id_rho, on the temperature and shows only the largest number of samples; the sum over states comparison and the rectangle never load.",
 "C84": "Trotter results are proved. Sum over states: proved when all files exist, a missing file gives the results of the previous object (C84_sos_missing_refuted).",
 "C82": "The exact identity tau P = beta(T), with the constants of the program.",
 "C85": "Figures, names and colours are proved. The signs are written at exchanged coordinates: right for symmetric matrices and a sampling model with the same number of surfaces (C85_marks_partial), wrong as soon as opposite entries differ in sign (C85_marks_refuted).",
 "C86": "The directory has to be called results/ for PIMC files; otherwise every name is rejected with IndexError (C86_other_directory_refuted).",
 "C87": "A file that exists and cannot be opened is skipped silently and the values loaded before stay (C87_unreadable_refuted); in all other cases the claim holds (C87_no_stale_partial, C87_loaded, C87_errors).",
 "C88": "Files with the documented layout are never read, because the rows of the reference Hamiltonian are read twice (C88_documented_refuted). The claim holds for files in which these rows are repeated (C88_reads_partial); separators and symmetry are proved for all files.",
 "C89": "No file is ever read: a function is called with too few arguments (C89_never_read_refuted). Proved: nothing is written (C89_nothing_written), missing files are reported, and the functions for the counts and the frequencies on their own (C89_counts, C89_label_missing, C89_frequencies; one number in a line is repeated for all modes, C89_one_frequency_refuted). The functions that search the *.h file are not modelled: they are not reachable.",
 "C90": "False of the code: the names job_boss.partition and job_boss.hostname do not exist, so nothing is ever submitted (C90_nothing_submitted_refuted), and an accepted submission would end with an AttributeError (C90_accepted_refuted). Proved: refused submissions are reported (C90_refusal_reported_partial) and job_boss.submit_job itself returns the id (C90_submission).",
 "C91": "Waiting is characterised (C91_waiting_ends_well_partial, C91_failed_raises), but jobs that ran out of time or memory pass when one of their steps was completed (C91_other_failures_refuted). The check of the output file never objects (C91_output_file_refuted).",
 "C92": "Listed partitions are accepted and names that do not occur are rejected (C92_partition_partial), but any part of a listed name is accepted (C92_partition_refuted).",
 "C93": "Holds when every state file has a state (C93_own_state_partial). A calculation that has just started has an empty file: the report stops (C93_started_refuted) or shows the state of the previous molecule (C93_stale_state_refuted).",
 "C94": "The words of the command are the given ones (C94_command_partial), but the scripts are looked for below the file job_boss.py (C94_scripts_refuted) and the interpreter is the file of the module os.",
 "C95": "Proved for nlogn and feynman, provided that the job ran (see C94). On the compute canada servers the results stay in the scratch directory when the path contains `work` (C95_compute_canada_refuted, C95_compute_canada_partial).",
 "C96": "Proved for root and package directories without characters special to the shell (C96_command_partial). Paths are not quoted (C96_blank_refuted), and the module with Julia is never loaded when Julia is missing (C96_module_refuted). Failures are reported (C96_nothing_run).",
 "C97": "What is run is run as asked (C97_runs_as_asked_partial) and sums over states can be run (C97_sos_runs), but no other method can (C97_methods_refuted), --beta is never used (C97_beta_refuted) and zero passes the checks (C97_zero_refuted).",
 "C98": "The command is right (C98_command_partial) and the disk is what the program leaves (C98_leaves_partial), but a failing program goes unnoticed (C98_failure_unnoticed_refuted).",
 "C99": "The order of the steps is proved (C99_execute_partial), but the input files are never found (C99_never_finishes_refuted), they would be copied to a place where the calculation does not read them (C99_wrong_place_refuted), its result is looked for outside of its directory (C99_result_elsewhere_refuted), and the script fails for all arguments (C99_script_refuted).",
 "C100": "Generations for other orders change nothing (C100_other_orders_partial) and one of the three generators for plots never writes (C100_full_for_plotting). The other two overwrite the file the tuned matrices are made from: afterwards every parameter is refused (C100_turns_refuted) or another matrix is returned (C100_norms_refuted, C100_norms_result).",
 "C101": "Turning point number k (from 0) is shown k rows below its argument (C101_rows_partial); for order two the second one is in the wrong row (C101_shown_at_argument_refuted).",
 "C102": "Proved when the blocks make up the samples (C102_rows_correspond_partial), with rho at points read back (C102_rho_rows), jobs with different names (C102_jobs_apart) and refusal without a write when a block is too long or a value cannot be computed (C102_beyond_refused). False when the block size does not divide the number of samples (C102_remainder_refuted), after a crash between the two writes of a repeated job (C102_crash_refuted) and after a later save_results of the same object (C102_later_save_refuted).",
 "C103": "Copies and changes in place are modelled character by character, with every intermediate state of the disk; C103_mixed_inputs records that a failing step can leave inputs of two different calculations. Source and destination paths are shown to differ for every name and directory.",
 "C104": "The rows are read exactly (C104_rows) and the suggestions are based on the fourth column (C104_dropmo, C104_nip). Refuted: a row without an energy makes _estimate_dropmo stop with UnboundLocalError instead of asking; a line of 43 plus signs before the table makes everything up to the end of the file part of the table.",
 "C105": "Holds when frequencies, linear and quadratic terms all have a non-zero entry (zeros are not saved). Refuted: without linear or quadratic terms load_model raises KeyError; both from_json_file constructors never return an object.",
 "C106": "Proved for all systems whose potential rises in every direction (`Confined`), with coordinate dependent couplings of any kind; without this the partition function does not exist. The Hamiltonian is defined on its own in Spec/Levels.lean, by its matrix elements between oscillator functions, as in textbooks. The oscillator functions are built from Hermite polynomials and shown complete in L2; the symmetric split of one step is a bounded operator whose powers have the path integrals as traces; comparison of its powers with the exponentials of finite matrices (Peierls and a tightness bound) gives the limit. C106_closed_form shows that this Hamiltonian gives the closed forms of the systems that have one.",
 "C107": "Proved for uncoupled systems with the alpha factors. Refuted twice: the analysis without alpha factors adds the energy of the sampling model to an energy that already contains it; with alpha factors the energy of constant couplings is never reported because the coupling factor keeps its temperature (C38).",
 "C108": "Proved for dictionaries with names and for dictionaries with members as keys. Refuted: converting to members twice deletes every item without an exception; an unknown name leaves the dictionary half converted (C108_unknown).",
 "C109": "Proved for a molecule together with the number of a stage. Refuted: without a stage, and with more arguments, the default stage 0 does not exist and ValueError is raised; the entry point for data sets uses one literal directory 'data_set_{:d}' for all of them.",
 "C110": "Refuted: the check looks at the signs of the entries and then calls a function that numpy does not have, so it never returns; a clearly negative diagonal entry is reported rightly.",
 "C111": "The integrand of the code is compared bead by bead with one that splits the same part off in every basis; the sum of the errors is bounded by a Gaussian weight whose integral is known, so the difference is at most a constant over the square root of the number of beads.",
 "C112": "Proved for all confined systems, with coordinate dependent couplings of any kind. The beads between every k-th bead are integrated out exactly (semigroup property of the oscillator propagators), the error of moving the potential to the k-th beads is bounded by a Gaussian weight; a sequence that multiples leave almost unchanged converges.",
 "C113": "Draws are independent with the law the sampler has in exact arithmetic. The inverse temperature must exceed the step of the finite difference.",
 "C114": "Proved for every sampling model under which the ratio has a finite spread, and for small quadratic terms and similar frequencies the spread is proved finite (C114_finite_partial). False of the code in general: nothing checks that the sampling model is soft enough, and for an oscillator of frequency 1 sampled with one of frequency 4 the error bar times the square root of the number of samples grows beyond all bounds (C114_stiff_refuted). Draws are independent with the law the sampler has in exact arithmetic.",
 "C115": "The influence of a path is defined as the derivative of the quantity when the three expectations move towards the ratios at that path. C115_finite gives a condition on the frequencies and the quadratic terms under which the spread is finite; C114_stiff_refuted shows that the condition is not empty. Draws are independent with the law the sampler has in exact arithmetic.",
 "C116": "False for temperatures that are not whole hundredths of a kelvin: the names and keys show two decimals. C116_other_temperature_refuted: such a run is analysed at another temperature (exact iff the temperature is a whole number of hundredths: C116_exact_iff; within half a hundredth always: C116_read_back). C116_mixed_refuted and C116_analytic_replaced_refuted: temperatures with the same two decimals share files, pool their samples and replace each other's results. C116_apart_partial and C116_analytic_apart_partial: kept apart when both are whole hundredths and differ, or when they differ by more than a hundredth (an example shows that exactly a hundredth is not enough).",
 "C117": "False in two histories: C117_zero_block_refuted (a call with blocks of size zero fails after it has cut the number of samples; corrected, only one job per pair is submitted) and C117_next_object_refuted (the number of samples overall of the first submission stays in the dictionary of the class, so that the next object submits that many jobs). C117_repeatable_partial: after every other outcome of a valid submission, repeating it does what the first attempt would have done; C117_refused_changes_nothing: a refused set-up leaves the parameters; C117_next_object_partial: an object that is given all three numbers is independent of the history.",
 "C118": "The script is modelled from its arguments to the saved file; what preprocess raises and what is computed for a block are arbitrary functions of the decoded parameters. Partial because a directory with a blank inside breaks the unquoted call in the job scripts (C118_blank_refuted): the job ends with AssertionError. A block size that does not divide the number of samples leaves the last samples of the saved file without a value, and nothing complains (C118_short_refuted); without a block the job ends with UnboundLocalError (C118_no_block), with too many blocks with ValueError (C118_too_many_blocks). An id that is no number is noticed only after the whole calculation (C118_bad_id). The script as such is treated here; C94_scripts_refuted says that the submitting code passes a wrong path for it.",
 "C119": "Partial: the functions use the module's global States, which is never bound because the only assignment follows a call that raises (C119_unknown_surfaces_refuted, see C89), so the positive theorems assume the number of surfaces. Every search starts again at the title: two modes with the same frequency get the first block of the two (C119_degenerate_refuted), and 10.5 is found inside 110.5 (C119_part_of_text_refuted). A line with one number fills the row (C119_one_number_refuted).",
 "C120": "Partial: one thermo file cut by a crash, whatever models it was calculated from, makes every plotting object for the directory raise ValueError (C120_one_cut_file_refuted; running the analysis again repairs it, C120_repaired). An analysis without jackknife replaces the files of the jackknife analysis, and the jackknife quantities are lost (C120_jackknife_lost_refuted). The positive parts are proved.",
 "C122": "Partial: in the artificial systems the line that submits stands after the loop over the beads: only the last missing number of beads gets a job (C122_one_job_for_all_beads_refuted), a pair without missing results submits the previous job again (C122_job_repeated_refuted), and when the first pair misses nothing the program ends with UnboundLocalError (C122_nothing_missing_refuted). The claim is proved for the sum over states of both projects and the Trotter calculations of the paper.",
 "C123": "Partial: proved for calculations with a results file each (C123_own_file, C123_ends). The calculations at different temperatures share one file without a lock, and there the claim fails: a result is lost (C123_lost_update_refuted), all old results are lost when a job reads the file just after another one has emptied it (C123_old_results_lost_refuted), a job that reads a half written file fails (C123_half_file_refuted), two writers leave a file that can never be read again (C123_unreadable_refuted), and a number can stand under the temperature of another job (C123_mixed_refuted).",
 "C126": "Partial: proved under the root of the server when the iterative method writes its model (C126_iterative_partial, C126_energies_partial, C126_succeeds_partial). The claim fails otherwise: with another root the iterative model is made under the root of the server and the preparation then ends with FileNotFoundError (C126_other_root_refuted), and a method that fails goes unnoticed, so that the model of an earlier preparation is used (C126_stale_refuted). C126_changes_partial: no other file than those of the data set and the iterative model under the root of the server changes.",
 "C127": "Partial: proved when the path of the scripts and the name of the system contain neither `_R` nor `*` and the pattern finds only plain numbers (C127_models_partial). When the path contains `_R` the preparation fails with ValueError (C127_path_refuted).",
 "C128": "Partial: proved under the root of the server (C128_model_partial, C128_succeeds_partial). With another root the iterative model is made under the root of the server and the preparation ends with FileNotFoundError (C128_other_root_refuted).",
 "C129": "Partial: proved are the Monte Carlo jobs, their order and parameters, and the commands of the analytical calculations as the shell reads them (C129_jobs_partial, C129_systems_partial, C129_missing_model, C129_refused, C129_nothing_elsewhere), and that the two programs do this for their first system (C129_program_partial) and, whatever happens, for no other (C129_own_jobs, C129_program_own_jobs). The claim that the analytical programs call functions of the package fails for the artificial systems: they call analytic_of_coupled_model, which does not exist (C129_no_such_function_refuted).",
 "C130": "Proved for every interleaving of the steps (a step is one reading or one writing of a file). The analysis without jackknife that the program runs first is overwritten by the second one (C120).",
 "C131": "The first part holds for both projects. The last sentence holds for the artificial systems only: for the paper the sampling distribution 11 is visited by the other programs, but the preparation calls the function without the iterative method, so its model is not made (refuted).",
 "C132": "Holds as stated for the systems of the paper and for the iterative method of both projects. For the artificial systems only the Trotter calculation of the last missing number of beads is submitted (see C122); the system name has to be the very object of a literal (refuted for an equal text); a data set that misses no Trotter result ends the run with UnboundLocalError, so that the data sets after it get nothing (refuted).",
 "C133": "Each failing pair is skipped and every pair that works is saved under its own name (proved). Four disagreements: the distribution 11 of the paper has no label and is never drawn; exact results written by this package lack the names looked for, so nothing is drawn at all and no error is shown; the heat capacity always fails, so no pair with results is ever reported as done by `generate_plots.py`; the grid program stops at the first data set that fails.",
 "C134": "Holds. The range of the energies applies to the couplings between surfaces as well, which are therefore as large as the energies themselves (10.3 to 10.9 eV and 14.0 to 14.8 eV).",
 "C121": "Holds. The lists of both projects are transcribed from the two systems.py files; the theorems say which numbers and names are accepted and which pairs the loops visit.",
 "C124": "Holds. The assumption that nobody touches the file while another job writes it is needed: C123 shows what happens without it.",
 "C125": "Holds, with C125_refused for the inputs that are refused.",
 "C135": "Proved for operator files that are read faithfully (the condition of C12_faithful_partial: couplings beyond the linear ones only between surfaces before the last, or within the last one) and, for the paper, with an energy that is not zero. Missing: the other files, for which C12_last_surface_refuted, C12_doubled_refuted and C08_zero_energies_refuted say what happens. The directories are taken to exist."
}