{
 "claims": [
  {
   "property": "C01",
   "status": "proved",
   "theorems": [
    "Pibronic.Props.ModelFiles.C01_round_trip",
    "Pibronic.Props.ModelFiles.C01_energies_present",
    "Pibronic.Props.ModelText.C01_file_members",
    "Pibronic.Props.ModelText.C01_text_round_trip",
    "Pibronic.Props.ModelText.C01_text_ascii"
   ],
   "note": "Every accepted coupled model of any size, any set of keys, for parsed objects and for the text on the disk (json.dumps with default separators, json.loads); float repr/parse is a parameter, numbers are those that repr and float() preserve."
  },
  {
   "property": "C02",
   "status": "partial",
   "theorems": [
    "Pibronic.Props.ModelFiles.C02_round_trip_partial",
    "Pibronic.Props.ModelFiles.C02_zero_energies_refuted",
    "Pibronic.Props.ModelText.C02_text_round_trip_partial"
   ],
   "note": "True when some energy is nonzero (partial, also for the text on the disk); false when all energies are zero: the file is written without energies and the loader substitutes an (A, A) array that its own verification rejects."
  },
  {
   "property": "C03",
   "status": "proved",
   "theorems": [
    "Pibronic.Props.ModelFiles.C03_accepted_iff_wellFormed",
    "Pibronic.Props.ModelFiles.C03_malformed_rejected",
    "Pibronic.Props.ModelFiles.C03_other_files_unchanged",
    "Pibronic.Props.ModelText.C03_text_accepted_iff",
    "Pibronic.Props.ModelText.C03_text_rejected"
   ],
   "note": "Exact characterisation of acceptance; the disk is unchanged on rejection; also for the text on the disk."
  },
  {
   "property": "C04",
   "status": "proved",
   "theorems": [
    "Pibronic.Props.ModelFiles.C04_inplace_load",
    "Pibronic.Props.ModelFiles.C04_inplace_equals_fresh"
   ],
   "note": "In-place load replaces every array that the dictionary holds; equals a fresh load."
  },
  {
   "property": "C05",
   "status": "proved",
   "theorems": [
    "Pibronic.Props.FakeCoupling.C05_change_of_basis",
    "Pibronic.Props.FakeCoupling.C05_given_matrix_is_used",
    "Pibronic.Props.FakeCoupling.C05_spectrum_unchanged",
    "Pibronic.Props.FakeCoupling.C05_succeeds",
    "Pibronic.Props.FakeCoupling.C05_rejects",
    "Pibronic.Props.FakeCoupling.C05_errors",
    "Pibronic.Props.FakeCoupling.C05_transpose_restores",
    "Pibronic.Props.FakeCoupling.C05_near_orthonormal",
    "Pibronic.Props.Orthonormal.C05_tuned"
   ],
   "note": "Any size, any order of coupling. Success means that the given matrix is orthonormal and the model symmetric to numpy's precision (C05_succeeds, C05_rejects); with exact orthonormality the spectrum is kept, without it it need not be (C05_near_orthonormal). A re-used matrix is not checked by the code, so the spectrum theorem takes orthonormality as a hypothesis there; C09 covers freshly created matrices."
  },
  {
   "property": "C06",
   "status": "partial",
   "theorems": [
    "Pibronic.Props.FakeCoupling.C06_model_survives_crash",
    "Pibronic.Props.FakeCoupling.C06_backup_after_success",
    "Pibronic.Props.FakeCoupling.C06_crash_other_files",
    "Pibronic.Props.FakeCoupling.C06_second_call_overwrites_backup",
    "Pibronic.Props.FakeCoupling.C06_first_model_lost_refuted",
    "Pibronic.Props.ModelText.C06_incomplete_file_rejected",
    "Pibronic.Props.ModelText.C06_text_crash",
    "Pibronic.Props.ModelText.C06_text_same",
    "Pibronic.Props.ModelText.C06_text_unreadable"
   ],
   "note": "Crash points and success proved, down to single characters of the text: an incomplete model file is rejected by the loader and never taken for another model; false over histories: a second call overwrites the backup, with a witness in which neither file holds the first model."
  },
  {
   "property": "C07",
   "status": "proved",
   "theorems": [
    "Pibronic.Props.ModelDerived.C07_fill_offdiagonal",
    "Pibronic.Props.ModelDerived.C07_fill_offdiagonal_idempotent",
    "Pibronic.Props.ModelDerived.C07_remove_coupling",
    "Pibronic.Props.ModelDerived.C07_zeroed_first_same_diagonal"
   ],
   "note": "Zeroing the off-diagonal and removing the coupling, entry by entry, for every saved coupled model."
  },
  {
   "property": "C08",
   "status": "partial",
   "theorems": [
    "Pibronic.Props.ModelDerived.C08_derived_files_partial",
    "Pibronic.Props.ModelDerived.C08_zero_energies_refuted"
   ],
   "note": "True when some diagonal energy is nonzero (partial); false otherwise: both files are written and neither can be loaded."
  },
  {
   "property": "C09",
   "status": "proved",
   "theorems": [
    "Pibronic.Props.Orthonormal.C09_entry",
    "Pibronic.Props.Orthonormal.C09_monotone",
    "Pibronic.Props.Orthonormal.C09_wraps",
    "Pibronic.Props.Orthonormal.C09_orthonormal",
    "Pibronic.Props.Orthonormal.C09_zero",
    "Pibronic.Props.Orthonormal.C09_rejects",
    "Pibronic.Props.Orthonormal.C09_empty",
    "Pibronic.Props.Orthonormal.C09_parameter_checked",
    "Pibronic.Props.Orthonormal.C09_no_row",
    "Pibronic.Props.Orthonormal.C09_distance"
   ],
   "note": "Orthonormality is that of the exponential of a skew symmetric real matrix; order is proved for the look-up over any ordered field and for the distances of the resulting matrices. C09_wraps shows why sequences must start at zero."
  },
  {
   "property": "C10",
   "status": "proved",
   "theorems": [
    "Pibronic.Props.ModelGenerated.C10_coupled_valid",
    "Pibronic.Props.ModelGenerated.C10_coupled_values",
    "Pibronic.Props.ModelGenerated.C10_diagonal_valid",
    "Pibronic.Props.ModelGenerated.C10_savable",
    "Pibronic.Props.ModelGenerated.C10_template",
    "Pibronic.Props.ModelGenerated.C10_quadratic_symmetric"
   ],
   "note": "All draws and sizes; also the (switched off) quadratic generator."
  },
  {
   "property": "C11",
   "status": "proved",
   "theorems": [
    "Pibronic.Props.ModelGenerated.C11_reweighted_energies",
    "Pibronic.Props.ModelGenerated.C11_succeeds",
    "Pibronic.Props.ModelGenerated.C11_errors"
   ],
   "note": "The eigenvalue solver is a parameter. The file is characterised by its written contents; whether it can be loaded again is C02. Quadratic terms up to 1e-8 pass the check of the code."
  },
  {
   "property": "C12",
   "status": "partial",
   "theorems": [
    "Pibronic.Props.OpFile.C12_outcome_partial",
    "Pibronic.Props.OpFile.C12_faithful_partial",
    "Pibronic.Props.OpFile.C12_linear",
    "Pibronic.Props.OpFile.C12_one_surface",
    "Pibronic.Props.OpFile.C12_wellFormed",
    "Pibronic.Props.OpFile.C12_symmetric",
    "Pibronic.Props.OpFile.C12_create",
    "Pibronic.Props.OpFile.C12_last_surface_refuted",
    "Pibronic.Props.OpFile.C12_doubled_refuted",
    "Pibronic.Props.OpFile.C12_halved_refuted",
    "Pibronic.Props.OpFile.C12_rejected",
    "Pibronic.Props.OpFile.C12_names_checked",
    "Pibronic.Props.OpFile.C12_first_bad_line",
    "Pibronic.Props.OpFile.C12_quadratic_lost_refuted",
    "Pibronic.Props.OpFile.C12_label_zero_refuted",
    "Pibronic.Props.OpFile.C12_no_label",
    "Pibronic.Props.OpFile.C12_label_beyond"
   ],
   "note": "Text to dictionary, for every file that follows the layout (Spec/OpFile). C12_outcome_partial says exactly what is read; the claim holds for linear models, for one surface and when second or higher order terms only couple surfaces before the last one or belong to the last one (C12_faithful_partial). It is false otherwise: the division loop uses a stale index, so terms of a single surface are doubled and terms that couple to the last surface make the reader raise AssertionError, or are halved at one of their two positions when they are below 2e-8; without the cubic header the quadratic terms are lost."
  },
  {
   "property": "C13",
   "status": "proved",
   "theorems": [
    "Pibronic.Props.Postprocessing.C13_pimc_bead",
    "Pibronic.Props.Postprocessing.C13_pimc_temperature",
    "Pibronic.Props.Postprocessing.C13_pimc_job",
    "Pibronic.Props.Postprocessing.C13_thermo_bead",
    "Pibronic.Props.Postprocessing.C13_thermo_temperature",
    "Pibronic.Props.Postprocessing.C13_thermo_samples",
    "Pibronic.Props.Postprocessing.C13_sos_basis",
    "Pibronic.Props.Postprocessing.C13_pimc_injective",
    "Pibronic.Props.Postprocessing.C13_thermo_injective",
    "Pibronic.Props.Postprocessing.C13_capital_P_in_directory_refuted"
   ],
   "note": "Names are read back for every directory without the separators; C13_capital_P_in_directory_refuted shows the condition is needed (a checkout called Pibronic breaks the bead parser)."
  },
  {
   "property": "C14",
   "status": "proved",
   "theorems": [
    "Pibronic.Props.Postprocessing.C14_bead_list",
    "Pibronic.Props.Postprocessing.C14_temperature_list",
    "Pibronic.Props.Postprocessing.C14_basis_list",
    "Pibronic.Props.Postprocessing.C14_lists_succeed",
    "Pibronic.Props.Postprocessing.C14_basis_succeeds",
    "Pibronic.Props.Postprocessing.C14_only_the_set_matters",
    "Pibronic.Props.Postprocessing.C14_lists_of_written_files",
    "Pibronic.Props.Postprocessing.C14_listed_pimc_files",
    "Pibronic.Props.Postprocessing.C14_listed_thermo_files",
    "Pibronic.Props.Postprocessing.C14_listed_sos_files",
    "Pibronic.Props.Postprocessing.C14_lists_of_directory",
    "Pibronic.Props.Postprocessing.C14_parameter_lists"
   ],
   "note": "All three lists, with success conditions, independence of order and multiplicity, which files the retrieval functions list, and the lists obtained from a whole directory."
  },
  {
   "property": "C15",
   "status": "partial",
   "theorems": [
    "Pibronic.Props.Postprocessing.C15_trotter_list_refuted",
    "Pibronic.Props.Postprocessing.C15_never_succeeds"
   ],
   "note": "False of the code: extract_bead_value_from_trotter_file_path applies int() to a list, so every non-empty list raises TypeError."
  },
  {
   "property": "C16",
   "status": "proved",
   "theorems": [
    "Pibronic.Props.Postprocessing.C16_prune_keeps_exactly",
    "Pibronic.Props.Postprocessing.C16_prune_succeeds",
    "Pibronic.Props.Postprocessing.C16_prune_errors",
    "Pibronic.Props.Postprocessing.C16_hashes_must_be_generated"
   ],
   "note": "Filter characterisation, exact success condition, and the AttributeError before generate_model_hashes."
  },
  {
   "property": "C17",
   "status": "proved",
   "theorems": [
    "Pibronic.Props.Postprocessing.C17_selected_files",
    "Pibronic.Props.Postprocessing.C17_selects_exactly",
    "Pibronic.Props.Postprocessing.C17_other_kinds_never_selected"
   ],
   "note": "Exact set of selected files for every P, T and directory listing."
  },
  {
   "property": "C18",
   "status": "proved",
   "theorems": [
    "Pibronic.Props.FileStructure.C18_locations_inside",
    "Pibronic.Props.FileStructure.C18_data_sets_disjoint",
    "Pibronic.Props.FileStructure.C18_rho_disjoint",
    "Pibronic.Props.FileStructure.C18_no_shared_location",
    "Pibronic.Props.FileStructure.C18_files_distinct"
   ],
   "note": "All locations of a file structure lie under its own directory; different data sets and different rho never share a location."
  },
  {
   "property": "C19",
   "status": "partial",
   "theorems": [
    "Pibronic.Props.FileStructure.C19_change_rho_redirects_partial",
    "Pibronic.Props.FileStructure.C19_stale_path_rho_refuted",
    "Pibronic.Props.FileStructure.C19_directories_exist_partial",
    "Pibronic.Props.FileStructure.C19_directories_missing_refuted"
   ],
   "note": "Proved for the rho result/parameter paths and templates; false for path_rho and for no_makedir switches (witnesses)."
  },
  {
   "property": "C20",
   "status": "partial",
   "theorems": [
    "Pibronic.Props.FileStructure.C20_directories_exist_refuted",
    "Pibronic.Props.FileStructure.C20_false_negative",
    "Pibronic.Props.FileStructure.C20_make_directories_partial",
    "Pibronic.Props.FileStructure.C20_which_directories",
    "Pibronic.Props.FileStructure.C20_answer",
    "Pibronic.Props.FileStructure.C20_verify_directories",
    "Pibronic.Props.FileStructure.C20_verify_refused"
   ],
   "note": "False of the code: directories_exist tests a string of the attribute name; proved: make_directories creates all of them."
  },
  {
   "property": "C21",
   "status": "partial",
   "theorems": [
    "Pibronic.Props.FileStructure.C21_generate_partial",
    "Pibronic.Props.FileStructure.C21_generate_error",
    "Pibronic.Props.FileStructure.C21_history_partial",
    "Pibronic.Props.FileStructure.C21_stale_after_rewrite_refuted",
    "Pibronic.Props.FileStructure.C21_stale_after_change_rho_refuted",
    "Pibronic.Props.FileStructure.C21_valid_hashes",
    "Pibronic.Props.FileStructure.C21_valid_hash_errors"
   ],
   "note": "Right after generate_model_hashes the hashes are those of the files, and validity of a dictionary means equality with them; false after the files are rewritten or change_rho."
  },
  {
   "property": "C22",
   "status": "proved",
   "theorems": [
    "Pibronic.Props.Stats.C22_basic_order_irrelevant",
    "Pibronic.Props.Stats.C22_alpha_order_irrelevant",
    "Pibronic.Props.Stats.C22_basic_jackknife_order_irrelevant",
    "Pibronic.Props.Stats.C22_alpha_jackknife_order_irrelevant"
   ],
   "note": "Any permutation of the samples, both estimators, with and without jackknife."
  },
  {
   "property": "C23",
   "status": "proved",
   "theorems": [
    "Pibronic.Props.Stats.C23_scaling_irrelevant"
   ],
   "note": "Any nonzero per-sample scaling of all arrays leaves every ratio-based statistic unchanged."
  },
  {
   "property": "C24",
   "status": "proved",
   "theorems": [
    "Pibronic.Props.Stats.C24_alpha_one_statistical",
    "Pibronic.Props.Stats.C24_alpha_one_jackknife"
   ],
   "note": "alpha = 1 gives the basic statistics."
  },
  {
   "property": "C25",
   "status": "proved",
   "theorems": [
    "Pibronic.Props.Stats.C25_replicate_is_leave_one_out_mean",
    "Pibronic.Props.Stats.C25_mean_of_replicates",
    "Pibronic.Props.Stats.C25_basic_is_plug_in",
    "Pibronic.Props.Stats.C25_alpha_is_plug_in",
    "Pibronic.Props.Stats.C25_basic_jackknife_is_textbook",
    "Pibronic.Props.Stats.C25_alpha_jackknife_is_textbook",
    "Pibronic.Props.Stats.C25_linear_statistic",
    "Pibronic.Props.Stats.C25_errors_nonneg"
   ],
   "note": "Replicates, means, plug-in and jackknife estimators; the size of the error bar is C56."
  },
  {
   "property": "C26",
   "status": "proved",
   "theorems": [
    "Pibronic.Props.Stats.C26_constant_ratio_exact"
   ],
   "note": "Constant ratios give exact results with zero error."
  },
  {
   "property": "C27",
   "status": "proved",
   "theorems": [
    "Pibronic.Props.Stats.C27_harmonic_added_once"
   ],
   "note": "The analytic contribution is added exactly once."
  },
  {
   "property": "C28",
   "status": "proved",
   "theorems": [
    "Pibronic.Props.Analysis.C28_tasks",
    "Pibronic.Props.Analysis.C28_every_pair_once",
    "Pibronic.Props.Analysis.C28_order_irrelevant",
    "Pibronic.Props.Analysis.C28_incomplete_grid_fails",
    "Pibronic.Props.Analysis.C28_bad_arguments_write_nothing",
    "Pibronic.Props.Analysis.C28_bad_arguments_errors"
   ],
   "note": "Any set of result files, any order in which the pool runs the tasks, all four analyses; also: an incomplete grid raises, unknown (or run-time computed) method names write nothing. The object's hashes must not be stale (C21), and the results directory must contain no P, _T, braces or star."
  },
  {
   "property": "C29",
   "status": "partial",
   "theorems": [
    "Pibronic.Props.Analysis.C29_stored_hashes_ignored_refuted",
    "Pibronic.Props.Analysis.C29_current_directory_partial",
    "Pibronic.Props.Analysis.C29_old_results_analysed_refuted"
   ],
   "note": "False of the code: load_pimc_data never looks at the stored hashes; the analysis is proved to give the same thermo files whatever hashes the result files carry, with a witness directory of old results stamped as current. Partial: true when all result files of the directory are current."
  },
  {
   "property": "C30",
   "status": "proved",
   "theorems": [
    "Pibronic.Props.PIMC.C30_completing_the_square",
    "Pibronic.Props.PIMC.C30_sampling_model",
    "Pibronic.Props.PIMC.C30_folded_diagonal"
   ],
   "note": "System and sampling models; also that the folded arrays keep exactly the off-diagonal and quadratic terms."
  },
  {
   "property": "C31",
   "status": "proved",
   "theorems": [
    "Pibronic.Props.Sampling.C31_probability",
    "Pibronic.Props.Sampling.C31_lower_minimum_larger_weight",
    "Pibronic.Props.Sampling.C31_boltzmann",
    "Pibronic.Props.Sampling.C31_energy_shift"
   ],
   "note": "Positivity, normalisation, order by minima (both directions), Boltzmann ratios, invariance under energy shifts."
  },
  {
   "property": "C32",
   "status": "proved",
   "theorems": [
    "Pibronic.Props.Sampling.C32_standard_deviations"
   ],
   "note": "All bead numbers >= 3 for every diagonalisation routine that meets its contract; fewer beads are refused."
  },
  {
   "property": "C33",
   "status": "partial",
   "theorems": [
    "Pibronic.Props.Sampling.C33_density_is_rho",
    "Pibronic.Props.Sampling.C33_stored_denominator_partial",
    "Pibronic.Props.Sampling.C33_fewer_surfaces_refused",
    "Pibronic.Props.Sampling.C33_extra_surfaces_refuted"
   ],
   "note": "The law of a drawn path (as a measure) has the sampling integrand over its integral as density, for sampling models of any size; the stored denominator is that density up to the common factor if the sampling model has as many surfaces as the system (partial). Fewer surfaces: IndexError. More surfaces: accepted, but the extra surfaces are sampled and missing from the denominator (refuted)."
  },
  {
   "property": "C34",
   "status": "proved",
   "theorems": [
    "Pibronic.Props.PIMC.C34_scaling_cancels",
    "Pibronic.Props.PIMC.C34_scaled_denominator_bounded",
    "Pibronic.Props.PIMC.C34_scaling_undone",
    "Pibronic.Props.PIMC.C34_asymmetric_refused"
   ],
   "note": "All paths; includes the bound on scaled denominators and exactly which asymmetric potentials are refused."
  },
  {
   "property": "C35",
   "status": "proved",
   "theorems": [
    "Pibronic.Props.PIMC.C35_exact_model_ratio_one",
    "Pibronic.Props.PIMC.C35_partition_function_exact"
   ],
   "note": "Ratio one for every path, and Z = 1 with error 0 in both analyses."
  },
  {
   "property": "C36",
   "status": "proved",
   "theorems": [
    "Pibronic.Props.PIMC.C36_bead_rotation"
   ],
   "note": "Any rotation."
  },
  {
   "property": "C37",
   "status": "proved",
   "theorems": [
    "Pibronic.Props.PIMC.C37_surface_relabelling"
   ],
   "note": "Independent relabellings of system and sampling model."
  },
  {
   "property": "C38",
   "status": "partial",
   "theorems": [
    "Pibronic.Props.PIMC.C38_computed_quantities",
    "Pibronic.Props.PIMC.C38_uncoupled_partial",
    "Pibronic.Props.PIMC.C38_finite_difference_refuted"
   ],
   "note": "False of the code: the exponential of the coupling keeps beta in the plus/minus values. Proved: what is computed instead, and the property for uncoupled systems (partial); a witness with a quadratic term refutes it."
  },
  {
   "property": "C39",
   "status": "partial",
   "theorems": [
    "Pibronic.Props.Results.C39_blocks_cover_partial",
    "Pibronic.Props.Results.C39_beyond_refused",
    "Pibronic.Props.Results.C39_remainder_refuted",
    "Pibronic.Props.Results.C39_no_block_raises",
    "Pibronic.Props.Results.C39_saved_file_wellFormed"
   ],
   "note": "True when the block size divides the array length; false otherwise: the trailing entries stay NaN and are saved (refuted theorem); too many blocks are refused by the broadcast error."
  },
  {
   "property": "C40",
   "status": "proved",
   "theorems": [
    "Pibronic.Props.Results.C40_concatenates",
    "Pibronic.Props.Results.C40_zero_refused",
    "Pibronic.Props.Results.C40_wrong_length_refused",
    "Pibronic.Props.Results.C40_single_value_repeated",
    "Pibronic.Props.Results.C40_missing_file",
    "Pibronic.Props.Results.C40_nothing_usable_refused"
   ],
   "note": "Any number of files, any order of the set of paths; exact characterisation of the concatenation."
  },
  {
   "property": "C41",
   "status": "partial",
   "theorems": [
    "Pibronic.Props.Results.C41_limit_partial",
    "Pibronic.Props.Results.C41_large_limit_partial",
    "Pibronic.Props.Results.C41_limit_refuted"
   ],
   "note": "Exact characterisation: works iff the limit falls into the first usable file or no file is cut; otherwise the broadcast error (refuted)."
  },
  {
   "property": "C42",
   "status": "partial",
   "theorems": [
    "Pibronic.Props.Results.C42_fresh_object_partial",
    "Pibronic.Props.Results.C42_expected_count_refuted",
    "Pibronic.Props.Results.C42_incomplete_refused",
    "Pibronic.Props.Results.C42_multi_loader_partial"
   ],
   "note": "A fresh object loads every file a job saves; an object that was given the expected count compares with `is` and refuses (refuted); the multi-file loader accepts it."
  },
  {
   "property": "C43",
   "status": "proved",
   "theorems": [
    "Pibronic.Props.Stats.C43_beta",
    "Pibronic.Props.Stats.C43_T_of_beta_of_T",
    "Pibronic.Props.Stats.C43_beta_of_T_of_beta",
    "Pibronic.Props.Stats.C43_beta_strictly_decreasing"
   ],
   "note": "Round trips in exact arithmetic; strictly decreasing."
  },
  {
   "property": "C44",
   "status": "partial",
   "theorems": [
    "Pibronic.Props.JobParams.C44_decoded",
    "Pibronic.Props.JobParams.C44_dictionary_partial",
    "Pibronic.Props.JobParams.C44_semicolon_refuted",
    "Pibronic.Props.JobParams.C44_single_variable",
    "Pibronic.Props.JobParams.C44_prepared_partial",
    "Pibronic.Props.JobParams.C44_members_partial",
    "Pibronic.Props.JobParams.C44_missing",
    "Pibronic.Props.JobParams.C44_unusable",
    "Pibronic.Props.JobParams.C44_unusable_values",
    "Pibronic.Props.JobParams.C44_delta_beta_refuted"
   ],
   "note": "Python's json encoder and decoder are modelled on text and loads(dumps(v)) = v is proved for all values. Holds for dictionaries none of whose strings contains a semicolon; exact result given for the others. An integer delta_beta is dropped."
  },
  {
   "property": "C45",
   "status": "partial",
   "theorems": [
    "Pibronic.Props.JobBoss.C45_limits_partial",
    "Pibronic.Props.JobBoss.C45_exact_partial",
    "Pibronic.Props.JobBoss.C45_total_refuted",
    "Pibronic.Props.JobBoss.C45_remainder_refuted",
    "Pibronic.Props.JobBoss.C45_overall_refuted",
    "Pibronic.Props.JobBoss.C45_large_block_refused"
   ],
   "note": "False of the code (three refutations: remainder of 100000, remainder of the block size, separate overall number); limits and the exact case proved."
  },
  {
   "property": "C46",
   "status": "proved",
   "theorems": [
    "Pibronic.Props.JobBoss.C46_addressed",
    "Pibronic.Props.JobBoss.C46_requested_partition",
    "Pibronic.Props.JobBoss.C46_unknown_host",
    "Pibronic.Props.JobBoss.C46_bad_number",
    "Pibronic.Props.JobBoss.C46_one_batch_per_pair",
    "Pibronic.Props.JobBoss.C46_number_of_jobs",
    "Pibronic.Props.JobBoss.C46_failure_keeps_prefix"
   ],
   "note": "All replies of the scheduler; on failure the accepted jobs are an initial part of the plan. Known hosts, default partitions."
  },
  {
   "property": "C47",
   "status": "partial",
   "theorems": [
    "Pibronic.Props.JobBoss.C47_shared_parameters",
    "Pibronic.Props.JobBoss.C47_independence_refuted",
    "Pibronic.Props.JobBoss.C47_paths_refuted",
    "Pibronic.Props.JobBoss.C47_untouched_keys_partial"
   ],
   "note": "False of the code: the parameter dictionary is a class attribute; what remains true is proved."
  },
  {
   "property": "C48",
   "status": "proved",
   "theorems": [
    "Pibronic.Props.JobBoss.C48_returns_only_when_completed",
    "Pibronic.Props.JobBoss.C48_raises_on_error",
    "Pibronic.Props.JobBoss.C48_keeps_waiting"
   ],
   "note": "Exact characterisation of returning and raising for every sequence of scheduler answers."
  },
  {
   "property": "C49",
   "status": "proved",
   "theorems": [
    "Pibronic.Props.JobBoss.C49_job_id",
    "Pibronic.Props.JobBoss.C49_short_message",
    "Pibronic.Props.JobBoss.C49_cluster_suffix_raises"
   ],
   "note": "Every job number with any trailing line ends; shorter texts give None; the multi-cluster form raises."
  },
  {
   "property": "C50",
   "status": "partial",
   "theorems": [
    "Pibronic.Props.Analytic.C50_never_mixes_partial",
    "Pibronic.Props.Analytic.C50_stale_hashes_refuted",
    "Pibronic.Props.Analytic.C50_original_model_refuted",
    "Pibronic.Props.Analytic.C50_results_files",
    "Pibronic.Props.Analytic.C50_separate_files",
    "Pibronic.Props.AnalyticText.C50_text_round_trip",
    "Pibronic.Props.AnalyticText.C50_incomplete_file",
    "Pibronic.Props.AnalyticText.C50_short_file"
   ],
   "note": "Invariant over all histories in which the hashes are current at each calculation; false with stale hashes, and false of the file of the original model (it carries the hash of another model). Each method, basis and bead number has its own file. A write interrupted at any character leaves a file that is empty or rejected."
  },
  {
   "property": "C51",
   "status": "proved",
   "theorems": [
    "Pibronic.Props.Analytic.C51_keeps_other_temperatures",
    "Pibronic.Props.Analytic.C51_discards_stale",
    "Pibronic.Props.Analytic.C51_succeeds_iff",
    "Pibronic.Props.Analytic.C51_failure_changes_nothing",
    "Pibronic.Props.Analytic.C51_errors",
    "Pibronic.Props.Analytic.C51_after_crash",
    "Pibronic.Props.Analytic.C51_killed_fails",
    "Pibronic.Props.Analytic.C51_empty_output_fails",
    "Pibronic.Props.Analytic.C51_reads_printed_lines",
    "Pibronic.Props.Analytic.C51_bad_line_fails",
    "Pibronic.Props.Analytic.C51_entry_values",
    "Pibronic.Props.Analytic.C51_names"
   ],
   "note": "Both success cases, exact success condition, failures change nothing, how the output is read and which values are stored."
  },
  {
   "property": "C52",
   "status": "partial",
   "theorems": [
    "Pibronic.Props.Analytic.C52_loadable_refuted",
    "Pibronic.Props.Analytic.C52_load_iff_partial",
    "Pibronic.Props.Analytic.C52_load_errors",
    "Pibronic.Props.Analytic.C52_never_loadable_refuted"
   ],
   "note": "False of the code for every output of the program: the wrapper writes Z_rho, the statistics read Z_sampling. The exact condition under which loading succeeds is proved."
  },
  {
   "property": "C53",
   "status": "partial",
   "theorems": [
    "Pibronic.Props.Workflow.C53_always_second_refuted",
    "Pibronic.Props.Workflow.C53_repeats_refuted",
    "Pibronic.Props.Workflow.C53_never_skips",
    "Pibronic.Props.Workflow.C53_one_stage_partial",
    "Pibronic.Props.Workflow.C53_finished_refuted",
    "Pibronic.Props.Workflow.C53_membership_refuted",
    "Pibronic.Props.Workflow.C53_unknown_line",
    "Pibronic.Props.Workflow.C53_given_stage"
   ],
   "note": "False of the code: a restart always begins with the second stage whatever the state file lists, a file that ends with FINISHED raises, and stages are repeated. It never skips a stage, and unknown lines and an explicitly given stage behave as described."
  },
  {
   "property": "C54",
   "status": "partial",
   "theorems": [
    "Pibronic.Props.Workflow.C54_order",
    "Pibronic.Props.Workflow.C54_path_complete",
    "Pibronic.Props.Workflow.C54_prepare_refuted",
    "Pibronic.Props.Workflow.C54_success_refuted",
    "Pibronic.Props.Workflow.C54_last_stage_partial",
    "Pibronic.Props.Workflow.C54_finished",
    "Pibronic.Props.Workflow.C54_default_stage_refuted"
   ],
   "note": "Order proved for every execution and every set of answers of the external programs. That all stages can succeed is false: the template step returns nothing, so no run passes the preparation of the coupling calculation."
  },
  {
   "property": "C55",
   "status": "proved",
   "theorems": [
    "Pibronic.Props.Buffer.C55_back",
    "Pibronic.Props.Buffer.C55_back_short",
    "Pibronic.Props.Buffer.C55_forward",
    "Pibronic.Props.Buffer.C55_forward_short",
    "Pibronic.Props.Buffer.C55_there_and_back",
    "Pibronic.Props.Buffer.C55_find",
    "Pibronic.Props.Buffer.C55_rfind"
   ],
   "note": "Proved for all buffers, positions and counts."
  },
  {
   "property": "C56",
   "status": "partial",
   "theorems": [
    "Pibronic.Props.Stats.C56_Z_error_is_standard_error",
    "Pibronic.Props.Stats.C56_jackknife_error_partial",
    "Pibronic.Props.Stats.C56_jackknife_error_refuted",
    "Pibronic.Props.Stats.C56_witness"
   ],
   "note": "Z error proved; the jackknife error in the code is sqrt(n/(n-1)) times the textbook one (proved as _partial), hence the equality is refuted with a witness."
  },
  {
   "property": "C57",
   "status": "partial",
   "theorems": [
    "Pibronic.Props.ModelFiles.C57_other_surfaces_rejected_partial",
    "Pibronic.Props.ModelFiles.C57_single_surface_broadcast_refuted"
   ],
   "note": "Different numbers of surfaces (at least two in the file) are rejected (partial); a file with one surface is broadcast into larger arrays (witness)."
  },
  {
   "property": "C58",
   "status": "proved",
   "theorems": [
    "Pibronic.Props.ModelFiles.C58_same_model_decides",
    "Pibronic.Props.ModelFiles.C58_same_is_true",
    "Pibronic.Props.ModelFiles.C58_many_modes",
    "Pibronic.Props.ModelFiles.C58_not_symmetric"
   ],
   "note": "Both directions, all dictionaries with fewer than 100000 modes and surfaces in the second model; C58_many_modes shows that the bound is needed and C58_not_symmetric that the comparison is not symmetric."
  },
  {
   "property": "C59",
   "status": "proved",
   "theorems": [
    "Pibronic.Props.Sampling.C59_unbiased",
    "Pibronic.Props.Sampling.C59_linear_models_integrable",
    "Pibronic.Props.Sampling.C59_small_quadratic_integrable",
    "Pibronic.Props.Sampling.C59_enough_beads",
    "Pibronic.Props.Sampling.C59_one_mode_iff",
    "Pibronic.Props.Sampling.C59_Z_estimate_unbiased"
   ],
   "note": "Expectation as a Bochner integral over the law of a path; integrability is equivalent to that of the integrand and proved for all models with linear couplings and for small quadratic couplings; for one surface and one mode the bound is exact."
  },
  {
   "property": "C60",
   "status": "proved",
   "theorems": [
    "Pibronic.Props.Convergence.C60_analyses_settle",
    "Pibronic.Props.Convergence.C60_plain_analyses",
    "Pibronic.Props.Sampling.C60_estimates_converge"
   ],
   "note": "Strong law of large numbers applied to the program's own estimators; the jackknife values are treated with a limit calculus for leave-one-out averages. Linear couplings and quadratic couplings that are small against the frequencies (SmallQuadratic); C59_one_mode_iff shows that without such a bound the integral diverges."
  },
  {
   "property": "C61",
   "status": "proved",
   "theorems": [
    "Pibronic.Props.Sampling.C61_sampling_integral",
    "Pibronic.Props.Sampling.C61_ratio_times_analytic"
   ],
   "note": "Closed form for every number of beads through the determinant of the circulant matrix."
  },
  {
   "property": "C62",
   "status": "proved",
   "theorems": [
    "Pibronic.Props.Results.C62_not_saved",
    "Pibronic.Props.Results.C62_jobs_do_not_overwrite",
    "Pibronic.Props.Results.C62_unnumbered_jobs_share_file"
   ],
   "note": "Names are injective in (P, T, job id); jobs without an id share one file (stated as a theorem)."
  },
  {
   "property": "C63",
   "status": "partial",
   "theorems": [
    "Pibronic.Props.JobBoss.C63_signal_not_lost_partial",
    "Pibronic.Props.JobBoss.C63_lost_signal_refuted",
    "Pibronic.Props.JobBoss.C63_alarm_kills_refuted",
    "Pibronic.Props.JobBoss.C63_early_signal",
    "Pibronic.Props.JobBoss.C63_woken_by_alarm"
   ],
   "note": "False of the code in two ways (lost wake-up between the last bytecode and sigwait; unhandled SIGALRM); not lost if handlers run at once."
  },
  {
   "property": "C64",
   "status": "partial",
   "theorems": [
    "Pibronic.Props.JobParams.C64_encode_self_refuted",
    "Pibronic.Props.JobParams.C64_encode_given_partial"
   ],
   "note": "False of the code: the dictionary of its own members is keyed by enumeration members, which json.dumps rejects. Holds for given parameters."
  },
  {
   "property": "C65",
   "status": "partial",
   "theorems": [
    "Pibronic.Props.Buffer.C65_check_refuted",
    "Pibronic.Props.Buffer.C65_bad_table_refuted",
    "Pibronic.Props.Buffer.C65_never_reduced_refuted",
    "Pibronic.Props.Buffer.C65_reduction_partial"
   ],
   "note": "False of the code: reading starts at the newline that ends the header, which looks like the blank line after the table, so every table is accepted. The reduction loop itself is right."
  },
  {
   "property": "C66",
   "status": "proved",
   "theorems": [
    "Pibronic.Props.Buffer.C66_kept",
    "Pibronic.Props.Buffer.C66_rejected",
    "Pibronic.Props.Buffer.C66_idempotent"
   ],
   "note": "Proved for all file contents."
  },
  {
   "property": "C67",
   "status": "partial",
   "theorems": [
    "Pibronic.Props.Buffer.C67_written",
    "Pibronic.Props.Buffer.C67_number_shown",
    "Pibronic.Props.Buffer.C67_field_partial",
    "Pibronic.Props.Buffer.C67_placeholder_refuted",
    "Pibronic.Props.Buffer.C67_rejected",
    "Pibronic.Props.Buffer.C67_too_long_refuted"
   ],
   "note": "False of the code: six characters are written over the three of the placeholder. Holds when three blanks follow."
  },
  {
   "property": "C68",
   "status": "partial",
   "theorems": [
    "Pibronic.Props.Buffer.C68_checked_lines",
    "Pibronic.Props.Buffer.C68_checked_lines_open",
    "Pibronic.Props.Buffer.C68_last_ten_partial",
    "Pibronic.Props.Buffer.C68_announcements",
    "Pibronic.Props.Buffer.C68_short_file_refuted",
    "Pibronic.Props.Buffer.C68_raises"
   ],
   "note": "False for files of at most ten lines: the first line is never examined. Holds for longer files."
  },
  {
   "property": "C69",
   "status": "partial",
   "theorems": [
    "Pibronic.Props.Molecule.C69_values",
    "Pibronic.Props.Molecule.C69_unknown_header",
    "Pibronic.Props.Molecule.C69_missing_value",
    "Pibronic.Props.Molecule.C69_missing_file",
    "Pibronic.Props.Molecule.C69_independent_partial",
    "Pibronic.Props.Molecule.C69_independent_refuted"
   ],
   "note": "False for the second molecule of a process: the dictionary belongs to the class, so parameters left out keep the values of the previous molecule. Proved for the first file and for files that give all parameters."
  },
  {
   "property": "C70",
   "status": "proved",
   "theorems": [
    "Pibronic.Props.Molecule.C70_internal",
    "Pibronic.Props.Molecule.C70_internal_again",
    "Pibronic.Props.Molecule.C70_update",
    "Pibronic.Props.Molecule.C70_cartesian",
    "Pibronic.Props.Molecule.C70_cartesian_update",
    "Pibronic.Props.Molecule.C70_cartesian_rejected",
    "Pibronic.Props.Molecule.C70_missing_file",
    "Pibronic.Props.Molecule.C70_no_blank_line",
    "Pibronic.Props.Molecule.C70_bad_row"
   ],
   "note": "Proved for all well-formed files; malformed ones are rejected."
  },
  {
   "property": "C71",
   "status": "partial",
   "theorems": [
    "Pibronic.Props.Molecule.C71_internal_partial",
    "Pibronic.Props.Molecule.C71_cartesian_partial",
    "Pibronic.Props.Molecule.C71_no_summary",
    "Pibronic.Props.Molecule.C71_cut_off_refuted"
   ],
   "note": "False for an output that ends within the summary: the reading loop never ends. Proved for complete summaries and for outputs without a summary."
  },
  {
   "property": "C72",
   "status": "partial",
   "theorems": [
    "Pibronic.Props.Inputs.C72_hf_partial",
    "Pibronic.Props.Inputs.C72_opt_partial",
    "Pibronic.Props.Inputs.C72_vib_partial",
    "Pibronic.Props.Inputs.C72_ip_partial",
    "Pibronic.Props.Inputs.C72_prep_partial",
    "Pibronic.Props.Inputs.C72_braces_refuted",
    "Pibronic.Props.Inputs.C72_no_basis",
    "Pibronic.Props.Inputs.C72_grid_refuted"
   ],
   "note": "False for geometries with braces in a title, and for numerical parameters given in the parameter file, which are texts. Proved otherwise, for all geometries."
  },
  {
   "property": "C73",
   "status": "partial",
   "theorems": [
    "Pibronic.Props.Inputs.C73_no_answer",
    "Pibronic.Props.Inputs.C73_no_consent",
    "Pibronic.Props.Inputs.C73_confirmed",
    "Pibronic.Props.Inputs.C73_accepted",
    "Pibronic.Props.Inputs.C73_bad_keyword",
    "Pibronic.Props.Inputs.C73_answer_refuted",
    "Pibronic.Props.Inputs.C73_dropmo_last_digit",
    "Pibronic.Props.Inputs.C73_dropmo_partial",
    "Pibronic.Props.Inputs.C73_dropmo_refuted",
    "Pibronic.Props.Inputs.C73_dropmo_guess",
    "Pibronic.Props.Inputs.C73_nip_guess_partial",
    "Pibronic.Props.Inputs.C73_tie_refuted",
    "Pibronic.Props.Inputs.C73_no_guess"
   ],
   "note": "False: every answer with a 'y' in it counts as agreement, only the last digit of the number of dropped orbitals is used, and equal ratios confuse the count. The remaining claims are proved."
  },
  {
   "property": "C74",
   "status": "proved",
   "theorems": [
    "Pibronic.Props.Orthonormal.C74_generated",
    "Pibronic.Props.Orthonormal.C74_order_one",
    "Pibronic.Props.Orthonormal.C74_order_two",
    "Pibronic.Props.Orthonormal.C74_errors",
    "Pibronic.Props.Sequences.C74_usable",
    "Pibronic.Props.Sequences.C74_order_two_saved",
    "Pibronic.Props.Sequences.C74_first_turn",
    "Pibronic.Props.Sequences.C74_first_turn_order_one",
    "Pibronic.Props.Sequences.C74_first_turn_order_two",
    "Pibronic.Props.Sequences.C74_unusable",
    "Pibronic.Props.Sequences.C74_too_few"
   ],
   "note": "For orders 2 to 15; the eigenvalues of the skew matrix bound the first half turn, the sample distance 100/9999 is used. C74_order_two shows that the generation succeeds (non-vacuity). Floating point rounding is not modelled. The files are also followed through the directory: after a successful generation every parameter gives a rotation (C74_usable, C74_order_two_saved), and the search for the first turn with its own generator is characterised (C74_first_turn, C74_first_turn_order_one, C74_first_turn_order_two)."
  },
  {
   "property": "C75",
   "status": "partial",
   "theorems": [
    "Pibronic.Props.Training.C75_sampled_exact",
    "Pibronic.Props.Training.C75_common_displacement",
    "Pibronic.Props.Training.C75_raw_partial",
    "Pibronic.Props.Training.C75_refused",
    "Pibronic.Props.Training.C75_quadratic_not_refused",
    "Pibronic.Props.Training.C75_raw_refuted"
   ],
   "note": "C75_sampled_exact settles block_compute_gR. For raw samples the displacement is subtracted twice: the claim holds without linear terms on the diagonal (C75_raw_partial), with a common displacement the stored value is g at moved coordinates (C75_common_displacement, C75_raw_refuted), and with different displacements along a coupling the symmetry assertion refuses a request unless the coordinates are so far out that the difference is within numpy's relative tolerance (C75_refused, an equivalence)."
  },
  {
   "property": "C76",
   "status": "partial",
   "theorems": [
    "Pibronic.Props.Training.C76_value",
    "Pibronic.Props.Training.C76_partial",
    "Pibronic.Props.Training.C76_fewer_states",
    "Pibronic.Props.Training.C76_other_states",
    "Pibronic.Props.Training.C76_refuted",
    "Pibronic.Props.Training.C76_other_states_refuted"
   ],
   "note": "C76_value says exactly what is stored when both models have the same number of surfaces; it is rho only if the system has no linear terms on the diagonal (C76_partial, C76_refuted). With more surfaces the value does not depend on the coordinates (C76_other_states, C76_other_states_refuted), with fewer the request is refused."
  },
  {
   "property": "C77",
   "status": "partial",
   "theorems": [
    "Pibronic.Props.Prepare.C77_models_used",
    "Pibronic.Props.Prepare.C77_other_modes_refused",
    "Pibronic.Props.Prepare.C77_missing_model",
    "Pibronic.Props.Prepare.C77_bad_dimensions",
    "Pibronic.Props.Prepare.C77_missing_sampling_model",
    "Pibronic.Props.Prepare.C77_higher_orders_refuted"
   ],
   "note": "From saved dictionaries to the arrays of the calculation. Cubic and quartic terms of the file are ignored (C77_higher_orders_refuted); the quadratic terms of a sampling model are ignored too, consistently in the draw and in the denominator."
  },
  {
   "property": "C78",
   "status": "partial",
   "theorems": [
    "Pibronic.Props.Prepare.C78_used",
    "Pibronic.Props.Prepare.C78_few_beads_refused",
    "Pibronic.Props.Prepare.C78_reported",
    "Pibronic.Props.Prepare.C78_reported_partial",
    "Pibronic.Props.Prepare.C78_second_preparation",
    "Pibronic.Props.Prepare.C78_reported_refuted"
   ],
   "note": "What the calculation uses is right for every history (C78_used). What a BoxDataPM object reports about itself is made from the beta before the preparation (C78_reported_refuted), and right if that was right or after a second preparation."
  },
  {
   "property": "C79",
   "status": "partial",
   "theorems": [
    "Pibronic.Props.Prepare.C79_unsaved_refuted",
    "Pibronic.Props.Prepare.C79_unsaved_after_all_blocks",
    "Pibronic.Props.Prepare.C79_from_directory",
    "Pibronic.Props.Prepare.C79_saved_partial"
   ],
   "note": "Objects made by from_FileStructure, build or the wrappers have no hashes, and saving asserts that they exist: proved for all parameters. With hashes the file is proved to hold every sample."
  },
  {
   "property": "C80",
   "status": "proved",
   "theorems": [
    "Pibronic.Props.Plotting.C80_lists",
    "Pibronic.Props.Plotting.C80_table",
    "Pibronic.Props.Plotting.C80_succeeds",
    "Pibronic.Props.Plotting.C80_no_model",
    "Pibronic.Props.Plotting.C80_load_errors",
    "Pibronic.Props.Plotting.C80_bad_entry",
    "Pibronic.Props.Plotting.C80_nothing_to_plot",
    "Pibronic.Props.Plotting.C80_two_objects"
   ],
   "note": "From the directory listing and the texts of the model files to the table. Names and keys as the program writes them (Tidy)."
  },
  {
   "property": "C81",
   "status": "partial",
   "theorems": [
    "Pibronic.Props.Plotting.C81_original_percent",
    "Pibronic.Props.Plotting.C81_versus_percent",
    "Pibronic.Props.Plotting.C81_succeeds",
    "Pibronic.Props.Plotting.C81_versus_succeeds",
    "Pibronic.Props.Plotting.C81_errors",
    "Pibronic.Props.Plotting.C81_stale_exact_refuted",
    "Pibronic.Props.Plotting.C81_names_never_written_refuted",
    "Pibronic.Props.Plotting.C81_no_percentages_refuted"
   ],
   "note": "The arithmetic is proved for both classes. Refuted: stored hashes of the analytic files are not looked at (C81_stale_exact_refuted), and the program that fills the files stores no Z_sampling and no Z_coupled, so with its files every attempt raises (C81_no_percentages_refuted)."
  },
  {
   "property": "C82",
   "status": "proved",
   "theorems": [
    "Pibronic.Props.Plotting.C82_tau",
    "Pibronic.Props.Plotting.C82_tau_decreases"
   ],
   "note": "The exact identity tau P = beta(T), with the constants of the program."
  },
  {
   "property": "C83",
   "status": "partial",
   "theorems": [
    "Pibronic.Props.Plotting.C83_original_shows_every_result",
    "Pibronic.Props.Plotting.C83_original_shows_only_results",
    "Pibronic.Props.Plotting.C83_original_succeeds",
    "Pibronic.Props.Plotting.C83_original_one_temperature_refuted",
    "Pibronic.Props.Plotting.C83_plot_test_refuted",
    "Pibronic.Props.Plotting.C83_plot_test_keeps",
    "Pibronic.Props.Plotting.C83_test_shows_every_result_partial",
    "Pibronic.Props.Plotting.C83_plot_test_two_temperatures_refuted",
    "Pibronic.Props.Plotting.C83_versus_shows_results_partial",
    "Pibronic.Props.Plotting.C83_versus_name_and_inset",
    "Pibronic.Props.Plotting.C83_versus_limits_refuted",
    "Pibronic.Props.Plotting.C83_versus_errors_refuted",
    "Pibronic.Props.Plotting.C83_versus_succeeds",
    "Pibronic.Props.Plotting.C83_sos_versus_refuted"
   ],
   "note": "Proved for the percentages of one object. Refuted: only one temperature can be plotted; the raw figures stop before the heat capacity; the comparison of two models has limits on id_rho, on the temperature and shows only the largest number of samples; the sum over states comparison and the rectangle never load."
  },
  {
   "property": "C84",
   "status": "partial",
   "theorems": [
    "Pibronic.Props.Plotting.C84_sos_partial",
    "Pibronic.Props.Plotting.C84_sos_missing_refuted",
    "Pibronic.Props.Plotting.C84_sos_first_missing_refuted",
    "Pibronic.Props.Plotting.C84_trotter"
   ],
   "note": "Trotter results are proved. Sum over states: proved when all files exist, a missing file gives the results of the previous object (C84_sos_missing_refuted)."
  },
  {
   "property": "C85",
   "status": "partial",
   "theorems": [
    "Pibronic.Props.Grids.C85_marks",
    "Pibronic.Props.Grids.C85_marks_partial",
    "Pibronic.Props.Grids.C85_marks_refuted",
    "Pibronic.Props.Grids.C85_surfaces_refuted",
    "Pibronic.Props.Grids.C85_linear",
    "Pibronic.Props.Grids.C85_quadratic",
    "Pibronic.Props.Grids.C85_energy",
    "Pibronic.Props.Grids.C85_missing_energy",
    "Pibronic.Props.Grids.C85_failures_reported",
    "Pibronic.Props.Grids.C85_smaller_models",
    "Pibronic.Props.Grids.C85_missing_terms"
   ],
   "note": "Figures, names and colours are proved. The signs are written at exchanged coordinates: right for symmetric matrices and a sampling model with the same number of surfaces (C85_marks_partial), wrong as soon as opposite entries differ in sign (C85_marks_refuted)."
  },
  {
   "property": "C86",
   "status": "partial",
   "theorems": [
    "Pibronic.Props.JackknifeParameters.C86_pimc_bead",
    "Pibronic.Props.JackknifeParameters.C86_thermo_bead",
    "Pibronic.Props.JackknifeParameters.C86_jackknife_parameters",
    "Pibronic.Props.JackknifeParameters.C86_pimc_parameters",
    "Pibronic.Props.JackknifeParameters.C86_files",
    "Pibronic.Props.JackknifeParameters.C86_other_directory_refuted"
   ],
   "note": "The directory has to be called results/ for PIMC files; otherwise every name is rejected with IndexError (C86_other_directory_refuted)."
  },
  {
   "property": "C87",
   "status": "partial",
   "theorems": [
    "Pibronic.Props.JackknifeParameters.C87_loaded",
    "Pibronic.Props.JackknifeParameters.C87_errors",
    "Pibronic.Props.JackknifeParameters.C87_bad_lists",
    "Pibronic.Props.JackknifeParameters.C87_unreadable_refuted",
    "Pibronic.Props.JackknifeParameters.C87_no_stale_partial"
   ],
   "note": "A file that exists and cannot be opened is skipped silently and the values loaded before stay (C87_unreadable_refuted); in all other cases the claim holds (C87_no_stale_partial, C87_loaded, C87_errors)."
  },
  {
   "property": "C88",
   "status": "partial",
   "theorems": [
    "Pibronic.Props.OldFormats.C88_frequency_text",
    "Pibronic.Props.OldFormats.C88_documented_refuted",
    "Pibronic.Props.OldFormats.C88_reads_partial",
    "Pibronic.Props.OldFormats.C88_no_file",
    "Pibronic.Props.OldFormats.C88_separators",
    "Pibronic.Props.OldFormats.C88_trailing_blanks",
    "Pibronic.Props.OldFormats.C88_lines_as_they_stand",
    "Pibronic.Props.OldFormats.C88_symmetric",
    "Pibronic.Props.OldFormats.C88_cut_short"
   ],
   "note": "Files with the documented layout are never read, because the rows of the reference Hamiltonian are read twice (C88_documented_refuted). The claim holds for files in which these rows are repeated (C88_reads_partial); separators and symmetry are proved for all files."
  },
  {
   "property": "C89",
   "status": "partial",
   "theorems": [
    "Pibronic.Props.OldFormats.C89_never_read_refuted",
    "Pibronic.Props.OldFormats.C89_nothing_written",
    "Pibronic.Props.OldFormats.C89_missing",
    "Pibronic.Props.OldFormats.C89_counts",
    "Pibronic.Props.OldFormats.C89_label_missing",
    "Pibronic.Props.OldFormats.C89_frequencies",
    "Pibronic.Props.OldFormats.C89_wrong_number",
    "Pibronic.Props.OldFormats.C89_one_frequency_refuted"
   ],
   "note": "No file is ever read: a function is called with too few arguments (C89_never_read_refuted). Proved: nothing is written (C89_nothing_written), missing files are reported, and the functions for the counts and the frequencies on their own (C89_counts, C89_label_missing, C89_frequencies; one number in a line is repeated for all modes, C89_one_frequency_refuted). The functions that search the *.h file are not modelled: they are not reachable."
  },
  {
   "property": "C90",
   "status": "partial",
   "theorems": [
    "Pibronic.Props.Slurm.C90_nothing_submitted_refuted",
    "Pibronic.Props.Slurm.C90_accepted_refuted",
    "Pibronic.Props.Slurm.C90_refusal_reported_partial",
    "Pibronic.Props.Slurm.C90_input_written",
    "Pibronic.Props.Slurm.C90_submission"
   ],
   "note": "False of the code: the names job_boss.partition and job_boss.hostname do not exist, so nothing is ever submitted (C90_nothing_submitted_refuted), and an accepted submission would end with an AttributeError (C90_accepted_refuted). Proved: refused submissions are reported (C90_refusal_reported_partial) and job_boss.submit_job itself returns the id (C90_submission)."
  },
  {
   "property": "C91",
   "status": "partial",
   "theorems": [
    "Pibronic.Props.Slurm.C91_waiting_ends_well_partial",
    "Pibronic.Props.Slurm.C91_failed_raises",
    "Pibronic.Props.Slurm.C91_raises",
    "Pibronic.Props.Slurm.C91_other_failures_refuted",
    "Pibronic.Props.Slurm.C91_output_file_refuted",
    "Pibronic.Props.Slurm.C91_missing_output_raises"
   ],
   "note": "Waiting is characterised (C91_waiting_ends_well_partial, C91_failed_raises), but jobs that ran out of time or memory pass when one of their steps was completed (C91_other_failures_refuted). The check of the output file never objects (C91_output_file_refuted)."
  },
  {
   "property": "C92",
   "status": "partial",
   "theorems": [
    "Pibronic.Props.Slurm.C92_cluster_name",
    "Pibronic.Props.Slurm.C92_no_cluster_raises",
    "Pibronic.Props.Slurm.C92_partition_partial",
    "Pibronic.Props.Slurm.C92_partition_refuted"
   ],
   "note": "Listed partitions are accepted and names that do not occur are rejected (C92_partition_partial), but any part of a listed name is accepted (C92_partition_refuted)."
  },
  {
   "property": "C93",
   "status": "partial",
   "theorems": [
    "Pibronic.Props.Slurm.C93_own_state_partial",
    "Pibronic.Props.Slurm.C93_started_refuted",
    "Pibronic.Props.Slurm.C93_stale_state_refuted",
    "Pibronic.Props.Slurm.C93_nothing_started"
   ],
   "note": "Holds when every state file has a state (C93_own_state_partial). A calculation that has just started has an empty file: the report stops (C93_started_refuted) or shows the state of the previous molecule (C93_stale_state_refuted)."
  },
  {
   "property": "C94",
   "status": "partial",
   "theorems": [
    "Pibronic.Props.JobScript.C94_output_file",
    "Pibronic.Props.JobScript.C94_outputs_differ",
    "Pibronic.Props.JobScript.C94_command_partial",
    "Pibronic.Props.JobScript.C94_scripts_refuted",
    "Pibronic.Props.JobScript.C94_incomplete",
    "Pibronic.Props.JobScript.C94_servers"
   ],
   "note": "The words of the command are the given ones (C94_command_partial), but the scripts are looked for below the file job_boss.py (C94_scripts_refuted) and the interpreter is the file of the module os."
  },
  {
   "property": "C95",
   "status": "partial",
   "theorems": [
    "Pibronic.Props.JobScript.C95_results_arrive",
    "Pibronic.Props.JobScript.C95_other_results_kept",
    "Pibronic.Props.JobScript.C95_others_move_along",
    "Pibronic.Props.JobScript.C95_compute_canada_partial",
    "Pibronic.Props.JobScript.C95_compute_canada_refuted"
   ],
   "note": "Proved for nlogn and feynman, provided that the job ran (see C94). On the compute canada servers the results stay in the scratch directory when the path contains `work` (C95_compute_canada_refuted, C95_compute_canada_partial)."
  },
  {
   "property": "C96",
   "status": "partial",
   "theorems": [
    "Pibronic.Props.Julia.C96_command_partial",
    "Pibronic.Props.Julia.C96_blank_refuted",
    "Pibronic.Props.Julia.C96_nothing_run",
    "Pibronic.Props.Julia.C96_module_refuted",
    "Pibronic.Props.Julia.C96_preparations",
    "Pibronic.Props.Julia.C96_no_command"
   ],
   "note": "Proved for root and package directories without characters special to the shell (C96_command_partial). Paths are not quoted (C96_blank_refuted), and the module with Julia is never loaded when Julia is missing (C96_module_refuted). Failures are reported (C96_nothing_run)."
  },
  {
   "property": "C97",
   "status": "partial",
   "theorems": [
    "Pibronic.Props.Julia.C97_runs_as_asked_partial",
    "Pibronic.Props.Julia.C97_sos_runs",
    "Pibronic.Props.Julia.C97_methods_refuted",
    "Pibronic.Props.Julia.C97_refused_iff",
    "Pibronic.Props.Julia.C97_beta_refuted",
    "Pibronic.Props.Julia.C97_zero_refuted"
   ],
   "note": "What is run is run as asked (C97_runs_as_asked_partial) and sums over states can be run (C97_sos_runs), but no other method can (C97_methods_refuted), --beta is never used (C97_beta_refuted) and zero passes the checks (C97_zero_refuted)."
  },
  {
   "property": "C98",
   "status": "partial",
   "theorems": [
    "Pibronic.Props.Julia.C98_command_partial",
    "Pibronic.Props.Julia.C98_leaves_partial",
    "Pibronic.Props.Julia.C98_failure_unnoticed_refuted"
   ],
   "note": "The command is right (C98_command_partial) and the disk is what the program leaves (C98_leaves_partial), but a failing program goes unnoticed (C98_failure_unnoticed_refuted)."
  },
  {
   "property": "C99",
   "status": "partial",
   "theorems": [
    "Pibronic.Props.Julia.C99_execute_partial",
    "Pibronic.Props.Julia.C99_never_finishes_refuted",
    "Pibronic.Props.Julia.C99_wrong_place_refuted",
    "Pibronic.Props.Julia.C99_result_elsewhere_refuted",
    "Pibronic.Props.Julia.C99_script_refuted"
   ],
   "note": "The order of the steps is proved (C99_execute_partial), but the input files are never found (C99_never_finishes_refuted), they would be copied to a place where the calculation does not read them (C99_wrong_place_refuted), its result is looked for outside of its directory (C99_result_elsewhere_refuted), and the script fails for all arguments (C99_script_refuted)."
  },
  {
   "property": "C100",
   "status": "partial",
   "theorems": [
    "Pibronic.Props.Sequences.C100_other_orders_partial",
    "Pibronic.Props.Sequences.C100_full_for_plotting",
    "Pibronic.Props.Sequences.C100_turns_refuted",
    "Pibronic.Props.Sequences.C100_norms_refuted",
    "Pibronic.Props.Sequences.C100_norms_result"
   ],
   "note": "Generations for other orders change nothing (C100_other_orders_partial) and one of the three generators for plots never writes (C100_full_for_plotting). The other two overwrite the file the tuned matrices are made from: afterwards every parameter is refused (C100_turns_refuted) or another matrix is returned (C100_norms_refuted, C100_norms_result)."
  },
  {
   "property": "C101",
   "status": "partial",
   "theorems": [
    "Pibronic.Props.Sequences.C101_rows_partial",
    "Pibronic.Props.Sequences.C101_shown_at_argument_refuted"
   ],
   "note": "Turning point number k (from 0) is shown k rows below its argument (C101_rows_partial); for order two the second one is in the wrong row (C101_shown_at_argument_refuted)."
  },
  {
   "property": "C102",
   "status": "partial",
   "theorems": [
    "Pibronic.Props.TrainingFiles.C102_rows_correspond_partial",
    "Pibronic.Props.TrainingFiles.C102_beyond_refused",
    "Pibronic.Props.TrainingFiles.C102_remainder_refuted",
    "Pibronic.Props.TrainingFiles.C102_crash_refuted",
    "Pibronic.Props.TrainingFiles.C102_later_save_refuted",
    "Pibronic.Props.TrainingFiles.C102_rho_rows",
    "Pibronic.Props.TrainingFiles.C102_single_row_repeated",
    "Pibronic.Props.TrainingFiles.C102_rho_too_few",
    "Pibronic.Props.TrainingFiles.C102_not_saved",
    "Pibronic.Props.TrainingFiles.C102_jobs_apart"
   ],
   "note": "Proved when the blocks make up the samples (C102_rows_correspond_partial), with rho at points read back (C102_rho_rows), jobs with different names (C102_jobs_apart) and refusal without a write when a block is too long or a value cannot be computed (C102_beyond_refused). False when the block size does not divide the number of samples (C102_remainder_refuted), after a crash between the two writes of a repeated job (C102_crash_refuted) and after a later save_results of the same object (C102_later_save_refuted)."
  },
  {
   "property": "C103",
   "status": "proved",
   "theorems": [
    "Pibronic.Props.Handover.C103_inputs",
    "Pibronic.Props.Handover.C103_repeated",
    "Pibronic.Props.Handover.C103_outputs_kept",
    "Pibronic.Props.Handover.C103_missing",
    "Pibronic.Props.Handover.C103_mixed_inputs"
   ],
   "note": "Copies and changes in place are modelled character by character, with every intermediate state of the disk; C103_mixed_inputs records that a failing step can leave inputs of two different calculations. Source and destination paths are shown to differ for every name and directory."
  },
  {
   "property": "C104",
   "status": "partial",
   "theorems": [
    "Pibronic.Props.Orbitals.C104_rows",
    "Pibronic.Props.Orbitals.C104_missing",
    "Pibronic.Props.Orbitals.C104_dropmo",
    "Pibronic.Props.Orbitals.C104_nip",
    "Pibronic.Props.Orbitals.C104_unreadable_row_refuted",
    "Pibronic.Props.Orbitals.C104_unreadable_row_nip",
    "Pibronic.Props.Orbitals.C104_early_rule_refuted"
   ],
   "note": "The rows are read exactly (C104_rows) and the suggestions are based on the fourth column (C104_dropmo, C104_nip). Refuted: a row without an energy makes _estimate_dropmo stop with UnboundLocalError instead of asking; a line of 43 plus signs before the table makes everything up to the end of the file part of the table."
  },
  {
   "property": "C105",
   "status": "partial",
   "theorems": [
    "Pibronic.Props.Loading.C105_complete_partial",
    "Pibronic.Props.Loading.C105_zero_terms_refuted",
    "Pibronic.Props.Loading.C105_missing_file",
    "Pibronic.Props.Loading.C105_bad_member",
    "Pibronic.Props.Loading.C105_constructors_refuted",
    "Pibronic.Props.Loading.C105_parameters_refuted",
    "Pibronic.Props.Loading.C105_contents_as_path_refuted"
   ],
   "note": "Holds when frequencies, linear and quadratic terms all have a non-zero entry (zeros are not saved). Refuted: without linear or quadratic terms load_model raises KeyError; both from_json_file constructors never return an object."
  },
  {
   "property": "C106",
   "status": "proved",
   "theorems": [
    "Pibronic.Props.Basis.C106_rotated",
    "Pibronic.Props.Exact.C106_exact",
    "Pibronic.Props.Exact.C106_many_beads_large_basis",
    "Pibronic.Props.Exact.C106_closed_form",
    "Pibronic.Props.Trotter.C106_constant_coupling",
    "Pibronic.Props.Trotter.C106_normal_modes",
    "Pibronic.Props.Trotter.C106_many_beads",
    "Pibronic.Props.Trotter.C106_levels",
    "Pibronic.Props.Trotter.C106_harmonic",
    "Pibronic.Props.Trotter.C106_uncoupled"
   ],
   "note": "Proved for all systems whose potential rises in every direction (`Confined`), with coordinate dependent couplings of any kind; without this the partition function does not exist. The Hamiltonian is defined on its own in Spec/Levels.lean, by its matrix elements between oscillator functions, as in textbooks. The oscillator functions are built from Hermite polynomials and shown complete in L2; the symmetric split of one step is a bounded operator whose powers have the path integrals as traces; comparison of its powers with the exponentials of finite matrices (Peierls and a tightness bound) gives the limit. C106_closed_form shows that this Hamiltonian gives the closed forms of the systems that have one."
  },
  {
   "property": "C107",
   "status": "partial",
   "theorems": [
    "Pibronic.Props.Energy.C107_uncoupled_partial",
    "Pibronic.Props.Energy.C107_own_model",
    "Pibronic.Props.Energy.C107_counted_twice_refuted",
    "Pibronic.Props.Energy.C107_coupling_ignored",
    "Pibronic.Props.Energy.C107_coupling_energy_refuted"
   ],
   "note": "Proved for uncoupled systems with the alpha factors. Refuted twice: the analysis without alpha factors adds the energy of the sampling model to an energy that already contains it; with alpha factors the energy of constant couplings is never reported because the coupling factor keeps its temperature (C38)."
  },
  {
   "property": "C108",
   "status": "partial",
   "theorems": [
    "Pibronic.Props.KeyNames.C108_to_members",
    "Pibronic.Props.KeyNames.C108_to_strings",
    "Pibronic.Props.KeyNames.C108_roundtrip",
    "Pibronic.Props.KeyNames.C108_unknown",
    "Pibronic.Props.KeyNames.C108_twice_refuted",
    "Pibronic.Props.KeyNames.C108_names_again",
    "Pibronic.Props.KeyNames.C108_names",
    "Pibronic.Props.KeyNames.C108_key_list"
   ],
   "note": "Proved for dictionaries with names and for dictionaries with members as keys. Refuted: converting to members twice deletes every item without an exception; an unknown name leaves the dictionary half converted (C108_unknown)."
  },
  {
   "property": "C109",
   "status": "partial",
   "theorems": [
    "Pibronic.Props.VibronMain.C109_stage_partial",
    "Pibronic.Props.VibronMain.C109_molecules",
    "Pibronic.Props.VibronMain.C109_refused",
    "Pibronic.Props.VibronMain.C109_molecule_refuted",
    "Pibronic.Props.VibronMain.C109_arguments_refuted",
    "Pibronic.Props.VibronMain.C109_data_sets_refuted"
   ],
   "note": "Proved for a molecule together with the number of a stage. Refuted: without a stage, and with more arguments, the default stage 0 does not exist and ValueError is raised; the entry point for data sets uses one literal directory 'data_set_{:d}' for all of them."
  },
  {
   "property": "C110",
   "status": "partial",
   "theorems": [
    "Pibronic.Props.PosSym.C110_never_passes_refuted",
    "Pibronic.Props.PosSym.C110_entries",
    "Pibronic.Props.PosSym.C110_diagonal_partial",
    "Pibronic.Props.PosSym.C110_refuses_positive_refuted",
    "Pibronic.Props.PosSym.C110_misses_indefinite_refuted"
   ],
   "note": "Refuted: the check looks at the signs of the entries and then calls a function that numpy does not have, so it never returns; a clearly negative diagonal entry is reported rightly."
  },
  {
   "property": "C111",
   "status": "proved",
   "theorems": [
    "Pibronic.Props.Basis.C111_basis"
   ],
   "note": "The integrand of the code is compared bead by bead with one that splits the same part off in every basis; the sum of the errors is bounded by a Gaussian weight whose integral is known, so the difference is at most a constant over the square root of the number of beads."
  },
  {
   "property": "C112",
   "status": "proved",
   "theorems": [
    "Pibronic.Props.Basis.C112_converges",
    "Pibronic.Props.Basis.C112_more_beads"
   ],
   "note": "Proved for all confined systems, with coordinate dependent couplings of any kind. The beads between every k-th bead are integrated out exactly (semigroup property of the oscillator propagators), the error of moving the potential to the k-th beads is bounded by a Gaussian weight; a sequence that multiples leave almost unchanged converges."
  },
  {
   "property": "C113",
   "status": "proved",
   "theorems": [
    "Pibronic.Props.Exact.C113_right_answer"
   ],
   "note": "Draws are independent with the law the sampler has in exact arithmetic. The inverse temperature must exceed the step of the finite difference."
  },
  {
   "property": "C114",
   "status": "partial",
   "theorems": [
    "Pibronic.Props.ErrorBars.C114_finite_partial",
    "Pibronic.Props.ErrorBars.C114_spread_pos",
    "Pibronic.Props.ErrorBars.C114_error_falls_partial",
    "Pibronic.Props.ErrorBars.C114_coverage_partial",
    "Pibronic.Props.ErrorBars.C114_infinite_spread",
    "Pibronic.Props.ErrorBars.C114_stiff_refuted"
   ],
   "note": "Proved for every sampling model under which the ratio has a finite spread, and for small quadratic terms and similar frequencies the spread is proved finite (C114_finite_partial). False of the code in general: nothing checks that the sampling model is soft enough, and for an oscillator of frequency 1 sampled with one of frequency 4 the error bar times the square root of the number of samples grows beyond all bounds (C114_stiff_refuted). Draws are independent with the law the sampler has in exact arithmetic."
  },
  {
   "property": "C115",
   "status": "proved",
   "theorems": [
    "Pibronic.Props.JackknifeErrors.C115_finite",
    "Pibronic.Props.JackknifeErrors.C115_influence",
    "Pibronic.Props.JackknifeErrors.C115_spread_pos",
    "Pibronic.Props.JackknifeErrors.C115_errors_fall",
    "Pibronic.Props.JackknifeErrors.C115_coverage"
   ],
   "note": "The influence of a path is defined as the derivative of the quantity when the three expectations move towards the ratios at that path. C115_finite gives a condition on the frequencies and the quadratic terms under which the spread is finite; C114_stiff_refuted shows that the condition is not empty. Draws are independent with the law the sampler has in exact arithmetic."
  },
  {
   "property": "C116",
   "status": "partial",
   "theorems": [
    "Pibronic.Props.Temperature.C116_shown",
    "Pibronic.Props.Temperature.C116_read_back",
    "Pibronic.Props.Temperature.C116_exact_iff",
    "Pibronic.Props.Temperature.C116_other_temperature_refuted",
    "Pibronic.Props.Temperature.C116_same_name_iff",
    "Pibronic.Props.Temperature.C116_apart_partial",
    "Pibronic.Props.Temperature.C116_mixed_refuted",
    "Pibronic.Props.Temperature.C116_analytic_apart_partial",
    "Pibronic.Props.Temperature.C116_analytic_replaced_refuted"
   ],
   "note": "False for temperatures that are not whole hundredths of a kelvin: the names and keys show two decimals. C116_other_temperature_refuted: such a run is analysed at another temperature (exact iff the temperature is a whole number of hundredths: C116_exact_iff; within half a hundredth always: C116_read_back). C116_mixed_refuted and C116_analytic_replaced_refuted: temperatures with the same two decimals share files, pool their samples and replace each other's results. C116_apart_partial and C116_analytic_apart_partial: kept apart when both are whole hundredths and differ, or when they differ by more than a hundredth (an example shows that exactly a hundredth is not enough)."
  },
  {
   "property": "C117",
   "status": "partial",
   "theorems": [
    "Pibronic.Props.Resubmit.C117_repeatable_partial",
    "Pibronic.Props.Resubmit.C117_refused_changes_nothing",
    "Pibronic.Props.Resubmit.C117_zero_block_refuted",
    "Pibronic.Props.Resubmit.C117_next_object_partial",
    "Pibronic.Props.Resubmit.C117_next_object_refuted"
   ],
   "note": "False in two histories: C117_zero_block_refuted (a call with blocks of size zero fails after it has cut the number of samples; corrected, only one job per pair is submitted) and C117_next_object_refuted (the number of samples overall of the first submission stays in the dictionary of the class, so that the next object submits that many jobs). C117_repeatable_partial: after every other outcome of a valid submission, repeating it does what the first attempt would have done; C117_refused_changes_nothing: a refused set-up leaves the parameters; C117_next_object_partial: an object that is given all three numbers is independent of the history."
  },
  {
   "property": "C118",
   "status": "partial",
   "theorems": [
    "Pibronic.Props.ServerJob.C118_saves_partial",
    "Pibronic.Props.ServerJob.C118_two_jobs_partial",
    "Pibronic.Props.ServerJob.C118_arguments",
    "Pibronic.Props.ServerJob.C118_refused",
    "Pibronic.Props.ServerJob.C118_bad_id",
    "Pibronic.Props.ServerJob.C118_short_refuted",
    "Pibronic.Props.ServerJob.C118_no_block",
    "Pibronic.Props.ServerJob.C118_too_many_blocks",
    "Pibronic.Props.ServerJob.C118_called",
    "Pibronic.Props.ServerJob.C118_blank_refuted"
   ],
   "note": "The script is modelled from its arguments to the saved file; what preprocess raises and what is computed for a block are arbitrary functions of the decoded parameters. Partial because a directory with a blank inside breaks the unquoted call in the job scripts (C118_blank_refuted): the job ends with AssertionError. A block size that does not divide the number of samples leaves the last samples of the saved file without a value, and nothing complains (C118_short_refuted); without a block the job ends with UnboundLocalError (C118_no_block), with too many blocks with ValueError (C118_too_many_blocks). An id that is no number is noticed only after the whole calculation (C118_bad_id). The script as such is treated here; C94_scripts_refuted says that the submitting code passes a wrong path for it."
  },
  {
   "property": "C119",
   "status": "partial",
   "theorems": [
    "Pibronic.Props.HeffFile.C119_linear_partial",
    "Pibronic.Props.HeffFile.C119_quadratic_partial",
    "Pibronic.Props.HeffFile.C119_own_block_partial",
    "Pibronic.Props.HeffFile.C119_energies_partial",
    "Pibronic.Props.HeffFile.C119_pairs_partial",
    "Pibronic.Props.HeffFile.C119_shape",
    "Pibronic.Props.HeffFile.C119_energies_shape",
    "Pibronic.Props.HeffFile.C119_pairs_shape",
    "Pibronic.Props.HeffFile.C119_no_title",
    "Pibronic.Props.HeffFile.C119_no_frequency",
    "Pibronic.Props.HeffFile.C119_unknown_surfaces_refuted",
    "Pibronic.Props.HeffFile.C119_degenerate_refuted",
    "Pibronic.Props.HeffFile.C119_part_of_text_refuted",
    "Pibronic.Props.HeffFile.C119_one_number_refuted"
   ],
   "note": "Partial: the functions use the module's global States, which is never bound because the only assignment follows a call that raises (C119_unknown_surfaces_refuted, see C89), so the positive theorems assume the number of surfaces. Every search starts again at the title: two modes with the same frequency get the first block of the two (C119_degenerate_refuted), and 10.5 is found inside 110.5 (C119_part_of_text_refuted). A line with one number fills the row (C119_one_number_refuted)."
  },
  {
   "property": "C120",
   "status": "partial",
   "theorems": [
    "Pibronic.Props.AnalysisChain.C120_later_analysis",
    "Pibronic.Props.AnalysisChain.C120_last_analysis_stays",
    "Pibronic.Props.AnalysisChain.C120_test_program",
    "Pibronic.Props.AnalysisChain.C120_samples_to_table",
    "Pibronic.Props.ThermoText.C120_read_back",
    "Pibronic.Props.ThermoText.C120_cut_file_rejected",
    "Pibronic.Props.ThermoText.C120_entries",
    "Pibronic.Props.ThermoText.C120_succeeds",
    "Pibronic.Props.ThermoText.C120_table",
    "Pibronic.Props.ThermoText.C120_vanished",
    "Pibronic.Props.ThermoText.C120_number_in_file",
    "Pibronic.Props.ThermoText.C120_passed_over",
    "Pibronic.Props.ThermoText.C120_one_cut_file_refuted",
    "Pibronic.Props.ThermoText.C120_repaired",
    "Pibronic.Props.ThermoText.C120_jackknife_lost_refuted"
   ],
   "note": "Partial: one thermo file cut by a crash, whatever models it was calculated from, makes every plotting object for the directory raise ValueError (C120_one_cut_file_refuted; running the analysis again repairs it, C120_repaired). An analysis without jackknife replaces the files of the jackknife analysis, and the jackknife quantities are lost (C120_jackknife_lost_refuted). The positive parts are proved."
  },
  {
   "property": "C121",
   "status": "proved",
   "theorems": [
    "Pibronic.Props.Examples.C121_artificial",
    "Pibronic.Props.Examples.C121_paper",
    "Pibronic.Props.Examples.C121_strength",
    "Pibronic.Props.Examples.C121_visits_artificial",
    "Pibronic.Props.Examples.C121_visits_paper"
   ],
   "note": "Holds. The lists of both projects are transcribed from the two systems.py files; the theorems say which numbers and names are accepted and which pairs the loops visit."
  },
  {
   "property": "C122",
   "status": "partial",
   "theorems": [
    "Pibronic.Props.Examples.C122_root",
    "Pibronic.Props.Examples.C122_sos",
    "Pibronic.Props.Examples.C122_trotter",
    "Pibronic.Props.Examples.C122_artificial_trotter_partial",
    "Pibronic.Props.Examples.C122_one_job_for_all_beads_refuted",
    "Pibronic.Props.Examples.C122_nothing_missing_refuted",
    "Pibronic.Props.Examples.C122_job_repeated_refuted",
    "Pibronic.Props.Examples.C122_unreadable_file",
    "Pibronic.Props.Examples.C122_not_again"
   ],
   "note": "Partial: in the artificial systems the line that submits stands after the loop over the beads: only the last missing number of beads gets a job (C122_one_job_for_all_beads_refuted), a pair without missing results submits the previous job again (C122_job_repeated_refuted), and when the first pair misses nothing the program ends with UnboundLocalError (C122_nothing_missing_refuted). The claim is proved for the sum over states of both projects and the Trotter calculations of the paper."
  },
  {
   "property": "C123",
   "status": "partial",
   "theorems": [
    "Pibronic.Props.Jobs.C123_own_file",
    "Pibronic.Props.Jobs.C123_ends",
    "Pibronic.Props.Jobs.C123_lost_update_refuted",
    "Pibronic.Props.Jobs.C123_old_results_lost_refuted",
    "Pibronic.Props.Jobs.C123_no_dictionary",
    "Pibronic.Props.Jobs.C123_half_file_refuted",
    "Pibronic.Props.Jobs.C123_unreadable_refuted",
    "Pibronic.Props.Jobs.C123_mixed_refuted"
   ],
   "note": "Partial: proved for calculations with a results file each (C123_own_file, C123_ends). The calculations at different temperatures share one file without a lock, and there the claim fails: a result is lost (C123_lost_update_refuted), all old results are lost when a job reads the file just after another one has emptied it (C123_old_results_lost_refuted), a job that reads a half written file fails (C123_half_file_refuted), two writers leave a file that can never be read again (C123_unreadable_refuted), and a number can stand under the temperature of another job (C123_mixed_refuted)."
  },
  {
   "property": "C124",
   "status": "proved",
   "theorems": [
    "Pibronic.Props.Jobs.C124_round",
    "Pibronic.Props.Jobs.C124_complete"
   ],
   "note": "Holds. The assumption that nobody touches the file while another job writes it is needed: C123 shows what happens without it."
  },
  {
   "property": "C125",
   "status": "proved",
   "theorems": [
    "Pibronic.Props.Setup.C125_models",
    "Pibronic.Props.Setup.C125_again",
    "Pibronic.Props.SetupPaper.C125_refused"
   ],
   "note": "Holds, with C125_refused for the inputs that are refused."
  },
  {
   "property": "C126",
   "status": "partial",
   "theorems": [
    "Pibronic.Props.Setup.C126_changes_partial",
    "Pibronic.Props.Setup.C126_other_root_refuted",
    "Pibronic.Props.Setup.C126_stale_refuted",
    "Pibronic.Props.Setup.C126_iterative_partial",
    "Pibronic.Props.Setup.C126_energies_partial",
    "Pibronic.Props.Setup.C126_succeeds_partial"
   ],
   "note": "Partial: proved under the root of the server when the iterative method writes its model (C126_iterative_partial, C126_energies_partial, C126_succeeds_partial). The claim fails otherwise: with another root the iterative model is made under the root of the server and the preparation then ends with FileNotFoundError (C126_other_root_refuted), and a method that fails goes unnoticed, so that the model of an earlier preparation is used (C126_stale_refuted). C126_changes_partial: no other file than those of the data set and the iterative model under the root of the server changes."
  },
  {
   "property": "C127",
   "status": "partial",
   "theorems": [
    "Pibronic.Props.SetupPaper.C127_models_partial",
    "Pibronic.Props.SetupPaper.C127_path_refuted",
    "Pibronic.Props.SetupPaper.C127_refused"
   ],
   "note": "Partial: proved when the path of the scripts and the name of the system contain neither `_R` nor `*` and the pattern finds only plain numbers (C127_models_partial). When the path contains `_R` the preparation fails with ValueError (C127_path_refuted)."
  },
  {
   "property": "C128",
   "status": "partial",
   "theorems": [
    "Pibronic.Props.SetupPaper.C128_other_root_refuted",
    "Pibronic.Props.SetupPaper.C128_model_partial",
    "Pibronic.Props.SetupPaper.C128_succeeds_partial"
   ],
   "note": "Partial: proved under the root of the server (C128_model_partial, C128_succeeds_partial). With another root the iterative model is made under the root of the server and the preparation ends with FileNotFoundError (C128_other_root_refuted)."
  },
  {
   "property": "C129",
   "status": "partial",
   "theorems": [
    "Pibronic.Props.ExamplesPimc.C129_jobs_partial",
    "Pibronic.Props.ExamplesPimc.C129_missing_model",
    "Pibronic.Props.ExamplesPimc.C129_refused",
    "Pibronic.Props.ExamplesPimc.C129_nothing_elsewhere",
    "Pibronic.Props.ExamplesPimc.C129_systems_partial",
    "Pibronic.Props.ExamplesPimc.C129_program_partial",
    "Pibronic.Props.ExamplesPimc.C129_own_jobs",
    "Pibronic.Props.ExamplesPimc.C129_program_own_jobs",
    "Pibronic.Props.ExamplesPimc.C129_settings",
    "Pibronic.Props.ExamplesPimc.C129_no_such_function_refuted"
   ],
   "note": "Partial: proved are the Monte Carlo jobs, their order and parameters, and the commands of the analytical calculations as the shell reads them (C129_jobs_partial, C129_systems_partial, C129_missing_model, C129_refused, C129_nothing_elsewhere), and that the two programs do this for their first system (C129_program_partial) and, whatever happens, for no other (C129_own_jobs, C129_program_own_jobs). The claim that the analytical programs call functions of the package fails for the artificial systems: they call analytic_of_coupled_model, which does not exist (C129_no_such_function_refuted)."
  },
  {
   "property": "C130",
   "status": "proved",
   "theorems": [
    "Pibronic.Props.ExamplesAnalysis.C130_separate",
    "Pibronic.Props.ExamplesAnalysis.C130_elsewhere",
    "Pibronic.Props.ExamplesAnalysis.C130_as_if_alone",
    "Pibronic.Props.ExamplesAnalysis.C130_results"
   ],
   "note": "Proved for every interleaving of the steps (a step is one reading or one writing of a file). The analysis without jackknife that the program runs first is overwritten by the second one (C120)."
  },
  {
   "property": "C131",
   "status": "partial",
   "theorems": [
    "Pibronic.Props.ExamplesPrepare.C131_artificial",
    "Pibronic.Props.ExamplesPrepare.C131_paper",
    "Pibronic.Props.ExamplesPrepare.C131_models",
    "Pibronic.Props.ExamplesPrepare.C131_paper_models_partial",
    "Pibronic.Props.ExamplesPrepare.C131_iterative_missing_refuted"
   ],
   "note": "The first part holds for both projects. The last sentence holds for the artificial systems only: for the paper the sampling distribution 11 is visited by the other programs, but the preparation calls the function without the iterative method, so its model is not made (refuted)."
  },
  {
   "property": "C132",
   "status": "partial",
   "theorems": [
    "Pibronic.Props.ExamplesSubmit.C132_paper",
    "Pibronic.Props.ExamplesSubmit.C132_artificial_partial",
    "Pibronic.Props.ExamplesSubmit.C132_name_refuted",
    "Pibronic.Props.ExamplesSubmit.C132_other_systems",
    "Pibronic.Props.ExamplesSubmit.C132_finished_set_refuted",
    "Pibronic.Props.ExamplesSubmit.C132_missing_model",
    "Pibronic.Props.ExamplesSubmit.C132_elsewhere",
    "Pibronic.Props.ExamplesSubmit.C132_iterative",
    "Pibronic.Props.ExamplesSubmit.C132_unknown_system"
   ],
   "note": "Holds as stated for the systems of the paper and for the iterative method of both projects. For the artificial systems only the Trotter calculation of the last missing number of beads is submitted (see C122); the system name has to be the very object of a literal (refuted for an equal text); a data set that misses no Trotter result ends the run with UnboundLocalError, so that the data sets after it get nothing (refuted)."
  },
  {
   "property": "C133",
   "status": "partial",
   "theorems": [
    "Pibronic.Props.ExamplesPlots.C133_versus",
    "Pibronic.Props.ExamplesPlots.C133_versus_saved",
    "Pibronic.Props.ExamplesPlots.C133_iterative_refuted",
    "Pibronic.Props.ExamplesPlots.C133_own_results_refuted",
    "Pibronic.Props.ExamplesPlots.C133_test",
    "Pibronic.Props.ExamplesPlots.C133_test_saved",
    "Pibronic.Props.ExamplesPlots.C133_heat_capacity_refuted",
    "Pibronic.Props.ExamplesPlots.C133_grids",
    "Pibronic.Props.ExamplesPlots.C133_grids_saved",
    "Pibronic.Props.ExamplesPlots.C133_refused"
   ],
   "note": "Each failing pair is skipped and every pair that works is saved under its own name (proved). Four disagreements: the distribution 11 of the paper has no label and is never drawn; exact results written by this package lack the names looked for, so nothing is drawn at all and no error is shown; the heat capacity always fails, so no pair with results is ever reported as done by `generate_plots.py`; the grid program stops at the first data set that fails."
  },
  {
   "property": "C134",
   "status": "proved",
   "theorems": [
    "Pibronic.Props.ExamplesGenerate.C134_written",
    "Pibronic.Props.ExamplesGenerate.C134_refused",
    "Pibronic.Props.ExamplesGenerate.C134_program",
    "Pibronic.Props.ExamplesGenerate.C134_prepared"
   ],
   "note": "Holds. The range of the energies applies to the couplings between surfaces as well, which are therefore as large as the energies themselves (10.3 to 10.9 eV and 14.0 to 14.8 eV)."
  },
  {
   "property": "C135",
   "status": "partial",
   "theorems": [
    "Pibronic.Props.SetupMctdh.C135_artificial_partial",
    "Pibronic.Props.SetupMctdh.C135_paper_partial",
    "Pibronic.Props.SetupMctdh.C135_missing",
    "Pibronic.Props.SetupMctdh.C135_unreadable",
    "Pibronic.Props.SetupMctdh.C135_either_way"
   ],
   "note": "Proved for operator files that are read faithfully (the condition of C12_faithful_partial: couplings beyond the linear ones only between surfaces before the last, or within the last one) and, for the paper, with an energy that is not zero. Missing: the other files, for which C12_last_surface_refuted, C12_doubled_refuted and C08_zero_energies_refuted say what happens. The directories are taken to exist."
  }
 ]
}