# Design of the formal model of ngraymon/Pibronic

## 1. Layout

```
lean/Verif/Py/       the few Python built-ins the code leans on (str.split, str.replace, int(), format)
lean/Verif/Model/    the model: one file per Python module, definitions cite file and lines in /repo
lean/Verif/Spec/     small independent specifications used in the theorem statements
lean/Verif/Lemmas/   helper lemmas (not part of the claims)
lean/Verif/Props/    the property theorems, with `example`s showing that hypotheses are met
seeded/LOG.jsonl     wrong-program experiments: edits of the model and the theorems that failed
properties.jsonl     the English properties          (generated by tools/props.py)
MANIFEST.json        property -> theorem names, status (generated by tools/manifest.py)
```

## 2. Modelling conventions

* Python exceptions are values: functions that can raise return `Except Err α`. A function that
  always raises in Python is modelled as always returning an error; nothing is repaired.
* Objects with mutable attributes are structures; methods return the new structure. The disk is a
  function from paths to optional contents; a sequence of file operations is a list of steps so
  that "crash at any point" is "any prefix of the steps".
* Strings are `List Char`. Byte buffers are `List Char`/`List UInt8`-like lists.
* floats are modelled by the reals (or by an arbitrary field / an arbitrary scalar type where only
  storage matters). Rounding, overflow and NaN are NOT modelled: every theorem about numbers is about the
  algorithm in exact arithmetic. `np.isclose` and `np.allclose` are modelled with their tolerances
  (`Py/Close`: `|a - b| <= 1e-8 + 1e-5 * |b|`).
* numpy arrays are lists (1-d, with their length), functions on `Fin n`, or matrices.
* External programs (Slurm, Julia, ACES2, Vibron) and the random generator are arbitrary inputs:
  theorems hold for every answer they may give.

## 3. Trusted base

* Lean's kernel (4.33.0) and Mathlib's definitions; axioms `propext`, `Classical.choice`,
  `Quot.sound` only. No `sorry`, no axioms of our own, no `native_decide`/`bv_decide`.
* The reading of the Python source recorded in the model's comments. Nothing was executed.
* Contracts of libraries, stated as hypotheses or built into definitions:
  `json` is modelled at character level (`Py/Json.lean`, `Py/JsonDefault.lean`, after CPython's encoder and
  scanner); the round trip and the rejection of truncated texts are proved, `float(repr(x)) == x` is a hypothesis;
  `np.savez`/`np.load` likewise; `sha512(...).hexdigest()` is an opaque function `hash` of the text
  (assumed injective only where a theorem says so); `np.linalg.eigh` returns an orthonormal
  eigenbasis; `scipy.linalg.expm` is the matrix exponential; `glob` of a pattern with `*` matches
  `fnmatch`-wise inside one directory; `os.makedirs(exist_ok)` creates; `shutil.copyfile` copies.

## 4. Per property plan

| id | what is modelled | how it is proved |
|----|------------------|------------------|
| C01 | `_save_to_JSON`, `_load_from_JSON`, `verify_model_parameters`, `save/load_model*` over keyed dictionaries of shaped arrays, and over the text of the file | case analysis per key, for every shape and contents; character-level printer/parser round trip |
| C02 | same with the diagonal shapes | refuted by a family of witnesses (all-zero energies); partial theorem under "some energy non-zero or one surface ..." |
| C03 | verify before open; disk as function | case split on verification |
| C04 | `_load_inplace_from_JSON` incl. numpy broadcasting of `[:] =` | per key; equality with fresh load |
| C05 | `create_fake_coupled_model` on matrices over a commutative ring | matrix algebra; `charpoly` under conjugation |
| C06 | its file operations as a step list | all prefixes; second call refutes "first model kept" |
| C07 | `fill_offdiagonal...`, `remove_coupling...` | entrywise |
| C08 | composition of C01/C02/C07 | refuted by all-zero diagonal energies; partial otherwise |
| C09 | `select_pair`, `build_SKSM_and_identity`, matrix exponential | induction over the sequence; `exp` of a skew matrix is orthogonal |
| C10 | `generate_vibronic_model_data` with draws as inputs | entrywise |
| C11 | `recalculate_energy_values...` | field algebra |
| C12 | `model_op.py`: header search, line parsing, the arrays, the two symmetrising loops, the checks, `create_coupling_from_op_file` | text layout specified in Spec/OpFile; the reader is evaluated on every such text; exact outcome proved, claim refuted for second and higher order terms |
| C13 | `file_name.pimc`, `jackknife`, the extractors with Python `split` | lemmas on `split` of a unique separator; decimal round trip |
| C14 | the list extractors | sort/dedup lemmas |
| C15 | the trotter extractor | always raises: negation proved |
| C16 | `prune_results_using_hashes` | induction over the list |
| C17 | `template_pimc.format(..., J="*")` + glob matching | lemmas on literal prefixes and digits |
| C18-C21 | `FileStructure` as a state machine | path algebra, induction over call histories; C20, C21 refuted + partial |
| C22-C27 | `stats.py`, `jackknife.py` on lists of reals | finite sums |
| C28-C29 | `starmap_wrapper`, argument products, file selection | list product; C29 refuted by witness (no pruning), partial |
| C30-C38 | `pimc.py` numerics over reals: folding, weights, circulant covariance, O matrices, scaling, numerator, denominator | real analysis, matrices, cyclic sums; C38 refuted (coupling factor keeps tau) + partial |
| C39 | the block loop | interval arithmetic on naturals |
| C40-C42 | `BoxResult(PM)` load/save | induction over files; C41, C42 refuted + partial |
| C43 | `constants.py` | field algebra |
| C44 | the `;` JSON text | character-level printer/parser round trip |
| C45-C47 | `PimcSubmissionClass` | naturals arithmetic; histories; refutations + partials |
| C48-C49 | polling loop, job id parse | induction over answer streams; decimal round trip |
| C50-C52 | Julia results file as a state machine | invariant over histories; C52 refuted |
| C53-C54 | workflow state machine | induction; C53 refuted + partial |
| C55 | line skipping | induction on n |
| C56 | jackknife error bars | finite sums; textbook value refuted, factor proved |
| C57 | in-place load with other dimensions | broadcasting rules; one-surface witness |
| C58 | `model_parameters_are_the_same` style comparison | case analysis per key |
| C59-C61 | the law of a sampled path as a measure, the estimators as integrals | measure theory (Mathlib): density, strong law, limits of leave-one-out averages, Gaussian bounds, determinant of a circulant matrix |
| C62 | file names of jobs | injectivity of `format` |
| C63 | signal handling of the waiting job | event state machine, all interleavings |
| C64 | an object encodes its own members | key types of `json.dumps` |
| C65-C68 | editing and checking ACES2/heff files on text | induction over lines |
| C69-C73 | parameter file, geometry, optimised geometry, input files, orbital numbers | parser and printer round trips on text |
| C74 | generation of the stored rotation sequences | real analysis of the distance function |
| C75-C76 | the training functions with coordinates per surface | as C34; refutations by a displaced oscillator |
| C77-C79 | preparation of a `BoxData` from a directory, the wrappers | composition of the file model with the numerical model |
| C80-C84 | files, tables, percentages and curves of the plotting classes; a figure is its path and its points | invariant of the loop over files (`Filled`), one lemma for a pass over temperatures (`pass_ok`) |
| C85 | a grid figure: path, colour and text of each square | explicit list of figures, injectivity of the names |
| C86 | file names as strings, parsed with the model of `split` | separators do not occur in the parts; lists as in C14 |
| C87 | a file as absent, unreadable, not JSON or a dictionary of lists | case analysis |
| C88 | the file as a list of lines, what a Fortran format makes of a line is a parameter | induction on the loops; explicit layout as specification |
| C89 | the call structure of the reader, the counts and frequencies on lines | case analysis |
| C90 | a stage as a list of effects and an outcome; answer of sbatch as input | case analysis |
| C91 | answers of sacct, lines of the output file read through one file object | induction on the lines |
| C92 | texts printed by scontrol and sinfo | induction on the lines |
| C93 | loop over the molecules with the carried variable | induction on the list of molecules |
| C94 | the command as a text built from the parameters | rewriting to the list of words |
| C95 | paths as texts, str.replace, normpath, mv on a map from paths to contents | induction on path components |
| C96 | the commands as texts filled by str.format, split at blanks as the shell does | rewriting with lemmas on format; list of words |
| C97 | parsed options, the checks in order, main | case analysis |
| C98 | external program as a function on the files | rewriting |
| C99 | steps as a list with an outcome; files by path | case analysis |
| C100 | the directory of sequence files, all generators as functions on it, the reader | induction on the history; rewriting |
| C101 | the column of turning points as a list | induction on the samples; bounds on pi for order two |
| C102 | block loops for training data, the two writes as a list of operations, the name template held by the object | induction on the blocks; crash = prefix of the writes |
| C103 | the step as a list of all states of the disk: copies grow character by character, `mmap.move` and `mmap.write` change the file character by character, then `resize` | each file is a unit (copy, change); induction over the units: a state in the middle differs from the start only in destinations |
| C104 | output file as text with title, headings, rows, rule; `mmap.find`, `skip_forward_n_lines`, `read` with a negative length, `strip`, `splitlines`, `split` | position arguments; no early occurrence of title and rule; refuted for early rules and unreadable rows |
| C105 | `load_model` of a plain `ModelClass`, both `from_json_file` constructors over the model files of C01 | from the round trip of C01; refuted for zero terms and for the constructors |
| C106 | Hamiltonian of any vibronic model by its matrix elements between oscillator functions (`Spec/Levels.lean`), trace of its exponential in larger and larger bases, limit of many beads of the integral of `gExact` | Hermite functions are a Hilbert basis of L2; Mehler kernel for one oscillator step; the symmetric split step is a bounded self-adjoint operator, the traces of its powers are the path integrals; powers compared with exponentials of finite parts of the Hamiltonian (Peierls inequality, tightness); closed forms for constant couplings; proved |
| C107 | limits of the reported energies (C60) with the integrals in closed form | refuted for the basic analysis and for coupled surfaces; proved without coupling for the alpha analysis |
| C108 | the two conversions of `VibronicModelKeys` on ordered dictionaries, changed in place while a copy of the items is gone through | induction over the items; refuted for a second conversion |
| C109 | `main`, `test_one`, `calculate_vibronic_model_wrapper_one` on top of the state machine of C53 | case distinction on the arguments; refuted for the default stage and for data sets |
| C110 | `pos_sym_assert` on real matrices, against Mathlib's `Matrix.PosSemidef` | refuted with general and concrete matrices |
| C111 | `gExact` of a system and of the same system in another electronic basis, limit of many beads; `Confined`, `Symmetric`, `rotate` in Spec/Confined | both are compared with `gPlain`, which does not depend on the basis; bead by bead bounds in the operator norm, a Gaussian trial weight for the integral of the errors; proved |
| C112 | limit of many beads of the integral of `gExact` for every confined system | `P` and `kP` beads compared on the path with `kP` beads: Chapman-Kolmogorov for the propagators, Fubini, operator norm bounds; multiples argument for the limit; proved |
| C113 | the sampler's law, the values computed for each path, the four analyses, the trace of `exp (-β H)` over larger and larger bases | C106 bounds the distance of the expectation from the trace; the strong law of large numbers gives the mean of the samples |
| C114 | the sampler's law, the values computed for each path, the four analyses, the error they report | strong law for the squares; central limit theorem and Slutsky's theorem; Gaussian bounds on the square of one integrand over the other; for the witness a lower bound on infinitely many disjoint boxes |
| C115 | the sampler's law, the values computed for each path, the leave-one-out terms, both jackknife analyses | leaving one sample out moves the quotient by its influence over the remaining sum plus a term that vanishes; strong law for the products of the ratios; central limit theorem and Slutsky's theorem |
| C116 | the temperature of a run as any number, rounding to two decimals (half to even) where the code formats it | exact distance of the rounded value; names and keys are injective in the shown hundredths; the claim fails for equal shown decimals, with witnesses |
| C117 | what the set-up leaves in the dictionary of the class, also when it raises; creation and submission of several objects | the set-up is idempotent on its own result; two histories in which the claim fails |
| C118 | `Model/ServerJob.lean`: the sampling script from its arguments to the saved file, composed of the decoding (C44), the block loop (C39), the names (C116) and the results directory (C95); the unquoted variables of the job script are split into words | composition of C44_members_partial, the block loop's invariant and job_results; word splitting by induction |
| C119 | `Model/HeffFile.lean`: the searches, positions and line reads of the four extraction functions in the mapped bytes | the file is a list of lines, split by the first line with each title; the position after a search and a read is computed from the lengths of the lines; induction over modes, pairs and rows |
| C120 | `Model/ThermoText.lean`: the texts of thermo files, their reading and the set up of a plotting object from texts; `analyses` and `testingExecution` in `Model/Analysis.lean` | read back and rejection of prefixes from the JSON theorems; the set up agrees with that of C80 when every file is complete; induction over the analyses, with the fact that an analysis changes only thermo files (C28) |
| C121 | `Model/Examples.lean`: the tables and loops of examples/artificial_systems and examples/paper_1.5025058 | case analysis on the number; the visits are a grid, membership and count by the lemmas on grids |
| C122 | `Model/Examples.lean`: the test whether a result is there, the texts of the commands, the loops of both projects and their wrappers; `Spec/Shell.lean`: how a shell splits a command into words | the commands are computed with the theorems on `str.format`, and read back by the shell; induction over the combinations; with the theorems on the results files (C50, C51) |
| C123 | `Model/Jobs.lean`: a calculation as a sequence of reads and writes of the text of its file; a schedule chooses who acts next and how much is written | projection of a schedule on one job, invariant of the job alone; explicit schedules for the refutations |
| C124 | the same model, with schedules in which nobody acts while another job writes; rounds of submissions from the files left by the round before | invariant over schedules; the number of missing temperatures falls in each round |
| C125 | `Model/Setup.lean`: the statements of `prepare_model` as steps on the model files and stored matrices; the answers of the iterative job are inputs | composition of the steps, with the theorems on `create_fake_coupled_model` and the diagonal models |
| C126 | the same model with the iterative part | frames of each step; C11 for the energies; refutations for every input |
| C127 | `Model/Setup.lean`, the paper: directory listing in any order, `int(file.split("_R")[1]...)` on the text of the path | induction over the listing; text lemmas for `split` and `glob` |
| C128 | the same model, `prepare_paper_model_plus_iterative_method` | frames and C11 |
| C129 | `Model/ExamplesPimc.lean`: `simple_pimc_wrapper` and the loop over the data sets, on the shared dictionary of the submission class, with the text of the analytical commands | invariant of the shared dictionary over the calls (`Fit`), the theorems of C45/C46/C49 for one call, words of the shell as for C122 |
| C130 | `Model/ExamplesAnalysis.lean`: the process of a system as a state machine over the shared disk, and the program for one system | non-interference: a step reads and writes only below the directories of its own data sets (C18); induction over the schedule; simulation between the state machine and the program; C120 for the files |
| C131 | `Model/ExamplesPrepare.lean`: the loops over systems and data sets | each preparation reads and writes below the directory of its data set only (frame and congruence lemmas for every statement), directories are disjoint (C18); induction over the list; files are never removed |
| C132 | `Model/ExamplesSubmit.lean`: the loops over data sets, the command of the iterative method | what one call submits is C122; the loop by induction, stopping at the first exception; the command as the words a shell sees |
| C133 | `Model/ExamplesPlots.lean`: the three plotting programs of the example projects over the loaders and figures of C81 and C83 and the energy grids | the loops by induction; which pair is saved is the result of the loader on the disk of the site |
| C134 | `Model/ExamplesGenerate.lean`: the parameters and the two programs, on top of the generated models of C10 | bounds of the draws; save and load (C01); preparation (C125) |
| C135 | `Model/SetupMctdh.lean`: `parse_input_mctdh_files_into_directories` of both examples: the copy of the operator file, the coupled model and the models derived from it | composition of C12, C03 and C08; making the harmonic model twice changes nothing |

Nothing in the list is inexpressible; what stays outside the model is listed in section 6.

## 5. Disagreements between the properties and the code

Each line is a theorem: the claim as stated is false of the code as written, for the reason given. The
theorem names end in `_refuted` or `_partial`.

* C02, C08: a diagonal model whose energies are all zero is written without energies; the loader fills in an
  `(A, A)` array, which its own verification rejects.
* C06: a second call of the coupling generator overwrites the backup of the first model.
* C05, C11, C12, C34, C58, C75: the assertions compare with numpy's tolerance, so inputs that miss the condition by
  less are accepted. `create_fake_coupled_model` accepts a matrix that is orthonormal to this precision only and then
  changes the energies (C05_near_orthonormal); the re-weighted energies ignore quadratic terms up to 1e-8
  (C11_succeeds); couplings to the last surface up to 2e-8 are accepted from an operator file and stored with two
  different values (C12_halved_refuted).
* C58: the comparison of models is not symmetric (C58_not_symmetric), because the tolerance is relative to the second
  model; dimensions are compared in the same way, so from 100000 on different dimensions can pass (C58_many_modes).
* C12: the division loop of `read_model_op_file` reuses the variable `b` of the loop before it. Second and
  higher order terms of one surface are doubled, terms that couple to the last surface raise
  `AssertionError`. Without the header of the cubic terms the quadratic terms are lost silently. A file without
  `Zeropoint energy` (all files in examples/paper_1.5025058) cannot be read.
* C13: a capital `P` or `_T` in the directory breaks the parsers of file names (a checkout called Pibronic).
* C15: the trotter extractor applies `int()` to a list and always raises.
* C19: `change_rho` leaves `path_rho` and the templates of some results behind.
* C20: `directories_exist` tests the name of the attribute, not the directory.
* C21: hashes go stale when a file is rewritten or the rho is changed.
* C29: results of other models are averaged in, the stored hashes are never compared.
* C33: a sampling model with more surfaces than the system is accepted, with a wrong denominator.
* C38: the plus/minus values of the coupling factor use the unchanged temperature.
* C39: a remainder of the division into blocks stays NaN and is saved.
* C41: a limit that falls into a later file raises the broadcast error.
* C42: a file with the expected number of samples is refused, because numbers are compared with `is`.
* C44: strings with `;` are cut, an integer `delta_beta` is dropped.
* C45: samples that do not fill a job or a block are never computed.
* C47: the parameters of submission objects are shared through the class.
* C50: results can be stamped with stale hashes; the file of the original model carries another model's hash.
* C52: the wrapper stores `Z_rho`, the statistics read `Z_sampling`.
* C53, C54: a restart always begins with the second stage; a finished workflow raises; the template step
  returns `None`, so no run passes the coupling stage.
* C56: the jackknife error is `sqrt(n/(n-1))` times the textbook value.
* C57: a file with one surface is broadcast into a larger model without an error.
* C63: a signal between the last check and `sigwait` is lost, `SIGALRM` is unhandled.
* C64: the dictionary of an object's own members cannot be encoded.
* C65: the table of single excitations is never read, every table passes.
* C67: six characters are written over a three character placeholder.
* C68: the first line of a short output is never examined.
* C69: parameters of the previous molecule leak into the next one through the class.
* C71: an output that ends within the summary makes the reader loop for ever.
* C72: braces in a geometry title, or numerical parameters from the parameter file, break the input templates.
* C73: any answer that contains a `y` counts as yes; only the last digit of `DROPMO` is used; equal ratios are
  confused.
* C75, C76: for given coordinates the displacement of the surfaces is subtracted twice; coupled surfaces with
  different displacements are refused by the symmetry assertion; with more surfaces in the sampling model than in the
  system rho does not depend on the coordinates.
* C77: cubic and quartic terms of a model file are ignored by the calculation.
* C78: a prepared `BoxDataPM` object reports plus and minus values of the beta it had before (zero for a new object).
* C79: objects made from a directory have no hashes, so the results of a finished calculation cannot be saved.
* C81: plotting does not look at the hashes of the analytic files, and looks for `Z_sampling` and `Z_coupled`, which the
  wrapper of the external program never writes.
* C83: with more than one temperature nothing is plotted; the raw figures stop with an `AttributeError` before the heat
  capacity; `plot_sos_Z_vs_rho_n` and `plot_rectangle` always fail while loading; the comparison of two sampling models
  needs `id_rho` at most 4 and, from data set 10 on, 300 K.
* C84: `load_sos` gives an object whose file is missing the results of the previous object.
* C85: the sign of entry (a, b) is written on the square that shows entry (b, a); the number of squares with a sign is
  the number of surfaces of the sampling model.
* C87: an OSError when the sum over states file is opened is caught and ignored: stale values remain in use.
* C88: the rows of the reference Hamiltonian are read twice, so the title of the next section is taken for numbers and
  no file with the documented layout can be read.
* C89: `read_model_h_file` calls `get_number_of_electronic_states` without the path: TypeError for every pair of files.
  `create_coupling_from_op_hyperlink` always raises AssertionError. A line with one frequency is used for all modes.
* C90: `job_boss.partition` and `job_boss.hostname` are not defined: every stage raises AttributeError before submitting.
  `error.decode` is called on a text: AttributeError after an accepted submission.
* C91: `check_slurm_output` tests `"Finished" in source_file` on the file object, which compares whole lines and consumes
  the file: no content ever raises. sacct states other than FAILED pass when another line says COMPLETED.
* C92: `assert_partition_exists` looks for a part of the text: `high` passes when `highmem` is listed.
* C93: `last_state` keeps its value from the previous molecule, or is not assigned at all, for an empty state file.
* C94: `get_path_of_job_boss_directory` returns the path of the file job_boss.py, not of its directory, and
  `get_path_to_python_executable` the path of os.py: the job script and the sampling script do not exist at these paths.
* C95: on the compute canada servers the lines that move the results are commented out.
* C96: paths are put into a shell command without quotes; `prepare_julia` asks `julia -v` first, which raises
  FileNotFoundError when Julia is missing, so the module is never loaded.
* C97: the options are checked against the keys of the command dictionary, but `main` knows other names; only `sos` is in
  both. Without `-m` the method is None, not the default. `--beta` collides with the default temperature. The number of
  beads is parsed as `nbeads` but read as `beads`.
* C98: return code and error output of the iterative method are ignored.
* C99: `copyInput` joins the path of the package's file with the molecule's name and `_params.txt` as directories;
  `execute` takes two arguments but the script passes one. The copies would go to `<directory>/<name>/_zmat.txt`, the
  calculation reads `<directory>/<name>_zmat.txt`; and `path_es` has no final slash, so `path_es + name + "_vibron.h"`
  lies beside the directory (`C99_wrong_place_refuted`, `C99_result_elsewhere_refuted`).
* C100: all generators write `sequence_<order>.data`, the file the tuned matrices are made from. Data for plots of the
  norms have the Frobenius norm in the column of the arguments; data with turning points contain the word None, which
  `np.loadtxt` refuses. `generate_full_monotonic_sequence_for_plotting` calls `generate_and_save_x_pairs` without the order.
* C101: for a turning point both its distance and None are appended, which shifts all later entries by one row.
* C102: `save_gR_with_samples` leaves the template of the training input in `result.partial_name`, so a later
  `save_results` overwrites the file of coordinates; with a remainder the arrays have rows that were never computed
  (`np.empty` memory for the coordinates); the two files carry nothing that ties them to the same run.
* C103: the three inputs are not exchanged together; if the second output is missing, PNTHEFF is new and the other inputs are old (`C103_mixed_inputs`).
- C104: `_estimate_dropmo` prints `list_ev`, which is not bound when the energies cannot be read (`UnboundLocalError`); the end of the table is the first line of plus signs in the whole file, and `mmap.read` of a negative length reads everything.
- C105: `ModelClass.load_model` indexes the dictionary with terms that a model file without them does not have (`KeyError`); `ModelClass.from_json_file` passes the contents of the file as a path, `BoxData.from_json_file` passes the class twice (`TypeError`).
- C107: without alpha factors the energy of the sampling model is counted twice (`add_harmonic_contribution` adds it to a difference quotient of the full integrals); with alpha factors a constant coupling of degenerate surfaces never changes the reported energy.
- C108: `change_dictionary_keys_from_strings_to_enum_members` called on a dictionary that already has members as keys sets and then deletes every item: the dictionary is empty afterwards.
- C109: the default stage of `test_one` and of the data set wrapper is 0, `State` counts from 1: both raise `ValueError` unless a stage is given. The path of the wrapper is never formatted (`data_set_{:d}`).
- C110: `pos_sym_assert` compares entries instead of eigenvalues and calls `np.linalg.choleskys`, which does not exist.
- C114: nothing compares the frequencies of the sampling model with those of the system. When the sampling model is too stiff the ratio has no variance, and the error bar that is printed is not a standard error.
- C116: file names and keys of results show the temperature with two decimals. Runs at, say, 300.001 K and 300.004 K share their names: the analysis pools their samples, a run with the same job number overwrites the other, and both are analysed at 300.00 K.
- C117: `setup_blocks_and_jobs` changes the number of samples before it can fail with a division by zero, so that a corrected submission asks for one job; and the number of samples overall that a submission stores in the dictionary of the class makes the next object submit as many jobs as the first one.
* C118: the job scripts do not quote `${SCRATCH_DIR}`: with a blank in the directory the sampling script gets five or more arguments and stops with AssertionError (`C118_blank_refuted`).
* C118: the number of blocks is `samples // block_size`, rounded down; with a remainder the saved file states all samples and has no values for the last ones (`C118_short_refuted`).
* C119: `extract_*` of model_h.py raise NameError for every complete file, because `States` is never bound; with `States` bound by hand, modes with equal frequencies share the first block, and a frequency is found inside a longer one (`C119_unknown_surfaces_refuted`, `C119_degenerate_refuted`, `C119_part_of_text_refuted`).
* C120: a thermo file left behind by an interrupted analysis makes every later plot of the directory raise ValueError, also when it belongs to other models (`C120_one_cut_file_refuted`).
* C120: all four analyses write to the same file names, so a later one replaces the earlier; `testing_execution` leaves only the last one's (`C120_last_analysis_stays`, `C120_jackknife_lost_refuted`).
* C122: artificial_systems/submit_jobs_to_server.py:125 stands outside of the loop over the beads (`C122_one_job_for_all_beads_refuted`, `C122_job_repeated_refuted`, `C122_nothing_missing_refuted`). `_generate_original_analytic_results` calls `analytic_of_coupled_model`, which julia_wrapper.py does not have: each such job ends with AttributeError (not modelled).
* C123: julia_wrapper.py:154-173 reads, calculates for hours and writes the whole file without a lock, while submit_jobs_to_server.py starts one job for each temperature of the same file (`C123_lost_update_refuted`, `C123_old_results_lost_refuted`, `C123_half_file_refuted`, `C123_unreadable_refuted`, `C123_mixed_refuted`).
* C126, C128: setup_models.py of both examples calls `iterative_method_wrapper(id_data=FS.id_data)` without the root, so the iterative model of a data set under another root is made under the root of the server (`C126_other_root_refuted`, `C128_other_root_refuted`).
* C126: a failed run of the iterative method is not noticed (`execute_command_wrapper` only looks for `Out Of Memory`); an old iterative model is used for the new coupled model (`C126_stale_refuted`).
* C126: artificial_systems/setup_models.py:56-59 stores the single point energies in the sampling model 3 without the shift that `recalculate_energy_values_of_diagonal_model` applies (`C126_energies_partial` states what is stored).
* C127: paper_1.5025058/setup_models.py:72 takes the number after the first `_R` of the whole path (`C127_path_refuted`).
* C127: the alternate sampling models of the repository include files for number 0, which replace the diagonal that was made just before.
* C129: artificial_systems/submit_jobs_to_server.py:226 calls `julia_wrapper.analytic_of_coupled_model`; the function is called `analytic_of_original_coupled_model` (`C129_no_such_function_refuted`). The job fails on the cluster, the submitting program does not notice.
paper_1.5025058/setup_models.py:138 `automate_prepare_model` calls `prepare_paper_model`, not `prepare_paper_model_plus_iterative_method`; `systems.rho_dict` lists the sampling distribution 11 for every data set and `alternate_rhos` has no file for it, so jobs are submitted for a sampling model that the preparation never makes (`C131_iterative_missing_refuted`).
artificial_systems/submit_jobs_to_server.py:161 `assert name is "2x2"` compares objects: a name read from elsewhere is refused although it is equal (`C132_name_refuted`).
artificial_systems/submit_jobs_to_server.py:170-172 the loop ends with UnboundLocalError at the first data set whose Trotter results are all there (line 124 uses a command that was never built, see C122), so a second run after a partial success submits nothing for the later data sets (`C132_finished_set_refuted`).
paper_1.5025058/generate_z_plots.py: the pairs with the sampling distribution 11 raise KeyError for a missing label, which is swallowed; their comparison is never saved (`C133_iterative_refuted`).
generate_z_plots.py of both projects looks for `Z_sampling` and `Z_coupled`, which the programs of this package never write (C81), so that the program ends well and has saved nothing (`C133_own_results_refuted`).
paper_1.5025058/generate_plots.py: drawing the heat capacity always fails and the exception is swallowed, so no pair with results is ever reported as finished (`C133_heat_capacity_refuted`).
artificial_systems/generate_energy_plots.py has no protection around a data set, so that one missing model keeps the later data sets from being drawn (`C133_grids`).
generate_initial_model_parameters.py: the off-diagonal energies are drawn from the range of the diagonal ones, so the constant couplings are about 10 and 14 eV; not counted as a violation, the range is documented (`C134_written`).

Other defects that were met while modelling and are part of the model: `BoxData.from_json_file` passes the wrong
arguments and always raises; `read_model_h_file` calls `get_number_of_electronic_states` with one argument and
always raises `TypeError`; `create_coupling_from_op_hyperlink` asserts `False`; the header of the number of
ionisation potentials is stored under `NIP` while the code looks for `nip`; `_estimate_dropmo` is unreachable;
`select_pair` wraps around to the last entry of a sequence that starts above the wanted distance.

## 6. What is modelled and what is not

COVERAGE.md (generated by tools/coverage.py from the citations in the comments) lists, for each function of
/repo, the definitions that model it, and which functions have none. Not modelled on purpose: matplotlib
calls, logging, `argparse` mains, the execution of subprocesses (their answers are inputs), floating point
rounding, overflow and NaN arithmetic (NaN entries of arrays are modelled as absent), memory and run time, Windows line ends, non-ASCII text. `glob` patterns treat only `*` as special.
