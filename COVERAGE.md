# Functions of /repo and the definitions that model them

Generated by tools/coverage.py from the citations in the comments of the model. A definition is listed at every function whose lines it cites.
446 of 492 functions are cited.


## pibronic/constants.py

| function | lines | model |
|---|---|---|
| `beta` | 41-44 | Constants.beta |
| `extract_T_from_beta` | 47-50 | Constants.extractTFromBeta |

## pibronic/data/file_name.py

| function | lines | model |
|---|---|---|
| `execution_output` | 25-30 | FileName.executionOutput, FileName.fieldP |
| `pimc` | 41-46 | FileName.pimc, FileName.fieldP, ServerJob.shownTemperature, Temperature.resultName, TrainingFiles.Template.name |
| `jackknife` | 57-62 | FileName.jackknife, FileName.fieldP |
| `sos` | 71-76 | FileName.sos, FileName.fieldP |
| `trotter` | 85-90 | FileName.trotter, FileName.fieldP |
| `training_data_input` | 101-106 | FileName.trainingDataInput, TrainingFiles.Template.name |
| `training_data_g_output` | 117-122 | FileName.trainingDataGOutput, TrainingFiles.Template.name |
| `training_data_rho_output` | 133-138 | FileName.trainingDataRhoOutput |

## pibronic/data/file_structure.py

| function | lines | model |
|---|---|---|
| `FileStructure.from_boxdata` | 57-59 | JobScript.jobResults |
| `FileStructure.__init__` | 61-138 | FileStructure.FS, FileStructure.initFS, FileStructure.dirList, FileStructure.new, FileStructure.construct, JobScript.pathRho, JobScript.pathRhoResults |
| `FileStructure.directories_exist` | 140-144 | FileStructure.FS.directoriesExist |
| `FileStructure.make_directories` | 146-154 | FileStructure.FS.dirValues, FileStructure.FS.makeDirectories |
| `FileStructure.make_rho_directories` | 156-171 | FileStructure.FS.makeRhoDirectories |
| `FileStructure.change_rho` | 173-202 | FileStructure.FS.changeRho, Setup.atRho |
| `FileStructure.verify_directories_exists` | 204-217 | FileStructure.verifyDirectoriesExists |
| `FileStructure._has_vib_hash` | 219-221 | — |
| `FileStructure._has_rho_hash` | 223-225 | — |
| `FileStructure._has_hash_values` | 227-229 | — |
| `FileStructure.generate_model_hashes` | 231-240 | FileStructure.FS, FileStructure.FS.generateModelHashes, Plotting.initOne |
| `FileStructure.valid_vib_hash` | 242-245 | FileStructure.validHash |
| `FileStructure.valid_rho_hash` | 247-250 | FileStructure.validHash |
| `FileStructure.valid_vib_and_rho_hashes` | 252-253 | FileStructure.validVibAndRhoHashes |

## pibronic/data/postprocessing.py

| function | lines | model |
|---|---|---|
| `retrive_pimc_file_list` | 48-51 | Postprocessing.retrivePimcFileList |
| `retrive_jackknife_file_list` | 54-57 | Postprocessing.retriveJackknifeFileList |
| `retrive_sos_coupled_file_list` | 60-63 | Postprocessing.retriveSosCoupledFileList |
| `retrive_sos_sampling_file_list` | 66-69 | Postprocessing.retriveSosSamplingFileList |
| `retrive_all_file_paths` | 72-80 | Postprocessing.retriveAllFilePaths |
| `extract_bead_value_from_trotter_file_path` | 87-89 | Postprocessing.extractTrotter |
| `extract_trotter_paramater_list` | 92-100 | Postprocessing.extractTrotterList |
| `extract_basis_value_from_sos_file_path` | 103-105 | Postprocessing.extractBasis |
| `extract_sos_basis_paramater_list` | 108-115 | Postprocessing.extractBasisList |
| `extract_bead_value_from_pimc_file_path` | 118-120 | Postprocessing.extractBead |
| `extract_bead_paramater_list` | 123-128 | Postprocessing.extractBeadList |
| `extract_temperature_value_from_pimc_file_path` | 131-133 | Postprocessing.extractTemperature |
| `extract_temperature_paramater_list` | 136-144 | Postprocessing.extractTemperatureList |
| `extract_job_value_from_pimc_file_path` | 147-149 | Postprocessing.extractJob, Postprocessing.extractParameterLists |
| `extract_parameter_lists` | 152-157 | Postprocessing.extractParameterLists |
| `extract_bead_value_from_thermo_file_path` | 160-162 | Plotting.generateParameterLists |
| `extract_temperature_value_from_thermo_file_path` | 165-167 | Plotting.generateParameterLists, Postprocessing.extractTemperatureThermo |
| `extract_sample_value_from_thermo_file_path` | 170-172 | Plotting.generateParameterLists, Postprocessing.extractSamples |
| `prune_results_using_hashes` | 175-196 | Plotting.storedHashes, Postprocessing.keepFile, Postprocessing.pruneResultsUsingHashes, ThermoText.TextDisk.read, ThermoText.readHashes, ThermoText.TextDisk.hashes, ThermoText.fileList |
| `retrive_file_paths_for_jackknife` | 199-206 | JackknifeParameters.retriveFilePathsForJackknife |
| `extract_pimc_parameters` | 210-249 | JackknifeParameters.extractBeadSlash, JackknifeParameters.extractPimcParameters |
| `extract_jackknife_parameters` | 252-291 | JackknifeParameters.extractBeadResults, JackknifeParameters.extractJackknifeParameters |
| `load_pimc_data` | 294-310 | Postprocessing.pimcFilesFor |
| `load_analytic_data` | 313-343 | Analytic.loadAnalytic, Stats.Analytic, Temperature.analyticAt |
| `load_rho_sos_data` | 346-372 | JackknifeParameters.loadRhoSosData |

## pibronic/everything.py

| function | lines | model |
|---|---|---|
| `copyInput` | 61-75 | Julia.copyInput |
| `generate_analytical_results` | 78-100 | — |
| `execute` | 103-197 | Julia.resultFile, Julia.execute |

## pibronic/helper.py

| function | lines | model |
|---|---|---|
| `readlines` | 22-25 | OpFile.dropLines |
| `find_string_in_file` | 28-39 | Buffer.findString |
| `rfind_string_in_file` | 42-52 | Buffer.rfindString |
| `skip_back_lines` | 55-65 | Buffer.skipBack |
| `skip_forward_lines` | 68-78 | Buffer.skipForward |
| `verify_file_exists` | 85-89 | Handover.verifyFileExists |

## pibronic/julia_wrapper.py

| function | lines | model |
|---|---|---|
| `parse_ouput` | 56-69 | Analytic.parseOutput, ExamplesPimc.juliaWrapperFunctions |
| `convert_keys` | 72-89 | Analytic.convertEntry, ExamplesPimc.juliaWrapperFunctions, Temperature.calculation |
| `compute` | 92-116 | Analytic.compute, ExamplesPimc.juliaWrapperFunctions |
| `validate_old_rho_data` | 119-134 | Analytic.validate, ExamplesPimc.juliaWrapperFunctions, Jobs.validateItems |
| `validate_old_model_data` | 137-151 | Analytic.validate, ExamplesPimc.juliaWrapperFunctions, Jobs.validateItems |
| `base_func` | 154-173 | Analytic.readOld, Analytic.baseFunc, AnalyticText.contentsOf, AnalyticText.textOf, ExamplesPimc.juliaWrapperFunctions, Jobs.readItems, Jobs.Job.update, Jobs.Job.step, Jobs.State.step, Jobs.run, Jobs.Job.alone, Temperature.calculation |
| `analytic_wrapper` | 176-182 | ExamplesPimc.juliaWrapperFunctions, Julia.fields, Julia.calcCommand |
| `analytic_of_sampling_model` | 185-197 | Analytic.Method.dst, Analytic.Method.checksRho, Analytic.World.source, ExamplesPimc.juliaWrapperFunctions, Julia.dictKey, Julia.calcCommand |
| `analytic_of_original_coupled_model` | 200-212 | Analytic.Method.dst, Analytic.Method.checksRho, Analytic.World.source, ExamplesPimc.juliaWrapperFunctions, Julia.dictKey, Julia.calcCommand |
| `sos_wrapper` | 215-221 | Analytic.World.source, ExamplesPimc.juliaWrapperFunctions, Julia.fields, Julia.calcCommand |
| `sos_of_coupled_model` | 224-236 | Analytic.Method.dst, Analytic.Method.checksRho, ExamplesPimc.juliaWrapperFunctions, Julia.dictKey, Julia.calcCommand |
| `trotter_wrapper` | 239-246 | Analytic.World.source, ExamplesPimc.juliaWrapperFunctions, Julia.fields, Julia.calcCommand |
| `trotter_of_coupled_model` | 249-261 | Analytic.Method.dst, Analytic.Method.checksRho, ExamplesPimc.juliaWrapperFunctions, Julia.dictKey, Julia.calcCommand |
| `iterate_method` | 264-283 | ExamplesPimc.juliaWrapperFunctions, Julia.iterateCommand, Julia.iterateMethod, Setup.iterativeWrapper |
| `prepare_julia` | 286-297 | ExamplesPimc.juliaWrapperFunctions, Julia.prepareJulia |
| `construct_command_dictionary` | 300-367 | ExamplesPimc.juliaWrapperFunctions, Julia.juliaPath, Julia.commandDict, Julia.commandTemplate |
| `main` | 370-400 | ExamplesPimc.juliaWrapperFunctions, Julia.main |

## pibronic/log_conf.py

| function | lines | model |
|---|---|---|
| `MyLogger.flow` | 23-25 | — |
| `MyLogger.lock` | 27-29 | — |

## pibronic/pimc/pimc.py

| function | lines | model |
|---|---|---|
| `TemperatureDependentClass.__init__` | 61-89 | PIMC.Consts, PIMC.consts |
| `ModelClass.__init__` | 103-109 | Loading.loadFirst |
| `ModelClass.from_json_file` | 112-116 | Loading.modelFromFile |
| `ModelClass.load_model` | 118-149 | Loading.loadFirst, PIMC.Vib, Prepare.loadVib |
| `ModelVibronic.__init__` | 154-170 | PIMC.Vib, Prepare.template, Prepare.Engine |
| `ModelVibronic.compute_linear_displacement` | 172-177 | PIMC.Vib.delta |
| `ModelVibronic.compute_weight_for_each_state` | 179-187 | — |
| `ModelVibronic.optimize_energy` | 189-201 | — |
| `ModelVibronic.initialize_TDP_object` | 203-206 | Prepare.Engine |
| `ModelVibronic.finish_folding_in_terms` | 208-218 | PIMC.Vib.shift, PIMC.Vib.folded |
| `ModelVibronic.precompute` | 220-235 | PIMC.Vib.consts |
| `ModelVibronicPM.__init__` | 246-249 | Prepare.preprocessBase |
| `ModelVibronicPM.initialize_TDP_object` | 251-258 | Prepare.Engine, Prepare.preprocessBase |
| `ModelVibronicPM.precompute` | 261-269 | Prepare.Engine, Prepare.preprocessBase |
| `ModelSampling.__init__` | 274-280 | — |
| `ModelSampling.load_model` | 282-324 | PIMC.Rho, Prepare.loadRho |
| `ModelSampling.draw_sample` | 326-334 | Results.blockStep, Sampling.sampleLaw |
| `ModelSampling.compute_linear_displacement` | 336-339 | PIMC.Rho.delta, PIMC.Rho.rawWeight |
| `ModelSampling.compute_weight_for_each_state` | 341-351 | PIMC.Rho.rawWeight, PIMC.Rho.weight |
| `ModelSampling.optimize_energy` | 353-365 | — |
| `ModelSampling.initialize_TDP_object` | 367-370 | — |
| `ModelSampling.finish_folding_in_terms` | 372-381 | PIMC.Rho.shift |
| `ModelSampling.compute_sampling_constants` | 383-406 | PIMC.Rho.consts, PIMC.invCov, PIMC.stdDev, Sampling.sampleLaw |
| `ModelSampling.precompute` | 409-424 | PIMC.Rho.consts, Prepare.Data, Prepare.Data.new |
| `BoxData.from_FileStructure` | 472-485 | Prepare.fromFileStructure |
| `BoxData.build` | 488-493 | — |
| `BoxData.from_json_file` | 496-500 | Loading.boxFromFile |
| `BoxData.from_json_string` | 503-507 | — |
| `BoxData.__init__` | 509-510 | — |
| `BoxData.json_serialize` | 513-515 | JobParams.jsonSerialize |
| `BoxData.encode_self` | 517-540 | JobParams.encodeSelf |
| `BoxData.load_json_string` | 543-593 | JobParams.betaOf, JobParams.tauOf, JobParams.readBeta, JobParams.readTau, JobParams.deltaBetaOf, JobParams.fillPaths, JobParams.readParams, JobParams.decode, JobParams.loadJsonString |
| `BoxData.draw_sample` | 595-600 | — |
| `BoxData.generate_random_R_values` | 602-611 | Training.shifted, TrainingFiles.gStep |
| `BoxData.transform_sampled_coordinates` | 613-631 | PIMC.transform, Results.blockStep, Sampling.sampleLaw, Training.sameForAll |
| `BoxData.initialize_models` | 633-645 | PIMC.transform, Sampling.sampleLaw, Training.sameForAll |
| `BoxData.preprocess` | 647-692 | PIMC.circulant, Prepare.Data, Prepare.Data.new, Prepare.preprocessBase, Sampling.circulantEig |
| `BoxDataPM.__init__` | 703-712 | Prepare.preprocessBase |
| `BoxDataPM.initialize_models` | 714-726 | Prepare.preprocessBase, Prepare.preprocess |
| `BoxDataPM.preprocess` | 728-738 | Prepare.preprocess |
| `BoxResult.read_number_of_samples` | 752-755 | Results.Box |
| `BoxResult.verify_result_keys_are_present` | 758-763 | Results.Box, Results.keysPresent |
| `BoxResult.result_keys_are_present_in` | 766-771 | Results.Box, Results.keysPresent |
| `BoxResult.initialize_arrays` | 773-776 | Results.Box, Results.initializeArrays |
| `BoxResult.__init__` | 778-798 | Results.Box, Results.DataInfo, Results.init, ServerJob.shownTemperature, Temperature.runBox, TrainingFiles.Template.name |
| `BoxResult.compute_path_to_file` | 800-817 | Results.computePathToFile, ServerJob.samplingMain, TrainingFiles.pathOf |
| `BoxResult.save_results` | 819-835 | Results.saveResults, TrainingFiles.saveResults |
| `BoxResult.load_results` | 837-851 | Results.loadResults |
| `BoxResult.load_multiple_results` | 853-912 | Results.copyLoop, Results.scanLoop, Results.loadMultiple |
| `BoxResultPM.verify_result_keys_are_present` | 921-927 | Results.Box, Results.keysPresent |
| `BoxResultPM.result_keys_are_present_in` | 930-935 | Results.Box, Results.keysPresent |
| `BoxResultPM.initialize_arrays` | 937-941 | Results.Box, Results.initializeArrays |
| `BoxResultPM.__init__` | 943-946 | Results.Box |
| `BoxResultPM.save_results` | 948-964 | Results.saveResults |
| `BoxResultPM.load_results` | 966-973 | Results.saveResults, Results.loadResults |
| `BoxResultPM.load_multiple_results` | 975-1040 | Results.copyLoop, Results.scanLoop, Results.loadMultiple |
| `pos_sym_assert` | 1043-1059 | PosSym.posSymAssert |
| `scale_o_matrices` | 1062-1066 | PIMC.scaleO |
| `un_scale_o_matrices` | 1069-1073 | PIMC.unscaleO |
| `build_scaling_factors` | 1076-1084 | PIMC.amax, PIMC.scaling |
| `build_o_matrix` | 1087-1129 | PIMC.oRaw, PIMC.buildO, Training.buildOT, Training.selectCoords |
| `build_denominator` | 1132-1136 | PIMC.denominator |
| `diagonalize_coupling_matrix` | 1139-1174 | PIMC.coupling, PIMC.diagonalize, Training.couplingT, Training.diagonalizeT |
| `build_numerator` | 1177-1213 | PIMC.mMatrix, PIMC.numerator |
| `block_compute_gR` | 1216-1247 | Training.gUnscaled, Training.computeG |
| `save_gR_with_samples` | 1250-1270 | TrainingFiles.Template.name, TrainingFiles.Disk, TrainingFiles.saveOps |
| `block_compute_rhoR_from_input_samples` | 1273-1302 | Training.shifted, Training.computeRhoRaw, TrainingFiles.rhoStep, TrainingFiles.rhoLoop |
| `block_compute_gR_from_raw_samples` | 1305-1338 | Training.gUnscaled, Training.computeGRaw, TrainingFiles.gStep, TrainingFiles.computeGR |
| `block_compute` | 1341-1385 | PIMC.compute, Results.blockStep, Results.blockCompute |
| `block_compute_pm` | 1388-1462 | PIMC.computePM, Results.blockStep, Results.blockCompute |
| `simple_wrapper` | 1465-1497 | Prepare.calculate |
| `plus_minus_wrapper` | 1500-1535 | Prepare.calculate |

## pibronic/plotting/grid_plots.py

| function | lines | model |
|---|---|---|
| `plotGrids.__init__` | 28-32 | — |
| `plotGrids.load_original_models` | 34-39 | Grids.ModelFile |
| `plotGrids.load_coupled_models` | 41-46 | Grids.ModelFile |
| `plotGrids.prepare_data` | 48-52 | — |
| `plotGrids.load_data` | 54-59 | — |
| `plotGrids.annotate_intensity_grid` | 61-91 | Grids.annotate |
| `plotGrids.generate_sign_array` | 93-99 | Grids.signMark |
| `plotGrids.plot_single_energy_grid` | 101-113 | Grids.singleGrid |
| `plotGrids.plot_original_energy_grid` | 115-121 | Grids.energyTask |
| `plotGrids.plot_coupled_energy_grid` | 123-129 | Grids.energyTask |
| `plotGrids.plot_energy` | 131-139 | Grids.plotEnergy |
| `plotGrids.plot_single_linear_grid` | 141-153 | — |
| `plotGrids.plot_original_linear_grids` | 155-162 | Grids.linearTasks |
| `plotGrids.plot_coupled_linear_grids` | 164-171 | Grids.linearTasks |
| `plotGrids.plot_linear_coupling` | 173-187 | Grids.plotLinear |
| `plotGrids.plot_single_quadratic_grid` | 189-201 | — |
| `plotGrids.plot_original_quadratic_grids` | 203-210 | Grids.quadraticTasks |
| `plotGrids.plot_coupled_quadratic_grids` | 212-219 | Grids.quadraticTasks |
| `plotGrids.plot_quadratic_coupling` | 221-235 | Grids.plotQuadratic |

## pibronic/plotting/plotting.py

| function | lines | model |
|---|---|---|
| `load_analytical_original` | 23-38 | Plotting.loadAnalytical |
| `load_analytical_sampling` | 41-56 | Plotting.loadAnalytical |
| `load_sos` | 59-76 | Plotting.sosData, Plotting.sosEntry, Plotting.loadSos |
| `load_trotter_coupled` | 79-120 | Plotting.trotterKeys, Plotting.trotterValue, Plotting.loadTrotter |
| `generate_tau_values` | 124-129 | Plotting.tauValues |
| `plot_Z_multiple_FS.generate_file_lists` | 135-142 | Plotting.fileList, ThermoText.fileList |
| `plot_Z_multiple_FS.generate_parameter_lists` | 144-165 | Plotting.generateParameterLists |
| `plot_Z_multiple_FS.__init__` | 167-174 | Plotting.initMany |
| `plot_Z_multiple_FS.load_pimc_data` | 176-222 | Plotting.fields, Plotting.setFields, Plotting.place, Plotting.loadPimcData, ThermoText.readThermo, ThermoText.TextDisk.read |
| `plot_Z_multiple_FS.load_data` | 224-227 | Plotting.loadPimcData |
| `plot_original_Z_test.generate_file_lists` | 234-240 | Plotting.fileList, ThermoText.fileList |
| `plot_original_Z_test.generate_parameter_lists` | 242-265 | Plotting.generateParameterLists |
| `plot_original_Z_test.__init__` | 267-270 | Plotting.initOne, ThermoText.initOne |
| `plot_original_Z_test.load_pimc_data` | 272-302 | Plotting.fields, Plotting.setFields, Plotting.place, Plotting.loadPimcData, ThermoText.readThermo, ThermoText.TextDisk.read |
| `plot_original_Z_test.load_analytical_data` | 304-323 | Plotting.loadAnalytical |
| `plot_original_Z_test.prepare_data` | 325-343 | Plotting.Table.percent, Plotting.scaleAll, Plotting.percentAll, Plotting.loadOriginal |
| `plot_original_Z_test.load_data` | 345-350 | Plotting.loadOriginal |
| `plot_original_Z_test.generate_tau_values` | 353-358 | Plotting.tauValues |
| `plot_original_Z_test.plot_Z` | 360-421 | Plotting.curvesAt, Plotting.drawOriginal |
| `plot_original_Z_test.plot` | 423-432 | Plotting.drawOriginal |
| `plot_original_Z_vs_diagonal_test.__init__` | 440-443 | Plotting.initTwo |
| `plot_original_Z_vs_diagonal_test.load_analytical_data` | 445-448 | Plotting.loadVersus |
| `plot_original_Z_vs_diagonal_test.prepare_data` | 450-481 | Plotting.Table.percent, Plotting.scaleAll, Plotting.percentEach, Plotting.loadVersus |
| `plot_original_Z_vs_diagonal_test.load_data` | 483-488 | Plotting.loadVersus |
| `plot_original_Z_vs_diagonal_test.generate_tau_values` | 491-496 | Plotting.tauValues |
| `plot_original_Z_vs_diagonal_test.plot_Z` | 498-639 | Plotting.versusCurve, Plotting.insetCurve, Plotting.InsetFigure, Plotting.drawInset, Plotting.drawVersus |
| `plot_original_Z_vs_diagonal_test.plot` | 641-650 | Plotting.drawVersus |
| `plot_sos_Z_vs_rho_n.__init__` | 656-659 | Plotting.initTwo |
| `plot_sos_Z_vs_rho_n.prepare_data` | 661-692 | Plotting.scaleAll, Plotting.loadSosVersus |
| `plot_sos_Z_vs_rho_n.load_data` | 694-699 | Plotting.loadSosVersus |
| `plot_sos_Z_vs_rho_n.plot_Z` | 701-854 | — |
| `plot_sos_Z_vs_rho_n.plot` | 856-865 | — |
| `plot_rectangle.__init__` | 870-873 | — |
| `plot_rectangle.prepare_data` | 875-916 | Plotting.loadRectangle |
| `plot_rectangle.load_data` | 918-925 | Plotting.loadRectangle |
| `plot_rectangle.generate_tau_values` | 928-933 | Plotting.tauValues |
| `plot_rectangle.plot_Z` | 935-937 | — |
| `plot_rectangle.plot` | 939-947 | — |
| `plot_Z_test.generate_file_lists` | 953-959 | Plotting.fileList, ThermoText.fileList |
| `plot_Z_test.generate_parameter_lists` | 961-984 | Plotting.generateParameterLists |
| `plot_Z_test.__init__` | 986-989 | Plotting.initOne, ThermoText.initOne |
| `plot_Z_test.load_data` | 991-1022 | Plotting.fields, Plotting.setFields, Plotting.place, Plotting.loadPimcData, ThermoText.readThermo, ThermoText.TextDisk.read |
| `plot_Z_test.plot_Z` | 1024-1055 | Plotting.curvesAt, Plotting.drawTest |
| `plot_Z_test.plot_E` | 1057-1088 | Plotting.drawTest |
| `plot_Z_test.plot_Cv` | 1090-1121 | Plotting.drawTest |
| `plot_Z_test.plot` | 1123-1133 | Plotting.plotTest |

## pibronic/plotting/prepare.py

| function | lines | model |
|---|---|---|
| `prepare_mpl_rc_file` | 13-30 | — |
| `load_latex_module_on_server` | 33-40 | — |

## pibronic/plotting/virtual.py

| function | lines | model |
|---|---|---|
| `plotVirtual.generate_file_lists` | 17-19 | — |
| `plotVirtual.generate_parameter_lists` | 21-38 | — |
| `plotVirtual.validate_data` | 40-41 | — |
| `plotVirtual.__init__` | 43-60 | Plotting.initOne, ThermoText.initOne |

## pibronic/server/job_boss.py

| function | lines | model |
|---|---|---|
| `get_path_to_python_executable` | 31-33 | JobScript.pythonExecutable, Slurm.jobBossNames |
| `get_path_of_job_boss_directory` | 36-38 | JobScript.jobBossDirectory, Slurm.jobBossNames |
| `subprocess_submit_asynch_wrapper` | 41-46 | Slurm.jobBossNames |
| `subprocess_run_wrapper` | 49-56 | Slurm.Completed, Slurm.jobBossNames |
| `get_hostname` | 59-68 | Slurm.clusterName, Slurm.getHostname, Slurm.jobBossNames |
| `SIGUSR1_handle` | 71-86 | JobBoss.runHandler, Slurm.jobBossNames |
| `check_acct_state` | 89-93 | Slurm.waitOnResults, Slurm.jobBossNames |
| `check_running_state` | 96-100 | Slurm.jobBossNames |
| `synchronize_with_job` | 103-139 | JobBoss.pollLoop, JobBoss.synchronize, JobBoss.Pc, Slurm.jobBossNames |
| `check_slurm_output` | 142-165 | Slurm.slurmVerdict, Slurm.checkSlurmOutput, Slurm.jobBossNames |
| `extract_id_job_from_output` | 168-178 | JobBoss.extractIdJob, Slurm.jobBossNames |
| `submit_job` | 181-193 | Slurm.submitJob, Slurm.jobBossNames |
| `assert_partition_exists` | 196-202 | Slurm.assertPartitionExists, Slurm.jobBossNames |
| `serialize_BoxData_dictionary` | 205-209 | Slurm.jobBossNames |
| `prepare_job_feynman` | 212-269 | JobBoss.jobName, JobParams.executionParameters, Slurm.jobBossNames |
| `prepare_job_nlogn` | 272-329 | JobBoss.jobName, JobBoss.nodeHost, JobParams.executionParameters, JobScript.Family.dir, JobScript.copyFrom, JobScript.exportOptions, JobScript.partitionOption, JobScript.command, Slurm.jobBossNames |
| `prepare_job_compute_canada` | 332-385 | JobBoss.jobName, JobBoss.nodeHost, JobParams.executionParameters, JobScript.Family.dir, JobScript.copyFrom, JobScript.exportOptions, JobScript.partitionOption, JobScript.accountOption, Slurm.jobBossNames |
| `prepare_job_orca` | 388-394 | JobBoss.nodeHost, Slurm.jobBossNames |
| `prepare_job_graham` | 397-403 | JobBoss.nodeHost, Slurm.jobBossNames |
| `SubmissionClass.prepare_paths` | 449-462 | ExamplesPimc.pathsOf, JobBoss.SubCls, JobBoss.Obj, JobScript.pathScratch, Slurm.jobBossNames |
| `SubmissionClass.__init__` | 464-475 | JobBoss.Obj, JobBoss.createObj, Slurm.jobBossNames |
| `SubmissionClass.verify_hostname_is_valid` | 477-485 | JobBoss.nodeHost, Slurm.jobBossNames |
| `SubmissionClass.construct_job_command` | 487-490 | JobBoss.nodeHost, Slurm.jobBossNames |
| `PimcSubmissionClass.prepare_paths` | 530-532 | JobBoss.SubCls |
| `PimcSubmissionClass.__init__` | 534-536 | JobBoss.SubCls |
| `PimcSubmissionClass.setup_blocks_and_jobs` | 538-570 | JobBoss.setup, JobBoss.setupBlocksAndJobs |
| `PimcSubmissionClass.submit_jobs` | 572-611 | JobBoss.prepareJob, JobBoss.submitMany, JobBoss.submitPairs, JobBoss.submitJobs, JobBoss.submitObj |
| `PimcSubmissionClass.submit_job_array` | 613-633 | — |

## pibronic/stats/jackknife.py

| function | lines | model |
|---|---|---|
| `calculate_alpha_jackknife_terms` | 14-57 | Stats.calculateAlphaJackknifeTerms |
| `calculate_jackknife_term` | 60-70 | Stats.calculateJackknifeTerm |
| `calculate_jackknife_terms` | 73-74 | Stats.calculateJackknifeTerms |
| `estimate_jackknife` | 77-105 | Stats.JkEstimate, Stats.estimateJackknife, ThermoText.jkItems |

## pibronic/stats/stats.py

| function | lines | model |
|---|---|---|
| `calculate_basic_property_terms` | 38-55 | Sampling.storedRatio, Stats.calculateBasicPropertyTerms |
| `calculate_alpha_terms` | 58-81 | Stats.AlphaTerms, Stats.calculateAlphaTerms |
| `basic_estimate_Z_monte_carlo` | 84-90 | Stats.basicEstimateZ |
| `basic_estimate_internal_energy` | 93-97 | Stats.basicEstimateE |
| `basic_estimate_heat_capacity` | 100-106 | Stats.basicEstimateCv |
| `estimate_basic_properties` | 109-123 | Stats.Estimate, Stats.estimateBasicProperties, ThermoText.estimateItems |
| `add_harmonic_contribution` | 126-130 | Stats.addHarmonic, Stats.addHarmonicJk |
| `apply_parameter_restrictions` | 133-144 | — |
| `starmap_wrapper` | 148-179 | Analysis.Op.run, Analysis.Thermo, Analysis.analyse, Analysis.starmapWrapper, ExamplesAnalysis.step, ThermoText.thermoText, ThermoText.TextDisk.write |
| `basic_statistical_analysis` | 182-196 | Analysis.Op, Stats.Samples, Stats.Analytic, Stats.basicStatisticalAnalysis |
| `alpha_statistical_analysis` | 199-216 | Analysis.Op, Stats.Analytic, Stats.alphaStatisticalAnalysis |
| `statistical_analysis_of_pimc` | 219-264 | Analysis.plan, Analysis.chooseOp, Analysis.analysisOfPimc, ExamplesAnalysis.step |
| `basic_jackknife_analysis` | 271-299 | Analysis.Op, Stats.Output, Stats.basicJackknifeAnalysis, ThermoText.statItems |
| `alpha_jackknife_analysis` | 302-333 | Analysis.Op, Stats.Output, Stats.alphaJackknifeAnalysis, ThermoText.statItems |
| `jackknife_analysis_of_pimc` | 336-377 | Analysis.plan, Analysis.chooseOp, ExamplesAnalysis.step |
| `testing_execution` | 380-386 | Analysis.testingExecution |
| `main` | 389-396 | Analysis.testingExecution |

## pibronic/vibronic/electronic_structure.py

| function | lines | model |
|---|---|---|
| `State.max` | 44-45 | Workflow.Stage.max |
| `State.min` | 48-49 | — |
| `find_string_in_file` | 114-124 | Buffer.findString |
| `rfind_string_in_file` | 127-137 | Buffer.rfindString |
| `skip_back_n_lines` | 140-148 | Buffer.skipBack |
| `skip_forward_n_lines` | 151-159 | Buffer.skipForward |
| `pretty_print_job_status` | 194-222 | Slurm.lastState, Slurm.reportLoop, Slurm.report |
| `verify_file_exists` | 225-229 | Handover.verifyFileExists |
| `pairwise` | 232-236 | Inputs.isYes |
| `get_yes_no_from_user` | 239-250 | Inputs.isYes, Inputs.getInteger |
| `get_integer_from_user` | 253-268 | Inputs.getInteger |
| `wait_on_results` | 271-292 | Slurm.waitOnResults |
| `verify_aces2_completed` | 295-321 | Buffer.verifyCompleted, Buffer.acesMarker |
| `submit_job` | 324-354 | Slurm.esSubmitJob |
| `parse_input_parameters` | 358-398 | — |
| `hartree_fock_calculation` | 401-460 | Inputs.hfInput, Slurm.stage |
| `temp_file_path` | 461-463 | — |
| `_estimate_dropmo` | 466-546 | Inputs.askUntil, Inputs.confirm, Inputs.guessDropmo, Inputs.dropmoString, Orbitals.orbitalTitle, Orbitals.orbitalRule, Orbitals.orbitalLines, Orbitals.energyOf, Orbitals.energiesOf, Orbitals.estimateDropmo |
| `_extract_lines_for_estimating_NIP` | 549-573 | Orbitals.orbitalTitle, Orbitals.orbitalRule, Orbitals.orbitalLines |
| `_guess_NIP_value` | 576-611 | Inputs.guessNip, Orbitals.energyOf, Orbitals.energiesOf |
| `_estimate_NIP` | 614-647 | Inputs.askUntil, Inputs.confirm, Inputs.dropmoOf, Inputs.estimateNip, Orbitals.estimateNipOf |
| `parse_hartree_fock_output` | 650-676 | Workflow.parseNip |
| `geometry_optimization` | 679-735 | Inputs.optInput, Molecule.parseOpt, Slurm.stage |
| `parse_opt_output` | 738-817 | Molecule.wordsText, Molecule.parseOpt |
| `parse_opt_output.extract_internal` | 745-772 | Molecule.readBlock, Molecule.internalHeader, Molecule.geometryLines, Molecule.parseOpt |
| `parse_opt_output.extract_cartesian` | 774-810 | Molecule.readBlock, Molecule.internalHeader, Molecule.wordsText, Molecule.parseOpt |
| `vibrational_frequency` | 820-880 | Inputs.vibInput, Slurm.stage |
| `ip_calculation` | 883-943 | Inputs.ipInput, Slurm.stage |
| `parse_ip_output` | 946-992 | Buffer.verifySingles |
| `parse_ip_output.verify_percent_singles` | 953-990 | Buffer.readRows, Buffer.percentOf, Buffer.ipHeader, Buffer.verifySingles |
| `verify_ip_states` | 995-1015 | Buffer.reduceStates, Workflow.advanceFromIp, Workflow.afterIp, Workflow.verifyIp |
| `_create_template` | 1018-1043 | Buffer.reduceStates, Inputs.prepInput, Workflow.createTemplate |
| `prepVibron_calculation` | 1046-1093 | Slurm.stage, Workflow.prepCalculation |
| `_remove_extra_heff` | 1096-1175 | Buffer.removeExtraHeff, Buffer.heffTarget, Handover.removeExtra |
| `_copy_output_file` | 1178-1184 | Handover.copyOutput |
| `_add_nip_to_file` | 1187-1211 | Buffer.addNip, Handover.addNipTo |
| `parse_prepVibron_output` | 1214-1234 | Handover.parsePrepVibron |
| `vibron_calculation` | 1237-1270 | Slurm.stage |
| `parse_vibron_output` | 1273-1296 | Buffer.vibronMarker |
| `ZmatClass.__init__` | 1316-1346 | Molecule.newZmat |
| `ZmatClass.get` | 1348-1370 | Molecule.Zmat.get |
| `ZmatClass.set` | 1372-1401 | Molecule.overwrite, Molecule.Zmat.set |
| `VibronExecutionClass.__init__` | 1441-1456 | Julia.calculationInputs, Workflow.newJob |
| `VibronExecutionClass.record_state` | 1458-1462 | Workflow.recordState |
| `VibronExecutionClass.advance` | 1464-1486 | Workflow.touch, Workflow.nextState, Workflow.advance |
| `VibronExecutionClass.setup_zmat` | 1488-1498 | Julia.calculationInputs |
| `VibronExecutionClass._set_state_from_file` | 1500-1541 | Workflow.scanLines, Workflow.stateFromFile |
| `VibronExecutionClass.parse_input_parameters` | 1543-1587 | Molecule.readLines, Molecule.readParameters, Workflow.parseInput |
| `VibronExecutionClass.hf` | 1589-1595 | Workflow.whenIn |
| `VibronExecutionClass.geom` | 1597-1602 | Workflow.whenIn |
| `VibronExecutionClass.vib` | 1604-1609 | Workflow.whenIn |
| `VibronExecutionClass.ip_calc` | 1611-1615 | Workflow.ipCalc |
| `VibronExecutionClass.prepVibron` | 1617-1622 | Workflow.whenIn |
| `VibronExecutionClass.vibron_calc` | 1624-1629 | Workflow.whenIn |
| `VibronExecutionClass.calculate_vibronic_model` | 1631-1659 | Workflow.body, Workflow.unlessFinished, Workflow.calculate |
| `test_one` | 1662-1672 | VibronMain.defaultMolecule, VibronMain.testOne |
| `calculate_vibronic_model_wrapper_one` | 1677-1686 | VibronMain.defaultMolecule, VibronMain.wrapperOne |
| `main` | 1689-1701 | VibronMain.main |

## pibronic/vibronic/model_auto.py

| function | lines | model |
|---|---|---|
| `read_header` | 26-38 | OldFormats.readHeader |
| `fill_in_excitation_energies` | 41-44 | OldFormats.energies |
| `fill_in_linear_couplings` | 47-53 | OldFormats.block |
| `fill_in_diagonal_quadratic_couplings` | 56-62 | OldFormats.block, OldFormats.quadraticBefore |
| `fill_in_offdiagonal_quadratic_couplings` | 65-77 | OldFormats.plainBlock, OldFormats.quadraticBefore, OldFormats.quadraticAfter |
| `confirm_symmetry_in_surfaces` | 80-86 | OldFormats.confirmed |
| `confirm_symmetry_in_modes` | 89-94 | OldFormats.confirmed |
| `read_model_auto_file` | 97-201 | OldFormats.autoLines, OldFormats.frequency, OldFormats.readAutoLines, OldFormats.readModelAutoFile |

## pibronic/vibronic/model_h.py

| function | lines | model |
|---|---|---|
| `get_number_of_electronic_states` | 16-32 | OldFormats.numberOfStates |
| `get_number_of_normal_modes` | 35-64 | OldFormats.labelled, OldFormats.numberOfModes |
| `extract_normal_mode_frequencies` | 67-85 | OldFormats.hFrequencies |
| `extract_energies` | 88-111 | HeffFile.setRow, HeffFile.titleReference, HeffFile.titleLinear, HeffFile.extractEnergies |
| `extract_linear_couplings` | 114-145 | HeffFile.setRow, HeffFile.rowsAt, HeffFile.blockAt, HeffFile.titleLinear, HeffFile.titleQuadratic, HeffFile.extractBlocks, HeffFile.extractLinear |
| `extract_quadratic_couplings` | 148-179 | HeffFile.setRow, HeffFile.rowsAt, HeffFile.blockAt, HeffFile.titleQuadratic, HeffFile.titleOffdiag, HeffFile.extractBlocks, HeffFile.extractQuadratic |
| `extract_offdiag_quadratic_couplings` | 182-226 | HeffFile.setRow, HeffFile.rowsAt, HeffFile.blockAt, HeffFile.titleOffdiag, HeffFile.titleCubic, HeffFile.pairsWith, HeffFile.pairs, HeffFile.extractOffdiag |
| `extract_cubic_couplings` | 229-231 | HeffFile.extractHigher |
| `extract_quartic_couplings` | 234-236 | HeffFile.extractHigher |
| `read_model_h_file` | 239-322 | OldFormats.readModelHFile |

## pibronic/vibronic/model_op.py

| function | lines | model |
|---|---|---|
| `extract_energies` | 20-54 | OpFile.region, OpFile.valueLine, OpFile.energies |
| `extract_normal_mode_frequencies` | 57-91 | OpFile.valueLine, OpFile.frequencies |
| `extract_linear_couplings` | 94-122 | OpFile.couplingLines, OpFile.assign, OpFile.assignAll, OpFile.linear |
| `extract_quadratic_couplings` | 125-157 | OpFile.optional, OpFile.quadratic |
| `extract_cubic_couplings` | 160-192 | OpFile.optional, OpFile.cubic |
| `extract_bicubic_couplings` | 195-228 | OpFile.expandB3, OpFile.bicubic |
| `extract_quartic_couplings` | 231-265 | OpFile.quartic |
| `extract_biquartic_couplings` | 268-309 | OpFile.expandB4, OpFile.expandA4, OpFile.biquartic |
| `read_model_op_file` | 312-421 | OpFile.symStep, OpFile.fixLinear, OpFile.fixHigher, OpFile.SurfacesOk, OpFile.ModesOk, OpFile.Arrays.array, OpFile.keepNonzero, OpFile.Arrays.toDict, OpFile.finish, OpFile.readArrays, OpFile.readOp |

## pibronic/vibronic/orthonormal/create.py

| function | lines | model |
|---|---|---|
| `create_orthonormal_matrix_lambda_close_to_identity` | 14-37 | Orthonormal.create, Sequences.create |
| `main` | 40-50 | — |

## pibronic/vibronic/orthonormal/sequences.py

| function | lines | model |
|---|---|---|
| `difference_function` | 89-91 | Orthonormal.distance |
| `check_minimum_length_of_sequence` | 94-98 | Orthonormal.saveSequence |
| `path_to_x_pair_file` | 101-106 | Sequences.Dir |
| `path_to_sequence_file` | 109-114 | Orthonormal.Files, Sequences.Dir |
| `load_sequence` | 117-124 | Orthonormal.Files, Orthonormal.loadSequence, Sequences.numbers, Sequences.loadRows |
| `save_sequence` | 127-133 | Orthonormal.saveSequence, Sequences.saveRows |
| `select_pair` | 136-157 | Orthonormal.selectLoop, Orthonormal.selectPair, Sequences.firstTwo |
| `build_SKSM_and_identity` | 160-171 | Orthonormal.upperTri, Orthonormal.sksm, Orthonormal.buildSKSM |
| `find_first_turn_around_point` | 174-192 | Sequences.firstTurn |
| `generate_monotonic_sequence_to_first_turn_around` | 195-210 | Orthonormal.distance, Sequences.firstRows, Sequences.run |
| `generate_and_save_x_pairs` | 213-223 | Orthonormal.pairUp, Orthonormal.xPairs, Sequences.savePairs |
| `list_of_turning_points` | 226-255 | Orthonormal.turnStep, Orthonormal.turningPoints |
| `generate_full_monotonic_sequence` | 258-314 | Orthonormal.findBest, Orthonormal.prune, Orthonormal.generate, Sequences.run |
| `generate_full_monotonic_sequence_for_plotting` | 317-354 | Sequences.Row, Sequences.run |
| `generate_turning_point_sequence_for_plotting` | 357-381 | Sequences.Row, Sequences.turnColumn, Sequences.turnRows, Sequences.run |
| `generate_sequences_for_plotting` | 384-409 | Sequences.Row, Sequences.normRows, Sequences.run |
| `debugging_matrix_checking_function` | 412-423 | — |
| `main` | 426-429 | — |

## pibronic/vibronic/vibronic_model_io.py

| function | lines | model |
|---|---|---|
| `model_shape_dict` | 42-56 | ModelIO.shape |
| `diagonal_model_shape_dict` | 59-73 | ModelIO.shape |
| `_array_is_symmetric_in_A` | 76-86 | ModelIO.SymMat |
| `model_parameters_are_symmetric_in_surfaces` | 89-102 | ModelIO.SymmetricInSurfaces |
| `model_parameters_are_symmetric_in_modes` | 105-131 | ModelIO.SymmetricInModes |
| `model_zeros_template_json_dict` | 134-149 | ModelIO.zerosTemplate |
| `diagonal_model_zeros_template_json_dict` | 152-167 | ModelIO.zerosTemplate |
| `verify_model_parameters` | 170-184 | ModelIO.verify |
| `verify_diagonal_model_parameters` | 187-201 | ModelIO.verify |
| `_same_model` | 204-236 | ModelIO.Model.get, ModelIO.compareKeys, ModelIO.sameModel |
| `_same_diagonal_model` | 239-266 | ModelIO.compareKeys, ModelIO.sameModel |
| `create_random_model` | 269-278 | ModelIO.generateCoupled |
| `create_random_diagonal_model` | 281-290 | ModelIO.generateDiagonal |
| `_hash` | 293-297 | — |
| `create_model_hash` | 300-314 | FileStructure.hashOfFile |
| `create_diagonal_model_hash` | 317-331 | FileStructure.hashOfFile |
| `_generate_linear_terms` | 334-340 | ExamplesGenerate.uniform, ModelIO.symmetrise |
| `_generate_quadratic_terms` | 343-350 | ModelIO.setQuadratic, ModelIO.generateQuadratic |
| `generate_vibronic_model_data` | 353-416 | ExamplesGenerate.uniform, ExamplesGenerate.displacement, ExamplesGenerate.generateInput, ModelIO.symmetrise, ModelIO.generated, ModelIO.generateCoupled, ModelIO.generateDiagonal |
| `read_model_h_file` | 419-421 | OldFormats.readModelHFile |
| `read_model_op_file` | 424-426 | — |
| `create_coupling_from_h_file` | 429-435 | OldFormats.createCouplingFromHFile |
| `create_coupling_from_op_file` | 438-444 | OpFile.createCoupling |
| `create_coupling_from_op_hyperlink` | 447-465 | OldFormats.readModelAutoFile, OldFormats.createCouplingFromOpHyperlink |
| `read_model_auto_file` | 468-470 | — |
| `_extract_dimensions_from_dictionary` | 473-477 | Prepare.dimsOf |
| `_extract_dimensions_from_file` | 480-486 | Prepare.dimsOf, Prepare.extractDims |
| `extract_dimensions_of_model` | 489-498 | Prepare.extractDims |
| `extract_dimensions_of_diagonal_model` | 501-514 | Prepare.extractDims |
| `_save_to_JSON` | 517-533 | ModelIO.toFile, ModelText.TextDisk, ModelText.fileText, ModelText.saveText |
| `save_model_to_JSON` | 536-543 | ModelIO.save, ModelText.saveText |
| `save_diagonal_model_to_JSON` | 546-553 | ModelIO.save, ModelText.saveText |
| `_load_inplace_from_JSON` | 556-572 | ModelIO.loadOneInplace, ModelIO.loadEntry, ModelIO.loadInplace, ModelText.parseText |
| `_load_from_JSON` | 575-596 | ModelIO.readMember, ModelIO.loadDict, ModelText.TextDisk, ModelText.parseText, ModelText.openText, ModelText.loadText |
| `load_model_from_JSON` | 599-623 | ModelIO.load, ModelIO.loadInplace, ModelText.loadText |
| `load_diagonal_model_from_JSON` | 626-649 | ModelIO.load, ModelText.loadText |
| `simple_single_point_energy_calculation` | 653-708 | ModelIO.minimum, ModelIO.potentialAt, ModelIO.singlePoint |
| `recalculate_energy_values_of_diagonal_model` | 711-730 | ModelIO.storedEnergies, ModelIO.Model.withEnergies, ModelIO.recalculate |
| `fill_offdiagonal_of_model_with_zeros` | 733-746 | ModelIO.zeroOffdiag, ModelIO.fillOffdiagonal |
| `remove_coupling_from_model` | 749-761 | ModelIO.removeCoupling |
| `create_harmonic_model` | 764-771 | ModelIO.createBasicDiagonal |
| `create_basic_diagonal_model` | 774-787 | ModelIO.createBasicDiagonal |
| `create_random_orthonormal_matrix` | 790-793 | — |
| `create_orthonormal_matrix_lambda_close_to_identity` | 796-799 | — |
| `create_fake_coupled_model` | 802-872 | ModelIO.einsumSurf, ModelIO.chooseU, ModelIO.createFake, ModelText.createFakeText, Setup.unitaryTransformation |
| `main` | 875-877 | — |

## pibronic/vibronic/vibronic_model_keys.py

| function | lines | model |
|---|---|---|
| `VibronicModelKeys.change_dictionary_keys_from_enum_members_to_strings` | 29-35 | KeyNames.toStringsLoop |
| `VibronicModelKeys.change_dictionary_keys_from_strings_to_enum_members` | 38-43 | KeyNames.toMembersLoop, ModelIO.readMember, ModelText.parseText, Prepare.knownKey |
| `VibronicModelKeys.key_list` | 46-49 | KeyNames.keyList |

## examples/artificial_systems/analyze_results.py

| function | lines | model |
|---|---|---|
| `simple_wrapper` | 16-22 | ExamplesAnalysis.step |
| `automate_statistical_analysis` | 25-39 | Examples.Project.visits, ExamplesAnalysis.analysisLoop, ExamplesAnalysis.automateAnalysis, ExamplesAnalysis.step |

## examples/artificial_systems/context.py

| function | lines | model |
|---|---|---|
| `choose_root_folder` | 19-34 | Examples.Project.chooseRoot |

## examples/artificial_systems/generate_energy_plots.py

| function | lines | model |
|---|---|---|
| `automate_energy_grid_plots` | 15-28 | ExamplesPlots.gridSet, ExamplesPlots.gridLoop, ExamplesPlots.automateGrids |

## examples/artificial_systems/generate_initial_model_parameters.py

| function | lines | model |
|---|---|---|
| `generate_input_file` | 41-47 | ExamplesGenerate.generateInput |

## examples/artificial_systems/generate_z_plots.py

| function | lines | model |
|---|---|---|
| `automate_simple_z_plots` | 15-34 | Examples.Project.visits, ExamplesPlots.versusPair, ExamplesPlots.versusLoop, ExamplesPlots.automateVersus |

## examples/artificial_systems/setup_models.py

| function | lines | model |
|---|---|---|
| `setup_sampling_distributions` | 20-69 | Setup.replaceEnergies, Setup.basicDistributions, Setup.iterativeDistributions |
| `unitary_transformation` | 72-83 | Setup.unitaryTransformation |
| `parse_input_mctdh_files_into_directories` | 86-99 | SetupMctdh.copyOp, SetupMctdh.parseArtificial |
| `copy_input_json_files_into_directories` | 102-112 | Setup.inputPath, Setup.copyInputJson |
| `prepare_model` | 115-140 | Setup.openData, Setup.prepareModel |
| `automate_prepare_model` | 143-150 | ExamplesPrepare.targets, ExamplesPrepare.prepareEach, ExamplesPrepare.automateArtificial |
| `main` | 153-154 | ExamplesPrepare.automateArtificial |

## examples/artificial_systems/submit_jobs_to_server.py

| function | lines | model |
|---|---|---|
| `submission_wrapper` | 27-34 | — |
| `execute_command_wrapper` | 37-47 | ExamplesSubmit.executeWaiting, Jobs.State |
| `_valid_hash` | 50-55 | Examples.alreadyPresent |
| `_temp_already_present` | 58-64 | Examples.alreadyPresent |
| `_generate_sos_results` | 67-94 | Examples.alreadyPresent, Examples.sosTemplate, Examples.sosCommand, Examples.generateSos |
| `_generate_trotter_results` | 97-126 | Examples.trotterTemplate, Examples.trotterCommand, Examples.lastCommand, Examples.trotterLoop, Examples.generateTrotterArtificial |
| `simple_sos_wrapper` | 129-140 | Examples.openProject, Examples.wrapper |
| `simple_trotter_wrapper` | 143-154 | Examples.openProject |
| `automate_sos_trotter_submission` | 157-173 | ExamplesSubmit.bases, ExamplesSubmit.temps, ExamplesSubmit.beads, ExamplesSubmit.sosTrotter, ExamplesSubmit.automateArtificial |
| `iterative_method_wrapper` | 176-206 | ExamplesSubmit.iterativeCommand, ExamplesSubmit.iterativeOne, Setup.openData, Setup.iterativeWrapper |
| `automate_iterative_submission` | 209-215 | ExamplesSubmit.automateIterative |
| `_generate_original_analytic_results` | 218-237 | ExamplesPimc.artificialSetting, ExamplesPimc.analyticTemplate, ExamplesPimc.analyticCommand, ExamplesPimc.analyticLoop, ExamplesPimc.originalAnalytic |
| `_generate_sampling_analytic_results` | 240-259 | ExamplesPimc.artificialSetting, ExamplesPimc.analyticTemplate, ExamplesPimc.analyticCommand, ExamplesPimc.analyticLoop, ExamplesPimc.samplingAnalytic |
| `generate_analytical_results` | 262-269 | ExamplesPimc.analytic |
| `simple_pimc_wrapper` | 272-322 | ExamplesPimc.artificialSetting, ExamplesPimc.parameters, ExamplesPimc.submitFrom, ExamplesPimc.simplePimc |
| `automate_pimc_submission` | 325-332 | Examples.Project.visits, ExamplesPimc.pimcLoop, ExamplesPimc.automatePimc |
| `main` | 335-352 | ExamplesPimc.artificialMain |

## examples/artificial_systems/systems.py

| function | lines | model |
|---|---|---|
| `id_data_is_valid` | 57-60 | Examples.Project.idValid |
| `assert_id_data_is_valid` | 63-66 | Examples.Project.assertId |
| `system_name_is_valid` | 69-72 | Examples.Project.nameValid |
| `assert_system_name_is_valid` | 75-78 | Examples.Project.assertName |
| `get_tuning_parameter` | 81-96 | Examples.tuningParameter |
| `get_system_name` | 99-108 | Examples.Project.systemName |

## examples/paper_1.5025058/analyze_results.py

| function | lines | model |
|---|---|---|
| `simple_wrapper` | 16-22 | ExamplesAnalysis.step |
| `automate_statistical_analysis` | 25-39 | ExamplesAnalysis.analysisLoop, ExamplesAnalysis.automateAnalysis, ExamplesAnalysis.step |

## examples/paper_1.5025058/context.py

| function | lines | model |
|---|---|---|
| `choose_root_folder` | 19-34 | Examples.Project.chooseRoot |

## examples/paper_1.5025058/generate_plots.py

| function | lines | model |
|---|---|---|
| `automate_simple_z_plots` | 15-33 | ExamplesPlots.testPair, ExamplesPlots.testLoop, ExamplesPlots.automateTest |

## examples/paper_1.5025058/generate_z_plots.py

| function | lines | model |
|---|---|---|
| `automate_simple_z_plots` | 15-34 | ExamplesPlots.versusPair, ExamplesPlots.versusLoop, ExamplesPlots.automateVersus |

## examples/paper_1.5025058/setup_models.py

| function | lines | model |
|---|---|---|
| `parse_input_mctdh_files_into_directories` | 22-39 | SetupMctdh.copyOp, SetupMctdh.parsePaper |
| `copy_input_json_files_into_directories` | 42-56 | Setup.inputPath, Setup.copyInputPaper |
| `copy_alternate_rhos_into_directories` | 59-78 | Setup.inputPath, Setup.rhoOfFile, Setup.copyRhos, Setup.copyAlternateRhos |
| `prepare_paper_model` | 81-102 | Setup.openData, Setup.preparePaperModel |
| `setup_weight_corrected_iterative_model` | 105-111 | Setup.setupWeightCorrected |
| `prepare_paper_model_plus_iterative_method` | 114-129 | Setup.preparePaperPlus |
| `automate_prepare_model` | 132-139 | ExamplesPrepare.targets, ExamplesPrepare.prepareEach, ExamplesPrepare.automatePaper |
| `main` | 142-143 | ExamplesPrepare.automatePaper |

## examples/paper_1.5025058/submit_jobs_to_server.py

| function | lines | model |
|---|---|---|
| `submission_wrapper` | 28-35 | — |
| `execute_command_wrapper` | 38-48 | ExamplesSubmit.executeWaiting |
| `_valid_hash` | 51-56 | Examples.alreadyPresent |
| `_temp_already_present` | 59-65 | Examples.alreadyPresent |
| `_generate_sos_results` | 68-95 | Examples.alreadyPresent, Examples.sosTemplate, Examples.sosCommand, Examples.generateSos |
| `_generate_trotter_results` | 98-127 | Examples.trotterTemplate, Examples.trotterCommand, Examples.generateTrotterPaper |
| `simple_sos_wrapper` | 130-141 | Examples.openProject, Examples.wrapper |
| `simple_trotter_wrapper` | 144-155 | Examples.openProject |
| `automate_sos_trotter_submission` | 158-172 | ExamplesSubmit.bases, ExamplesSubmit.temps, ExamplesSubmit.beads, ExamplesSubmit.sosTrotter, ExamplesSubmit.automatePaper |
| `iterative_method_wrapper` | 175-205 | ExamplesSubmit.iterativeCommand, ExamplesSubmit.iterativeOne, Setup.openData, Setup.iterativeWrapper |
| `automate_iterative_submission` | 208-214 | ExamplesSubmit.automateIterative |
| `generate_sampling_analytical_results` | 217-238 | ExamplesPimc.paperSetting, ExamplesPimc.analyticTemplate, ExamplesPimc.analyticCommand, ExamplesPimc.analyticLoop, ExamplesPimc.samplingAnalytic, ExamplesPimc.analytic |
| `simple_pimc_wrapper` | 241-280 | ExamplesPimc.paperSetting, ExamplesPimc.parameters, ExamplesPimc.submitFrom, ExamplesPimc.simplePimc |
| `automate_pimc_submission` | 283-290 | Examples.Project.visits, ExamplesPimc.pimcLoop, ExamplesPimc.automatePimc |
| `main` | 293-313 | ExamplesPimc.paperMain |

## examples/paper_1.5025058/systems.py

| function | lines | model |
|---|---|---|
| `id_data_is_valid` | 79-82 | Examples.Project.idValid |
| `assert_id_data_is_valid` | 85-88 | Examples.Project.assertId |
| `system_name_is_valid` | 91-94 | Examples.Project.nameValid |
| `assert_system_name_is_valid` | 97-100 | Examples.Project.assertName |
| `get_system_name` | 103-112 | Examples.Project.systemName |
