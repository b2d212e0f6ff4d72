import Verif.Props.Stats
import Verif.Props.FileStructure
import Verif.Props.Postprocessing
import Verif.Py.NDArray
import Verif.Py.Close
import Verif.Model.ModelIO
import Verif.Lemmas.NDArray
import Verif.Lemmas.ModelIO
import Verif.Spec.ModelIO
import Verif.Lemmas.ModelEntries
import Verif.Props.ModelFiles
import Verif.Props.ModelDerived
import Verif.Props.FakeCoupling
import Verif.Props.ModelGenerated
import Verif.Props.PIMC
import Verif.Props.Sampling
import Verif.Props.Results
import Verif.Props.JobBoss
import Verif.Props.Analytic
import Verif.Props.Analysis
import Verif.Py.Json
import Verif.Lemmas.Json
import Verif.Model.JobParams
import Verif.Props.JobParams
import Verif.Model.Buffer
import Verif.Spec.Buffer
import Verif.Lemmas.Buffer
import Verif.Props.Buffer
import Verif.Model.Workflow
import Verif.Spec.Workflow
import Verif.Lemmas.Workflow
import Verif.Props.Workflow
import Verif.Model.Molecule
import Verif.Spec.Molecule
import Verif.Lemmas.Molecule
import Verif.Props.Molecule
import Verif.Model.Inputs
import Verif.Props.Inputs
import Verif.Model.Orthonormal
import Verif.Spec.Orthonormal
import Verif.Lemmas.Orthonormal
import Verif.Props.Orthonormal
import Verif.Model.OpFile
import Verif.Spec.OpFile
import Verif.Lemmas.OpArrays
import Verif.Lemmas.OpText
import Verif.Lemmas.OpLines
import Verif.Lemmas.OpRead
import Verif.Lemmas.OpAssign
import Verif.Lemmas.OpFinish
import Verif.Props.OpFile
import Verif.Model.Training
import Verif.Model.Prepare
import Verif.Props.Training
import Verif.Props.Prepare
import Verif.Model.Plotting
import Verif.Spec.Plotting
import Verif.Lemmas.Plotting
import Verif.Props.Plotting
import Verif.Model.Grids
import Verif.Spec.Grids
import Verif.Props.Grids
import Verif.Model.JackknifeParameters
import Verif.Props.JackknifeParameters
import Verif.Model.OldFormats
import Verif.Spec.OldFormats
import Verif.Props.OldFormats
import Verif.Model.Slurm
import Verif.Props.Slurm
import Verif.Model.JobScript
import Verif.Props.JobScript
import Verif.Model.Julia
import Verif.Props.Julia
import Verif.Model.ModelText
import Verif.Props.ModelText
import Verif.Model.AnalyticText
import Verif.Props.AnalyticText
import Verif.Model.Sequences
import Verif.Props.Sequences
import Verif.Model.TrainingFiles
import Verif.Props.TrainingFiles
import Verif.Model.Handover
import Verif.Props.Handover
import Verif.Lemmas.JackknifeLimit
import Verif.Props.Convergence
import Verif.Model.Orbitals
import Verif.Spec.Orbitals
import Verif.Lemmas.Orbitals
import Verif.Props.Orbitals
import Verif.Model.Loading
import Verif.Props.Loading
import Verif.Lemmas.LieProduct
import Verif.Spec.Separable
import Verif.Lemmas.Separable
import Verif.Props.Trotter
import Verif.Props.Energy
import Verif.Model.KeyNames
import Verif.Props.KeyNames
import Verif.Model.VibronMain
import Verif.Props.VibronMain
import Verif.Model.PosSym
import Verif.Props.PosSym
import Verif.Spec.ConstantCoupling
import Verif.Lemmas.MixedModes
import Verif.Lemmas.ExpBounds
import Verif.Lemmas.BeadSums
import Verif.Lemmas.Trial
import Verif.Spec.Confined
import Verif.Lemmas.Confined
import Verif.Props.Basis
import Verif.Lemmas.Refine
import Verif.Lemmas.RefineBounds
import Verif.Lemmas.Refined
import Verif.Spec.Levels
import Verif.Lemmas.Ritz
import Verif.Lemmas.Hermite
import Verif.Lemmas.Kernel
import Verif.Lemmas.Oscillator
import Verif.Lemmas.Split
import Verif.Lemmas.SplitBounds
import Verif.Lemmas.SplitLimit
import Verif.Lemmas.Levels
import Verif.Lemmas.KernelTrace
import Verif.Lemmas.TracePath
import Verif.Lemmas.Exact
import Verif.Props.Exact
import Verif.Lemmas.ErrorBars
import Verif.Lemmas.Spread
import Verif.Props.ErrorBars
import Verif.Lemmas.JackknifeError
import Verif.Lemmas.DeltaMethod
import Verif.Props.JackknifeErrors
import Verif.Py.Round
import Verif.Spec.Temperature
import Verif.Model.Temperature
import Verif.Props.Temperature
import Verif.Props.Resubmit
import Verif.Model.ServerJob
import Verif.Props.ServerJob
import Verif.Model.HeffFile
import Verif.Spec.HeffFile
import Verif.Lemmas.HeffFile
import Verif.Props.HeffFile
import Verif.Model.ThermoText
import Verif.Spec.ThermoText
import Verif.Lemmas.JsonDict
import Verif.Props.ThermoText
import Verif.Props.AnalysisChain
import Verif.Model.Examples
import Verif.Spec.Shell
import Verif.Props.Examples
import Verif.Model.Jobs
import Verif.Lemmas.Jobs
import Verif.Props.Jobs
import Verif.Model.Setup
import Verif.Props.Setup
import Verif.Props.SetupPaper
import Verif.Model.ExamplesPimc
import Verif.Props.ExamplesPimc
import Verif.Model.ExamplesAnalysis
import Verif.Props.ExamplesAnalysis
import Verif.Model.ExamplesPrepare
import Verif.Props.ExamplesPrepare
import Verif.Model.ExamplesSubmit
import Verif.Props.ExamplesSubmit
import Verif.Model.ExamplesPlots
import Verif.Props.ExamplesPlots
import Verif.Model.ExamplesGenerate
import Verif.Props.ExamplesGenerate
import Verif.Model.SetupMctdh
import Verif.Props.SetupMctdh
