import Verif.Props.Parity
import Verif.Props.Json
import Verif.Props.EventAscii
import Verif.Props.EventHepevt
import Verif.Props.EventJson
import Verif.Props.EventHeap
import Verif.Props.Utils
import Verif.Props.Grid
import Verif.Props.Kinematics
import Verif.Props.Scatter
import Verif.Props.Rotation
import Verif.Props.DecayScheme
import Verif.Props.Target
import Verif.Props.Logger
import Verif.Props.FileManager
import Verif.Props.MassTable
import Verif.Props.StructureDatabase
import Verif.Props.Reaction
import Verif.Props.Sampling
import Verif.Lemmas.Discrete
import Verif.Props.Generator
import Verif.Props.Electron
import Verif.Props.CrossSection
import Verif.Props.Quadrature
import Verif.Props.Randomness
import Verif.Props.Source
import Verif.Props.SourceConfig
import Verif.Props.SourceDensity
import Verif.Props.JobConfig
import Verif.Props.JobTarget
import Verif.Props.Chebyshev
import Verif.Props.ExitChannel
import Verif.Props.HauserFeshbach
import Verif.Props.Decayer
import Verif.Props.DecayerRandom
import Verif.Props.OutputFile
import Verif.Props.OutputRun
import Verif.Props.EventLoop
import Verif.Props.EventReader
import Verif.Props.DecayerMotion
import Verif.Props.WholeEvent
import Verif.Props.GammaStrength
import Verif.Props.LevelDensity
import Verif.Props.OpticalModel
import Verif.Props.NuclearModels
import Verif.Props.CreateGenerator
import Verif.Model.JobLog
import Verif.Props.JobLog
import Verif.Model.Talys
import Verif.Spec.Talys
import Verif.Lemmas.Talys
import Verif.Props.Talys
import Verif.Model.Fftpack
import Verif.Model.ChebyshevFft
import Verif.Lemmas.FftFactor
import Verif.Lemmas.FftDft
import Verif.Lemmas.FftPass
import Verif.Lemmas.FftPass4
import Verif.Lemmas.FftPass5
import Verif.Lemmas.FftSum
import Verif.Lemmas.FftGeneral
import Verif.Lemmas.FftOut
import Verif.Lemmas.FftDrive
import Verif.Lemmas.FftCost
import Verif.Props.Fftpack
import Verif.Model.Status
import Verif.Spec.Terminal
import Verif.Lemmas.Terminal
import Verif.Lemmas.Status
import Verif.Props.Status
import Verif.Model.JsonHeap
import Verif.Spec.JsonValue
import Verif.Lemmas.JsonTree
import Verif.Lemmas.JsonPath
import Verif.Lemmas.JsonSim
import Verif.Lemmas.JsonOps
import Verif.Lemmas.JsonExec
import Verif.Lemmas.JsonStep
import Verif.Props.JsonHeap
import Verif.Props.RootSource
import Verif.Model.RootOutput
import Verif.Lemmas.RootOutput
import Verif.Spec.RootOutput
import Verif.Spec.Continuation
import Verif.Props.RootOutput
import Verif.Props.Continuation
import Verif.Props.ContinuationGen
import Verif.Model.EventPrograms
import Verif.Spec.EventPrograms
import Verif.Props.EventPrograms
import Verif.Model.DumpXs
import Verif.Spec.DumpXs
import Verif.Props.DumpXs
import Verif.Model.ClosestRounded
import Verif.Props.ClosestRounded
import Verif.Model.Fermi
import Verif.Lemmas.Fermi
import Verif.Spec.Fermi
import Verif.Props.Fermi
import Verif.Model.Reports
import Verif.Spec.Reports
import Verif.Lemmas.Reports
import Verif.Props.Reports
import Verif.Model.Macros
import Verif.Spec.Macros
import Verif.Props.Macros
import Verif.Model.Examples
import Verif.Spec.Examples
import Verif.Props.Examples
import Verif.Model.CoulombWave
import Verif.Spec.CoulombWave
import Verif.Props.CoulombWave
import Verif.Model.Iterators
import Verif.Spec.Iterators
import Verif.Props.Iterators
import Verif.Props.NucIds
import Verif.Model.Listing
import Verif.Spec.Listing
import Verif.Props.Listing
import Verif.Model.TextFiles
import Verif.Spec.TextFiles
import Verif.Props.TextFiles
import Verif.Lemmas.JsonExtend
import Verif.Props.JsonTruncated
import Verif.Spec.JsonText
import Verif.Lemmas.JsonText
import Verif.Props.JsonText
import Verif.Lemmas.EventCut
import Verif.Lemmas.HepevtCut
import Verif.Spec.EventsCut
import Verif.Lemmas.ReaderCut
import Verif.Props.EventsCut
import Verif.Model.BisectRounded
import Verif.Props.BisectRounded
import Verif.Model.PickRounded
import Verif.Props.PickRounded
import Verif.Model.TargetRounded
import Verif.Props.TargetRounded
import Verif.Model.DumpXsRounded
import Verif.Props.DumpXsRounded
import Verif.Model.GridRounded
import Verif.Props.GridRounded
import Verif.Spec.RejectionLaw
import Verif.Lemmas.RejectionLaw
import Verif.Props.RejectionLaw
import Verif.Props.ReactionLaw
import Verif.Spec.Isotropy
import Verif.Lemmas.Sphere
import Verif.Props.Isotropy
import Verif.Props.InverseLaw
import Verif.Props.AngleLaw
import Verif.Spec.CascadeLaw
import Verif.Props.CascadeLaw
import Verif.Props.NuclearLaw
import Verif.Lemmas.PickLaw
import Verif.Props.WidthLaw
import Verif.Props.DeexciteLaw
import Verif.Props.SpinLaw
import Verif.Lemmas.MixtureLaw
import Verif.Props.FixedLaw
import Verif.Spec.IdealEngine
import Verif.Lemmas.IdealEngine
import Verif.Props.EventLaw
import Verif.Spec.Determined
import Verif.Lemmas.Determined
import Verif.Props.FinitelyMany
import Verif.Props.Renewal
import Verif.Spec.Ends
import Verif.Props.SearchEnds
import Verif.Lemmas.Ends
import Verif.Props.EventEnds
import Verif.Props.SourceEnds
import Verif.Spec.ContinuumEnds
import Verif.Lemmas.ContinuumEnds
import Verif.Props.ContinuumEnds
import Verif.Lemmas.Stages
import Verif.Props.Stages
import Verif.Lemmas.Renewing
import Verif.Spec.Paths
import Verif.Lemmas.Paths
import Verif.Props.Paths
import Verif.Props.Counts
import Verif.Props.Histogram
import Verif.Props.Unlimited
import Verif.Props.Strong
import Verif.Props.Share
import Verif.Props.Average
