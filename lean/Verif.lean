import Verif.Props.Labels
import Verif.Props.Cluster
import Verif.Props.Kernel
import Verif.Props.Path
import Verif.Props.PathLarge
import Verif.Props.PathSymmetry
import Verif.Props.Correlation
import Verif.Props.Weighted
import Verif.Props.Variance
import Verif.Props.Moments
import Verif.Props.Lineal
import Verif.Props.Collapsed
import Verif.Props.CollapsedStored
import Verif.Props.History
import Verif.Props.Dilate
import Verif.Props.DilateGuard
import Verif.Props.DilateAlone
import Verif.Props.Mixed
import Verif.Props.DilateMotion
import Verif.Props.DilatePeriodic
import Verif.Props.Center
import Verif.Props.Dummy
import Verif.Props.DummyFloat
import Verif.Props.Structure
import Verif.Props.Structure2d
import Verif.Props.Hierarchy
import Verif.Props.Algebra
import Verif.Props.Invariance
import Verif.Props.LabelsAlgebra
import Verif.Props.Float
import Verif.Props.FloatPath
import Verif.Props.Path32
import Verif.Props.Python
import Verif.Props.DilateAlgebra
import Verif.Props.PythonCluster
import Verif.Props.Exceptions
import Verif.Props.Orientation
import Verif.Props.Tiling
import Verif.Props.RawData
import Verif.Props.SumRules
import Verif.Props.PythonEnsemble
import Verif.Props.Rounding
import Verif.Props.RoundingCollapsed
import Verif.Props.RoundingHistory
import Verif.Props.ClusterRelease
import Verif.Props.LabelsDomain
import Verif.Props.CenterMotion
import Verif.Props.Regions
import Verif.Spec.Runs
import Verif.Props.Runs
import Verif.Model.PythonLabels
import Verif.Props.PythonSession
import Verif.Spec.Spectrum
import Verif.Props.Spectrum
import Verif.Spec.Growth
import Verif.Props.Growth
import Verif.Props.Domain
import Verif.Props.Inequalities
import Verif.Model.CenterFloat
import Verif.Lemmas.CenterFloat
import Verif.Props.CenterFloat
import Verif.Props.Pipelines
import Verif.Model.PythonRest
import Verif.Props.PythonRest
import Verif.Props.Positive
import Verif.Props.SameValue
import Verif.Props.PathBack
import Verif.Props.PathModes
import Verif.Props.PathEqual
import Verif.Props.PathLong
import Verif.Model.Special
import Verif.Props.Numbers
import Verif.Model.LabelsTyped
import Verif.Props.LabelsTyped
import Verif.Model.Dummy32
import Verif.Props.Dummy32
import Verif.Props.ClusterDirected
import Verif.Props.PathStart
import Verif.Props.ClusterAny
import Verif.Props.ClusterAnyCalls
import Verif.Props.DummyGuard
import Verif.Props.ClusterTrace
import Verif.Props.Segment
import Verif.Props.CollapsedLine
import Verif.Props.GrowthAny
import Verif.Props.CollapsedAlgebra
import Verif.Props.DilateSigned
import Verif.Props.DistanceGuard
import Verif.Check.RepoTests
import Verif.Props.Text
import Verif.Props.Undisputed
import Verif.Props.LinealBack
import Verif.Props.PathExact
import Verif.Props.PathTurns
import Verif.Props.Dummy32All
import Verif.Props.DistanceFloat
import Verif.Props.PathLine32
import Verif.Lemmas.FloatStart
import Verif.Props.FloatStart
import Verif.Props.PythonDilate
import Verif.Props.Ensemble32
import Verif.Props.Helpers
import Verif.Props.Clusters32
import Verif.Props.MeanInt
import Verif.Props.Gap
import Verif.Props.Padding
import Verif.Props.Crop
import Verif.Props.DilatePadding
import Verif.Props.DilatePaddingAny
import Verif.Props.CropMean
import Verif.Props.CenterPadding
import Verif.Model.PythonDistance
import Verif.Props.PythonDistance
import Verif.Model.EnsembleDefault
import Verif.Props.EnsembleDefault
import Verif.Props.Repeated
import Verif.Props.RepeatedCollapsed
import Verif.Props.StructureRepeated
import Verif.Props.RoiIndependent
import Verif.Props.HeightFromS2
import Verif.Props.Phases
import Verif.Props.Pooled
