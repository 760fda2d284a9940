import Verif.Dist.Backend
import Verif.Dist.BackendProps
import Verif.Dist.Basic
import Verif.Dist.CknnDistance
import Verif.Dist.CknnDistanceProps
import Verif.Dist.Cloud
import Verif.Dist.CloudProps
import Verif.Dist.Objects
import Verif.Dist.ObjectsProps
import Verif.Dist.Props
import Verif.Dist.RadialDict
import Verif.Dist.RadialDictProps
import Verif.Dmd.Affine
import Verif.Dmd.AffineProps
import Verif.Dmd.BalanceProps
import Verif.Dmd.ControlProps
import Verif.Dmd.Filter
import Verif.Dmd.FilterProps
import Verif.Dmd.GeneratorProps
import Verif.Dmd.IdentifyProps
import Verif.Dmd.InvarianceProps
import Verif.Dmd.LabelProps
import Verif.Dmd.Learn
import Verif.Dmd.LearnProps
import Verif.Dmd.MinimalProps
import Verif.Dmd.NestedProps
import Verif.Dmd.NoiseProps
import Verif.Dmd.Online
import Verif.Dmd.OnlineProps
import Verif.Dmd.Pretrained
import Verif.Dmd.PretrainedProps
import Verif.Dmd.Pseudo
import Verif.Dmd.PseudoProps
import Verif.Dmd.ReducedProps
import Verif.Dmd.Score
import Verif.Dmd.ScoreProps
import Verif.Dmd.SeriesPredictProps
import Verif.Dmd.Standard
import Verif.Dmd.StandardProps
import Verif.Dmd.Streaming
import Verif.Dmd.StreamingLemmas
import Verif.Dmd.StreamingProps
import Verif.Dmd.TimeOriginProps
import Verif.Dmd.TimeUnitProps
import Verif.Dmd.Train
import Verif.Dmd.TrainProps
import Verif.Dmd.Weights
import Verif.Dmd.WeightsProps
import Verif.Dyn.ControlTimeProps
import Verif.Dyn.Evolve
import Verif.Dyn.EvolveProps
import Verif.Dyn.FitAttrs
import Verif.Dyn.FitAttrsProps
import Verif.Dyn.Linear
import Verif.Dyn.LinearLemmas
import Verif.Dyn.LinearProps
import Verif.Dyn.Spectral
import Verif.Dyn.SpectralProps
import Verif.Dyn.StabilityProps
import Verif.Dyn.Strategy
import Verif.Dyn.StrategyProps
import Verif.Dyn.SuperpositionProps
import Verif.Dyn.System
import Verif.Dyn.SystemProps
import Verif.Dyn.TimeValues
import Verif.Dyn.TimeValuesProps
import Verif.Dyn.Validate
import Verif.Dyn.ValidateProps
import Verif.Edmd.AffineModelProps
import Verif.Edmd.AutoregressiveProps
import Verif.Edmd.ClosedProps
import Verif.Edmd.ColumnTransformer
import Verif.Edmd.ColumnTransformerProps
import Verif.Edmd.ConservedProps
import Verif.Edmd.ControlDelay
import Verif.Edmd.ControlDelayProps
import Verif.Edmd.Delay
import Verif.Edmd.DelayProps
import Verif.Edmd.Dictionary
import Verif.Edmd.DictionaryChain
import Verif.Edmd.DictionaryProps
import Verif.Edmd.ErrorProps
import Verif.Edmd.GridSearch
import Verif.Edmd.GridSearchProps
import Verif.Edmd.LearnFit
import Verif.Edmd.LearnFitProps
import Verif.Edmd.MoreDelaysProps
import Verif.Edmd.OnlineFit
import Verif.Edmd.OnlineFitProps
import Verif.Edmd.PostObservable
import Verif.Edmd.PostObservableProps
import Verif.Edmd.Predict
import Verif.Edmd.QoisProps
import Verif.Edmd.Reconstruct
import Verif.Edmd.ReconstructLemmas
import Verif.Edmd.ReconstructProps
import Verif.Edmd.RefusedFit
import Verif.Edmd.RefusedFitProps
import Verif.Edmd.Score
import Verif.Edmd.ScoreProps
import Verif.Edmd.Stepwise
import Verif.Edmd.StepwiseControl
import Verif.Edmd.StepwiseControlProps
import Verif.Edmd.StepwiseProps
import Verif.Edmd.TransformInverse
import Verif.Edmd.TransformInverseProps
import Verif.Edmd.TripletProps
import Verif.Edmd.Window
import Verif.Edmd.WindowControlProps
import Verif.Edmd.WindowLemmas
import Verif.Edmd.WindowProps
import Verif.Kernel.CknnHistory
import Verif.Kernel.CknnHistoryProps
import Verif.Kernel.Cone
import Verif.Kernel.ConeProps
import Verif.Kernel.ContinuityProps
import Verif.Kernel.Cutoff
import Verif.Kernel.CutoffProps
import Verif.Kernel.DefiniteProps
import Verif.Kernel.DiffusionDistProps
import Verif.Kernel.Dmap
import Verif.Kernel.DmapProps
import Verif.Kernel.DuplicateProps
import Verif.Kernel.Eigsolver
import Verif.Kernel.EigsolverProps
import Verif.Kernel.Fit
import Verif.Kernel.FitProps
import Verif.Kernel.Harmonics
import Verif.Kernel.HarmonicsProps
import Verif.Kernel.History
import Verif.Kernel.HistoryProps
import Verif.Kernel.Jsf
import Verif.Kernel.JsfMany
import Verif.Kernel.JsfManyProps
import Verif.Kernel.JsfProps
import Verif.Kernel.JsfThreshold
import Verif.Kernel.JsfThresholdProps
import Verif.Kernel.JsfTypes
import Verif.Kernel.JsfTypesProps
import Verif.Kernel.Mahalanobis
import Verif.Kernel.MahalanobisProps
import Verif.Kernel.MultiScale
import Verif.Kernel.MultiScaleProps
import Verif.Kernel.Neighbor
import Verif.Kernel.NeighborProps
import Verif.Kernel.Normalize
import Verif.Kernel.NormalizeLemmas
import Verif.Kernel.NormalizeProps
import Verif.Kernel.Ownership
import Verif.Kernel.OwnershipProps
import Verif.Kernel.Pyramid
import Verif.Kernel.PyramidEnd
import Verif.Kernel.PyramidFormula
import Verif.Kernel.PyramidLemmas
import Verif.Kernel.PyramidProps
import Verif.Kernel.Radial
import Verif.Kernel.RadialProps
import Verif.Kernel.Roseland
import Verif.Kernel.RoselandProps
import Verif.Kernel.Selection
import Verif.Kernel.SelectionFit
import Verif.Kernel.SelectionFitProps
import Verif.Kernel.SelectionProps
import Verif.Kernel.TrivialProps
import Verif.Kernel.Variable
import Verif.Kernel.VariableFit
import Verif.Kernel.VariableFitProps
import Verif.Kernel.VariableProps
import Verif.Lin.Lstsq
import Verif.Mpc.AffineMpc
import Verif.Mpc.AffineMpcProps
import Verif.Mpc.ClosedLoop
import Verif.Mpc.ClosedLoopProps
import Verif.Mpc.Control
import Verif.Mpc.ControlProps
import Verif.Mpc.Exact
import Verif.Mpc.ExactProps
import Verif.Mpc.FeasibleProps
import Verif.Mpc.HorizonProps
import Verif.Mpc.Kmpc
import Verif.Mpc.KmpcLemmas
import Verif.Mpc.KmpcProps
import Verif.Mpc.LoopExact
import Verif.Mpc.LoopExactProps
import Verif.Mpc.RecedingProps
import Verif.Mpc.SensitivityProps
import Verif.Mpc.StabilityProps
import Verif.Mpc.WeightProps
import Verif.Np
import Verif.Transform.Columns
import Verif.Transform.ColumnsProps
import Verif.Transform.FiniteDifference
import Verif.Transform.FiniteDifferenceProps
import Verif.Transform.MovingAverageProps
import Verif.Transform.Pca
import Verif.Transform.PcaProps
import Verif.Transform.Polynomial
import Verif.Transform.PolynomialProps
import Verif.Transform.RadialBasis
import Verif.Transform.RadialBasisProps
import Verif.Transform.Scalers
import Verif.Transform.ScalersProps
import Verif.Transform.Select
import Verif.Transform.SelectProps
import Verif.Transform.SeriesProps
import Verif.Transform.Takens
import Verif.Transform.TakensLemmas
import Verif.Transform.TakensProps
import Verif.Transform.TakensSpec
import Verif.Tsc.Blocks
import Verif.Tsc.Check
import Verif.Tsc.CheckProps
import Verif.Tsc.CollLemmas
import Verif.Tsc.CollProps
import Verif.Tsc.ConstDeltaProps
import Verif.Tsc.CountLemmas
import Verif.Tsc.Csv
import Verif.Tsc.CsvProps
import Verif.Tsc.DeltaLemmas
import Verif.Tsc.DeltaProps
import Verif.Tsc.DeltaTime
import Verif.Tsc.Derivative
import Verif.Tsc.DerivativeProps
import Verif.Tsc.DistanceProps
import Verif.Tsc.Fixed
import Verif.Tsc.FixedProps
import Verif.Tsc.FloatIndex
import Verif.Tsc.FloatIndexProps
import Verif.Tsc.FoldLemmas
import Verif.Tsc.FoldProps
import Verif.Tsc.Folds
import Verif.Tsc.Frames
import Verif.Tsc.FramesProps
import Verif.Tsc.Heap
import Verif.Tsc.HeapProps
import Verif.Tsc.IcProps
import Verif.Tsc.Index
import Verif.Tsc.IndexLemmas
import Verif.Tsc.IndexNum
import Verif.Tsc.IndexNumProps
import Verif.Tsc.IndexProps
import Verif.Tsc.IndexSpec
import Verif.Tsc.InitCond
import Verif.Tsc.InitCondProps
import Verif.Tsc.IsolatedProps
import Verif.Tsc.KeptProps
import Verif.Tsc.KeptRegularProps
import Verif.Tsc.MapVal
import Verif.Tsc.MedianProps
import Verif.Tsc.Metric
import Verif.Tsc.MetricProps
import Verif.Tsc.MixedDeltaProps
import Verif.Tsc.Model
import Verif.Tsc.ModesProps
import Verif.Tsc.Orient
import Verif.Tsc.OrientProps
import Verif.Tsc.RealDelta
import Verif.Tsc.RealDeltaLemmas
import Verif.Tsc.RealDeltaProps
import Verif.Tsc.Select
import Verif.Tsc.SelectProps
import Verif.Tsc.ShiftLemmas
import Verif.Tsc.ShiftProps
import Verif.Tsc.Spec
import Verif.Tsc.StatesProps
import Verif.Tsc.TimeOps
import Verif.Tsc.TimeOpsProps
import Verif.Tsc.TrainTestProps
import Verif.Tsc.UnitsProps
import Verif.Tsc.WindowFold
import Verif.Tsc.WindowFoldProps
import Verif.Tsc.WindowProps
import Verif.Utils.Benchmarks
import Verif.Utils.BenchmarksProps
import Verif.Utils.ControlBenchmarks
import Verif.Utils.ControlBenchmarksProps
import Verif.Utils.CyclePredict
import Verif.Utils.CyclePredictProps
import Verif.Utils.Density
import Verif.Utils.DensityProps
import Verif.Utils.EarlyStopping
import Verif.Utils.EarlyStoppingProps
import Verif.Utils.General
import Verif.Utils.GeneralProps
import Verif.Utils.Mesh
import Verif.Utils.MeshProps
import Verif.Utils.Params
import Verif.Utils.ParamsProps
import Verif.Utils.Settings
import Verif.Utils.SettingsProps
import Verif.Utils.Simulate
import Verif.Utils.SimulateFun
import Verif.Utils.SimulateFunProps
import Verif.Utils.SimulateProps
import Verif.Utils.Systems
import Verif.Utils.SystemsProps
