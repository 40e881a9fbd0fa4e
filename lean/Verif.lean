import Verif.Flux.Custom
import Verif.Flux.CustomProps
import Verif.Flux.Defects
import Verif.Flux.DefectsProps
import Verif.Flux.Implanted
import Verif.Flux.ImplantedProps
import Verif.Flux.Profile
import Verif.Flux.ProfileProps
import Verif.Flux.PulseProps
import Verif.IO.Contents
import Verif.IO.ContentsProps
import Verif.IO.NetFile
import Verif.IO.NetFileProps
import Verif.IO.Ragged
import Verif.IO.RaggedProps
import Verif.IO.Sparse
import Verif.IO.SparseProps
import Verif.IO.Steps
import Verif.IO.StepsProps
import Verif.Network.Anisotropy
import Verif.Network.AnisotropyProps
import Verif.Network.Assemble
import Verif.Network.AssembleProps
import Verif.Network.Averages
import Verif.Network.AveragesProps
import Verif.Network.Binding
import Verif.Network.BindingProps
import Verif.Network.Bursting
import Verif.Network.BurstingProps
import Verif.Network.Coefs
import Verif.Network.CoefsAux
import Verif.Network.CoefsLemmas
import Verif.Network.CoefsProps
import Verif.Network.Connectivity
import Verif.Network.ConnectivityProps
import Verif.Network.ConstNet
import Verif.Network.ConstNetProps
import Verif.Network.Constant
import Verif.Network.ConstantOther
import Verif.Network.ConstantOtherProps
import Verif.Network.ConstantProps
import Verif.Network.Dispatch
import Verif.Network.DispatchProps
import Verif.Network.Dissociation
import Verif.Network.DissociationConservation
import Verif.Network.DissociationProps
import Verif.Network.DofIds
import Verif.Network.DofIdsProps
import Verif.Network.Formation
import Verif.Network.FormationProps
import Verif.Network.Fuel
import Verif.Network.FuelProps
import Verif.Network.Generator
import Verif.Network.GeneratorProps
import Verif.Network.Irradiation
import Verif.Network.IrradiationProps
import Verif.Network.Largest
import Verif.Network.LargestProps
import Verif.Network.Layout
import Verif.Network.LoopNet
import Verif.Network.LoopNetProps
import Verif.Network.Mirror
import Verif.Network.MirrorProps
import Verif.Network.Mutate
import Verif.Network.MutateProps
import Verif.Network.NeFile
import Verif.Network.NeFileProps
import Verif.Network.Numbering
import Verif.Network.NumberingProps
import Verif.Network.Pairs
import Verif.Network.PairsProps
import Verif.Network.Pattern
import Verif.Network.PatternProps
import Verif.Network.Production
import Verif.Network.ProductionConservation
import Verif.Network.ProductionLemmas
import Verif.Network.ProductionProps
import Verif.Network.Products
import Verif.Network.ProductsProps
import Verif.Network.PsiFitProps
import Verif.Network.PsiRefine
import Verif.Network.PsiRefineProps
import Verif.Network.PsiSelect
import Verif.Network.PsiSelectProps
import Verif.Network.Radius
import Verif.Network.RadiusProps
import Verif.Network.RateEntries
import Verif.Network.RateEntriesProps
import Verif.Network.Rates
import Verif.Network.RatesProps
import Verif.Network.RatesShapeProps
import Verif.Network.Reduced
import Verif.Network.ReducedProps
import Verif.Network.Reflect
import Verif.Network.ReflectProps
import Verif.Network.Region
import Verif.Network.RegionProps
import Verif.Network.Select
import Verif.Network.SelectProps
import Verif.Network.Simple
import Verif.Network.SimpleProps
import Verif.Network.Sizes
import Verif.Network.SizesProps
import Verif.Network.Species
import Verif.Network.SpeciesProps
import Verif.Network.SubInstance
import Verif.Network.SubInstanceProps
import Verif.Network.Totals
import Verif.Network.TotalsProps
import Verif.Network.TrapMutationTables
import Verif.Network.Updates
import Verif.Network.Whole
import Verif.Network.WholeProps
import Verif.Options.Comments
import Verif.Options.CommentsProps
import Verif.Options.Lists
import Verif.Options.ListsProps
import Verif.Options.Material
import Verif.Options.MaterialProps
import Verif.Options.NetParams
import Verif.Options.NetParamsProps
import Verif.Options.Processes
import Verif.Options.ProcessesProps
import Verif.Options.Readers
import Verif.Options.ReadersProps
import Verif.Perf.Stats
import Verif.Perf.StatsProps
import Verif.Perf.Timer
import Verif.Perf.TimerProps
import Verif.Solver.Across
import Verif.Solver.AcrossProps
import Verif.Solver.Boundary
import Verif.Solver.BoundaryProps
import Verif.Solver.Burst
import Verif.Solver.BurstProps
import Verif.Solver.Carried
import Verif.Solver.CarriedProps
import Verif.Solver.Columns
import Verif.Solver.ColumnsProps
import Verif.Solver.Coo
import Verif.Solver.CooProps
import Verif.Solver.Coupled
import Verif.Solver.CoupledProps
import Verif.Solver.Depths
import Verif.Solver.DepthsProps
import Verif.Solver.Drawn
import Verif.Solver.DrawnProps
import Verif.Solver.Events
import Verif.Solver.EventsProps
import Verif.Solver.Exchange
import Verif.Solver.ExchangeProps
import Verif.Solver.FillMap
import Verif.Solver.FillMapProps
import Verif.Solver.Grain
import Verif.Solver.GrainProps
import Verif.Solver.GrainSpaceProps
import Verif.Solver.Grid
import Verif.Solver.GridProps
import Verif.Solver.HeatMatrix
import Verif.Solver.HeatMatrixProps
import Verif.Solver.Initial
import Verif.Solver.InitialProps
import Verif.Solver.Lines
import Verif.Solver.LinesProps
import Verif.Solver.Loop
import Verif.Solver.LoopProps
import Verif.Solver.Matrix
import Verif.Solver.MatrixProps
import Verif.Solver.Messages
import Verif.Solver.MessagesProps
import Verif.Solver.Monitors
import Verif.Solver.MonitorsProps
import Verif.Solver.Move
import Verif.Solver.MoveProps
import Verif.Solver.Plots
import Verif.Solver.PlotsProps
import Verif.Solver.Retention
import Verif.Solver.RetentionProps
import Verif.Solver.Stride
import Verif.Solver.StrideProps
import Verif.Solver.Surface
import Verif.Solver.SurfaceProps
import Verif.Solver.Sweep
import Verif.Solver.SweepProps
import Verif.Solver.TempTransfer
import Verif.Solver.TempTransferProps
import Verif.Solver.TextFiles
import Verif.Solver.TextFilesProps
import Verif.Solver.Walls
import Verif.Solver.WallsProps
import Verif.Solver.Written
import Verif.Solver.WrittenProps
import Verif.Transport.Advection
import Verif.Transport.AdvectionProps
import Verif.Transport.Heat
import Verif.Transport.HeatProps
import Verif.Transport.Mask
import Verif.Transport.MaskProps
import Verif.Transport.Soret
import Verif.Transport.SoretProps
import Verif.Transport.Stencil
import Verif.Transport.StencilProps
import Verif.Transport.Temperature
import Verif.Transport.TemperatureProps
import Verif.Util.InOrder
import Verif.Util.InOrderProps
import Verif.Util.Interp
import Verif.Util.InterpProps
import Verif.Util.LineLoop
import Verif.Util.LineLoopProps
import Verif.Util.MathSums
import Verif.Util.MathSumsProps
import Verif.Util.Segments
import Verif.Util.Stepping
import Verif.Util.SteppingProps
import Verif.Util.Tokenizer
import Verif.Util.TokenizerProps
