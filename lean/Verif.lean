import Verif.Props.Client
import Verif.Props.Config
import Verif.Props.Binning
import Verif.Props.Fmd
import Verif.Props.BValueState
import Verif.Props.BValueMle
import Verif.Props.BValueWeights
import Verif.Props.BValueUtils
import Verif.Props.BPositive
import Verif.Props.BPositiveOrder
import Verif.Props.AValue
import Verif.Props.AValueRate
import Verif.Props.KijkoSmit
import Verif.Props.Weichert
import Verif.Props.McKs
import Verif.Props.McKsLoop
import Verif.Props.McMaxc
import Verif.Props.McStability
import Verif.Props.Lilliefors
import Verif.Props.Download
import Verif.Props.DownloadCatalog
import Verif.Props.Moran
import Verif.Props.Partition
import Verif.Props.PartitionWeights
import Verif.Props.BSignificant
import Verif.Props.Haversine
import Verif.Props.Declustering
import Verif.Props.Parser
import Verif.Props.ParserSelect
import Verif.Props.CatalogColumns
import Verif.Props.CatalogMethods
import Verif.Props.Quakeml
import Verif.Props.OpenQuake
import Verif.Props.TimeString
import Verif.Props.RateGrid
import Verif.Props.RateGridStats
import Verif.Props.Simulate
import Verif.Props.Dither
import Verif.Props.Filtering
import Verif.Props.Coordinates
import Verif.Props.Edwards
import Verif.Props.PlotBasics
import Verif.Props.AValueState
import Verif.Props.BMorePositiveStd
import Verif.Props.PlotFmd
import Verif.Props.PlotSeries
import Verif.Props.PlotSignificant
import Verif.Props.PlotSeismicity
import Verif.Props.DoubleBinning
import Verif.Props.DoubleSelect
import Verif.Props.DoubleFmd
import Verif.Props.DoubleMc
import Verif.Props.DoubleTest
import Verif.Props.EstimatorAttrs
import Verif.Props.QuakemlText
import Verif.Props.FromQuakeml
import Verif.Props.CatalogEstimates
import Verif.Props.CatalogPlots
import Verif.Props.DoubleBValue
import Verif.Props.DoublePositive
import Verif.Props.RateGridClass
import Verif.Props.DoubleKs
import Verif.Props.SimulateLaw
import Verif.Props.Consistency
import Verif.Props.Coverage
import Verif.Props.MaxcLaw
import Verif.Props.CoveragePositive
import Verif.Props.MoranPermute
import Verif.Props.MacLaw
import Verif.Props.KsLevel
import Verif.Props.DitherLaw
import Verif.Props.ConsistencyMore
import Verif.Props.ClientLive
import Verif.Props.AValueLaw
import Verif.Props.AValueWorkflow
import Verif.Props.CatalogMc
import Verif.Props.CatalogWorkflow
import Verif.Props.AboveLaw
import Verif.Props.WorkflowLaw
import Verif.Props.DetectedLaw
import Verif.Props.Coda
import Verif.Props.DetectedMore
import Verif.Props.KsPower
import Verif.Props.TruncLaw
import Verif.Proofs.Periods
import Verif.Props.KijkoLaw
import Verif.Spec.AError
import Verif.Model.DoubleAValue
import Verif.Proofs.DoubleAValue
import Verif.Props.DoubleAValue
import Verif.Props.OpenQuakeRead
import Verif.Proofs.WeightedMean
import Verif.Proofs.WeightedClt
import Verif.Props.WeightedLaw
import Verif.Props.XmlReferences
import Verif.Proofs.TimedDetected
import Verif.Props.DetectedRate
import Verif.Proofs.TiltedMean
import Verif.Proofs.WeichertGrid
import Verif.Proofs.SinceMean
import Verif.Proofs.WeichertLimit
import Verif.Props.WeichertLaw
import Verif.Props.WeichertUnique
import Verif.Proofs.Blocks
import Verif.Proofs.WindowSum
import Verif.Proofs.WindowClt
import Verif.Proofs.Small
import Verif.Proofs.MacMoments
import Verif.Proofs.MacClt
import Verif.Proofs.MacLimit
import Verif.Props.MacLevel
import Verif.Proofs.StepSeries
import Verif.Proofs.StepLaw
import Verif.Props.MacPower
import Verif.Proofs.InvSum
import Verif.Proofs.WinMoments
import Verif.Props.EstimateMoments
import Verif.Model.DoubleCompleteness
import Verif.Proofs.DoubleCompleteness
import Verif.Props.DoubleCompleteness
import Verif.Model.CompletenessMissing
import Verif.Props.CompletenessMissing
import Verif.Model.CalendarYear
import Verif.Props.CalendarYear
import Verif.Model.McMissing
import Verif.Props.McMissing
import Verif.Props.McEdges
import Verif.Model.DeclMissing
import Verif.Props.DeclMissing
import Verif.Model.MapMissing
import Verif.Props.MapMissing
import Verif.Model.TimesMissing
import Verif.Props.TimesMissing
import Verif.Model.CumCountMissing
import Verif.Props.CumCountMissing
import Verif.Model.FmdMissing
import Verif.Props.FmdMissing
import Verif.Props.SignificantMissing
