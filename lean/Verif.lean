import Verif.Lemmas.BlindLaw
import Verif.Lemmas.ChunkSampler
import Verif.Lemmas.Circle
import Verif.Lemmas.Circumcircle
import Verif.Lemmas.ConvexRing
import Verif.Lemmas.Csr
import Verif.Lemmas.CsrStreams
import Verif.Lemmas.Dict
import Verif.Lemmas.DistanceMotion
import Verif.Lemmas.DistanceStats
import Verif.Lemmas.Draws
import Verif.Lemmas.Float64
import Verif.Lemmas.FloatSum
import Verif.Lemmas.Frame
import Verif.Lemmas.FuelMono
import Verif.Lemmas.Hex
import Verif.Lemmas.HexBorder
import Verif.Lemmas.Histories
import Verif.Lemmas.Hotspots
import Verif.Lemmas.HullMembership
import Verif.Lemmas.HullMoments
import Verif.Lemmas.HullUnique
import Verif.Lemmas.HullVolume
import Verif.Lemmas.Hypergeometric
import Verif.Lemmas.Knox
import Verif.Lemmas.Level
import Verif.Lemmas.MeasurableCounts
import Verif.Lemmas.MeasurableCurves
import Verif.Lemmas.MeasurableRun
import Verif.Lemmas.MeasurableSamplers
import Verif.Lemmas.MinMax
import Verif.Lemmas.MonteCarlo
import Verif.Lemmas.Motion
import Verif.Lemmas.Neighbours
import Verif.Lemmas.PairLaw
import Verif.Lemmas.Pairs
import Verif.Lemmas.PointPattern
import Verif.Lemmas.PopulationLevel
import Verif.Lemmas.PyList
import Verif.Lemmas.Random
import Verif.Lemmas.RankLaw
import Verif.Lemmas.Rect
import Verif.Lemmas.RejectionLaw
import Verif.Lemmas.SamplerLaw
import Verif.Lemmas.Skyum
import Verif.Lemmas.SkyumLoop
import Verif.Lemmas.SortQuery
import Verif.Lemmas.Spacetime
import Verif.Lemmas.StraussBlind
import Verif.Lemmas.StrongMarkov
import Verif.Model.CentroFloat
import Verif.Model.Centrography
import Verif.Model.DistanceStats
import Verif.Model.Facade
import Verif.Model.Float64
import Verif.Model.FloatChi2
import Verif.Model.FloatCurves
import Verif.Model.FloatKnox
import Verif.Model.FloatStats
import Verif.Model.Frames
import Verif.Model.GeoOverloads
import Verif.Model.Geometry
import Verif.Model.Inputs
import Verif.Model.Kde
import Verif.Model.Knox
import Verif.Model.KnoxPlot
import Verif.Model.Mantel
import Verif.Model.MedianWarning
import Verif.Model.PatternLabels
import Verif.Model.PointPattern
import Verif.Model.Process
import Verif.Model.Py
import Verif.Model.QStatistic
import Verif.Model.Quadrat
import Verif.Model.QuadratPlots
import Verif.Model.Random
import Verif.Model.Regions
import Verif.Model.Skyum
import Verif.Model.Spacetime
import Verif.Model.SpacetimeArgs
import Verif.Model.Window
import Verif.Props.AddedEvents
import Verif.Props.Agreement
import Verif.Props.AnalyticKnox
import Verif.Props.Centers
import Verif.Props.CentreOfMass
import Verif.Props.CentresAmongEvents
import Verif.Props.CentroFloat
import Verif.Props.ChiSquare
import Verif.Props.CircleStart
import Verif.Props.CircleUnits
import Verif.Props.ClusterCopies
import Verif.Props.ClusterErrors
import Verif.Props.ClusterLaw
import Verif.Props.ClusterNormalPoints
import Verif.Props.ClusterSeeds
import Verif.Props.ConsistentMean
import Verif.Props.CountsInPart
import Verif.Props.CsrLevel
import Verif.Props.DistanceJKL
import Verif.Props.DistanceOrder
import Verif.Props.DistanceRuns
import Verif.Props.DistanceShapes
import Verif.Props.DistanceStats
import Verif.Props.DistanceTests
import Verif.Props.DistanceUnits
import Verif.Props.Draws
import Verif.Props.DrawsDistance
import Verif.Props.Ellipse
import Verif.Props.Envelope
import Verif.Props.Facade
import Verif.Props.FamilyWise
import Verif.Props.FinerGrid
import Verif.Props.FloatChi2
import Verif.Props.FloatCurves
import Verif.Props.FloatGrid
import Verif.Props.FloatKnox
import Verif.Props.FloatQuadrat
import Verif.Props.FloatStats
import Verif.Props.Frames
import Verif.Props.GeoOverloads
import Verif.Props.Geometry
import Verif.Props.HexagonExact
import Verif.Props.HexagonGrid
import Verif.Props.HexagonPlot
import Verif.Props.HotspotPlot
import Verif.Props.Hotspots
import Verif.Props.HullArea
import Verif.Props.HullInBox
import Verif.Props.Inputs
import Verif.Props.IsolatedPoints
import Verif.Props.Kde
import Verif.Props.Knn
import Verif.Props.KnnPadded
import Verif.Props.Knox
import Verif.Props.KnoxDrawing
import Verif.Props.KnoxExpected
import Verif.Props.KnoxLocal
import Verif.Props.KnoxPoisson
import Verif.Props.Level
import Verif.Props.LocalLevel
import Verif.Props.Mantel
import Verif.Props.MantelMean
import Verif.Props.Median
import Verif.Props.MedianUnique
import Verif.Props.MedianWarning
import Verif.Props.MoreNeighbours
import Verif.Props.NanPvalue
import Verif.Props.NoInteraction
import Verif.Props.NormalLaw
import Verif.Props.OtherDistances
import Verif.Props.PairsAndNeighbours
import Verif.Props.PatternAlgebra
import Verif.Props.PatternArgs
import Verif.Props.PatternLabels
import Verif.Props.PatternUnits
import Verif.Props.PlottedEvents
import Verif.Props.PointPattern
import Verif.Props.PoissonLaw
import Verif.Props.PopulationLevel
import Verif.Props.PopulationMantel
import Verif.Props.Process
import Verif.Props.ProcessLaw
import Verif.Props.ProcessPatterns
import Verif.Props.QComparable
import Verif.Props.QLevel
import Verif.Props.QOwnQuadrats
import Verif.Props.QStatistic
import Verif.Props.QStatisticPlot
import Verif.Props.QuadratArguments
import Verif.Props.QuadratMean
import Verif.Props.QuadratPlot
import Verif.Props.QuadratUnits
import Verif.Props.RandomCluster
import Verif.Props.RandomNormal
import Verif.Props.RandomPoisson
import Verif.Props.RandomUnits
import Verif.Props.RectangleGrid
import Verif.Props.RectanglePlot
import Verif.Props.RegionCentroid
import Verif.Props.RegionSets
import Verif.Props.Regions
import Verif.Props.RipleyCsr
import Verif.Props.RipleyLevel
import Verif.Props.RipleyMean
import Verif.Props.RipleyReturns
import Verif.Props.RotatedRectangle
import Verif.Props.Sequence
import Verif.Props.ShapeInputs
import Verif.Props.Similarity
import Verif.Props.SimulatedMean
import Verif.Props.SimulatedWindow
import Verif.Props.Skyum
import Verif.Props.Spacetime
import Verif.Props.SpacetimeArgs
import Verif.Props.SpacetimeStats
import Verif.Props.SpacetimeUnits
import Verif.Props.Spread
import Verif.Props.SpreadOfRandomEvents
import Verif.Props.Strauss
import Verif.Props.StraussBalance
import Verif.Props.StraussEnds
import Verif.Props.StraussLaw
import Verif.Props.Superimposed
import Verif.Props.TestStatistic
import Verif.Props.TransformedTests
import Verif.Props.WindowArea
import Verif.Props.WindowPolygons
import Verif.Spec.ArrayEvents
import Verif.Spec.Box
import Verif.Spec.Centrography
import Verif.Spec.Chance
import Verif.Spec.Circle
import Verif.Spec.Csr
import Verif.Spec.DistanceMotion
import Verif.Spec.DistanceShapes
import Verif.Spec.DistanceStats
import Verif.Spec.Drawing
import Verif.Spec.Draws
import Verif.Spec.Exchangeable
import Verif.Spec.Float
import Verif.Spec.FloatChi2
import Verif.Spec.FloatCurves
import Verif.Spec.Geo
import Verif.Spec.Hypergeometric
import Verif.Spec.Inputs
import Verif.Spec.LCurve
import Verif.Spec.Level
import Verif.Spec.Mantel
import Verif.Spec.Motion
import Verif.Spec.Neighbours
import Verif.Spec.NoInteraction
import Verif.Spec.Normal
import Verif.Spec.Pairs
import Verif.Spec.PatternLabels
import Verif.Spec.PatternMotion
import Verif.Spec.PointPattern
import Verif.Spec.PoissonCdf
import Verif.Spec.Polygon
import Verif.Spec.Quadrat
import Verif.Spec.Random
import Verif.Spec.RandomMotion
import Verif.Spec.Sequence
import Verif.Spec.Shapes
import Verif.Spec.Similarity
import Verif.Spec.Spacetime
import Verif.Spec.SpacetimeMotion
import Verif.Spec.Strauss
