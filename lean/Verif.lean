import Verif.AdsCache
import Verif.AdsCacheProps
import Verif.AirVac
import Verif.Alg
import Verif.AlgBackground
import Verif.AlgProps
import Verif.Angle
import Verif.AngleDms
import Verif.AngleExact
import Verif.AngleParse
import Verif.AngleParseProps
import Verif.AngleProps
import Verif.AngleText
import Verif.Animate
import Verif.ArrayNodes
import Verif.ArrayNodesProps
import Verif.BandGroup
import Verif.Blackbody
import Verif.Calendar
import Verif.CalendarProps
import Verif.CalendarTime
import Verif.Camera
import Verif.CatSearch
import Verif.CatVisit
import Verif.CatVisitLemmas
import Verif.CatVisitProps
import Verif.CatVisitSpec
import Verif.Catalog
import Verif.CatalogExact
import Verif.CatalogLemmas
import Verif.CatalogProps
import Verif.CcdImage
import Verif.CcdImageClip
import Verif.CcdImageProps
import Verif.CcdReduce
import Verif.CcdScaling
import Verif.CheckType
import Verif.CheckTypeExact
import Verif.CioLocator
import Verif.Cmd
import Verif.CmdLaws
import Verif.CmdProps
import Verif.CmdTables
import Verif.ConfigAccess
import Verif.ConfigComments
import Verif.ConfigEncoding
import Verif.ConfigErrors
import Verif.ConfigFile
import Verif.ConfigInterp
import Verif.ConfigInterpProps
import Verif.ConfigLife
import Verif.ConfigMarker
import Verif.ConfigMerge
import Verif.ConfigMulti
import Verif.ConfigProps
import Verif.ConfigSection
import Verif.ConfigSectionProps
import Verif.ConfigTree
import Verif.ConfigUnrepr
import Verif.ConfigValidate
import Verif.ConfigValidateAfter
import Verif.ConfigValidateProps
import Verif.CoordFuncs
import Verif.CoordSky
import Verif.CosmoDist
import Verif.CosmoRegistry
import Verif.CumPlot
import Verif.DeltaVir
import Verif.Derived
import Verif.DerivedMore
import Verif.DerivedProps
import Verif.Disks
import Verif.DistSync
import Verif.DocSig
import Verif.DoneTargets
import Verif.DustMap
import Verif.EarthSeries
import Verif.EphemObj
import Verif.EqCtor
import Verif.Extinction
import Verif.EyeColor
import Verif.Field
import Verif.FieldExact
import Verif.FieldExtract
import Verif.FieldMore
import Verif.FieldNode
import Verif.FieldNodeProps
import Verif.FieldProps
import Verif.FileBand
import Verif.FitContinuum
import Verif.FixedColumn
import Verif.FluxRatio
import Verif.Frames
import Verif.FramesEpoch
import Verif.FramesGeom
import Verif.FramesProps
import Verif.FullSed
import Verif.GaussHermite
import Verif.GetData
import Verif.GuideStars
import Verif.ImageRange
import Verif.Indent
import Verif.InsertInto
import Verif.InstallTool
import Verif.Installer
import Verif.IpythonSetup
import Verif.Kepler
import Verif.LatLong
import Verif.LatLongProps
import Verif.Latitude
import Verif.LineList
import Verif.LineListTol
import Verif.LinkField
import Verif.MaskNames
import Verif.MatchCoords
import Verif.ModelSpec
import Verif.Mosaic
import Verif.NfwHalo
import Verif.NfwProjected
import Verif.NightPlot
import Verif.Nutation
import Verif.ObsDb
import Verif.OffsetDialog
import Verif.Phot
import Verif.PhotArrays
import Verif.PhotBand
import Verif.PhotConv
import Verif.PhotModel
import Verif.PhotObs
import Verif.PhotSystems
import Verif.Pickle
import Verif.Pipeline
import Verif.PipelineAccum
import Verif.PipelineExact
import Verif.PipelineFifo
import Verif.PipelineLemmas
import Verif.PipelineMore
import Verif.PipelineMsgProps
import Verif.PipelineProps
import Verif.PipelineSingle
import Verif.PipelineSingleExact
import Verif.PipelineSingleProps
import Verif.PipelineSpec
import Verif.PipelineStage
import Verif.PlanetTables
import Verif.PlotAction
import Verif.PlotActionProps
import Verif.PlotHelpers
import Verif.PosArrays
import Verif.Profiles
import Verif.ProjectDirs
import Verif.Projects
import Verif.ProperMotion
import Verif.PubApj
import Verif.PubArxiv
import Verif.PubPrep
import Verif.PubPrepProps
import Verif.PyList
import Verif.PyListLemmas
import Verif.PyfitsLink
import Verif.RectFrames
import Verif.RectFramesProps
import Verif.Registry
import Verif.RegistryProps
import Verif.RotZoom
import Verif.Rotation
import Verif.RotationExact
import Verif.RotationProps
import Verif.Scatter4d
import Verif.ScatterDensity
import Verif.ScatterLasso
import Verif.Schechter
import Verif.SedField
import Verif.SeriesFiles
import Verif.Sersic
import Verif.Sextractor
import Verif.SiteAttr
import Verif.SiteHorizon
import Verif.SiteRise
import Verif.SiteSky
import Verif.SiteTime
import Verif.SkySep
import Verif.Source
import Verif.SourceMore
import Verif.SourceProps
import Verif.SpecAlign
import Verif.SpecAxis
import Verif.SpecAxisProps
import Verif.SpecEdges
import Verif.SpecFeature
import Verif.SpecFeatureProps
import Verif.SpecFiles
import Verif.SpecFlux
import Verif.SpecNoise
import Verif.SpecPlot
import Verif.SpecTarget
import Verif.Spectrum
import Verif.SpectrumCont
import Verif.SpectrumHist
import Verif.SpectrumProps
import Verif.Spylot
import Verif.SpylotDraw
import Verif.SpylotLists
import Verif.SpylotWidgets
import Verif.Stats
import Verif.StatsBins
import Verif.StatsBiweight
import Verif.StatsIqr
import Verif.StatsMoments
import Verif.StatsPca
import Verif.StatsProps
import Verif.StellarMass
import Verif.StructNode
import Verif.StructNodeProps
import Verif.SymMap
import Verif.SymMapExact
import Verif.SymMapProps
import Verif.TeX
import Verif.TeXDecl
import Verif.TeXDeclContent
import Verif.TeXFile
import Verif.TeXFileProps
import Verif.TeXFileRound
import Verif.TeXLines
import Verif.TeXProps
import Verif.TeXTree
import Verif.TextFields
import Verif.TextTable
import Verif.TextTableProps
import Verif.TimeScale
import Verif.Tipsy
import Verif.TodoMod
import Verif.Transform
import Verif.TransformExact
import Verif.TransformProps
import Verif.VOTable
import Verif.VOTableProps
import Verif.VersionStr
import Verif.YearPlot
import Verif.ZFind
