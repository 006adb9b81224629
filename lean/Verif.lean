import Verif.Cache.Props
import Verif.Cache.HitProps
import Verif.Blocks.LUProps
import Verif.Frequency.SymProps
import Verif.Frequency.FreqProps
import Verif.Airy.Props
import Verif.Geometry.AlignProps
import Verif.Problems.EqProps
import Verif.Problems.HullProps
import Verif.Problems.BatchProps
import Verif.PostPro.RaoProps
import Verif.Meshes.QuadratureProps
import Verif.Meshes.ComponentsProps
import Verif.Meshes.SymmetricProps
import Verif.Bodies.MotionProps
import Verif.Bodies.ArrayProps
import Verif.Bodies.LidProps
import Verif.Meshes.ClipSides
import Verif.Bodies.ClipProps
import Verif.Bodies.LabelProps
import Verif.LowRank.Props
import Verif.Engines.Examples
import Verif.Tabulation.Props
import Verif.Tabulation.FileProps
import Verif.Green.PlaneProps
import Verif.Green.AssemblyProps
import Verif.Green.CoeffProps
import Verif.Green.VariantProps
import Verif.Datasets.FillProps
import Verif.Datasets.ComplexProps
import Verif.PostPro.FieldProps
import Verif.Tools.TimerProps
import Verif.Bodies.HydroInertia
import Verif.Bodies.HydroGeneral
import Verif.Meshes.PredefinedModel
import Verif.Meshes.GridProps
import Verif.Meshes.RadiusProps
import Verif.Meshes.RoundProps
import Verif.Meshes.RevolutionProps
import Verif.Meshes.BoxProps
import Verif.Meshes.PipeProps
import Verif.Files.TextModel
import Verif.Files.TextLemmas
import Verif.Files.MeshFilesModel
import Verif.Files.MeshFilesLemmas
import Verif.Files.RoundProps
import Verif.Files.MarProps
import Verif.Files.NatProps
import Verif.Files.HstProps
import Verif.Files.PnlProps
import Verif.Files.GdfProps
import Verif.Files.StlModel
import Verif.Files.StlProps
import Verif.Datasets.BemioModel
import Verif.Datasets.BemioProps
import Verif.Engines.PrecondModel
import Verif.Engines.PrecondLemmas
import Verif.Engines.PrecondProps
import Verif.Green.PronyModel
import Verif.Green.PronyProps
import Verif.Files.NemohModel
import Verif.Files.NemohProps
import Verif.Files.HstOtherProps
import Verif.Bodies.IrregularModel
import Verif.Bodies.IrregularProps
import Verif.Meshes.LidMeshModel
import Verif.Meshes.LidMeshProps
import Verif.Bodies.DofsModel
import Verif.Bodies.DofsProps
import Verif.Problems.OrderModel
import Verif.Problems.OrderProps
import Verif.Meshes.JoinSymModel
import Verif.Meshes.JoinSymProps
import Verif.Meshes.ShareModel
import Verif.Meshes.ShareProps
import Verif.Files.NemohCaseProps
import Verif.Meshes.ClipSymProps
import Verif.Meshes.ClipMoveProps
import Verif.Datasets.KochinModel
import Verif.Datasets.KochinProps
import Verif.Datasets.BareModel
import Verif.Datasets.BareProps
import Verif.Datasets.HydrostaticsModel
import Verif.Datasets.HydrostaticsProps
import Verif.Bodies.ClusterModel
import Verif.Bodies.ClusterProps
import Verif.Bodies.MinceModel
import Verif.Bodies.MinceProps
import Verif.Meshes.ClipCut
import Verif.Meshes.ClipImageProps
import Verif.Meshes.MethodModel
import Verif.Meshes.MethodProps
import Verif.Problems.WarnModel
import Verif.Problems.WarnProps
import Verif.Scene.NodeModel
import Verif.Scene.NodeProps
import Verif.Files.NumberedModel
import Verif.Files.NumberedProps
import Verif.Files.LegacyModel
import Verif.Files.LegacyProps
import Verif.Blocks.MatmatModel
import Verif.Blocks.MatmatProps
import Verif.Datasets.MeshInfoModel
import Verif.Datasets.MeshInfoProps
import Verif.Green.RootsModel
import Verif.Green.RootsProps
import Verif.Meshes.ImmersedModel
import Verif.Meshes.ImmersedProps
import Verif.Geometry.RelationModel
import Verif.Geometry.RelationProps
import Verif.Meshes.LidDownModel
import Verif.Meshes.LidDownProps
import Verif.Meshes.FaceSetModel
import Verif.Meshes.FaceSetProps
import Verif.Meshes.CubeModel
import Verif.Meshes.CubeProps
import Verif.Files.TecModel
import Verif.Files.TecProps
import Verif.Files.DatModel
import Verif.Files.DatProps
import Verif.Green.FinModel
import Verif.Green.FinProps
import Verif.Green.FFModel
import Verif.Green.FFProps
import Verif.Green.HousModel
import Verif.Green.HousProps
import Verif.Green.LiscModel
import Verif.Green.LiscProps
import Verif.Green.SprbmModel
import Verif.Green.SprbmProps
import Verif.Green.PolyBound
import Verif.Green.LwnModel
import Verif.Green.LwnSeries
import Verif.Green.LwnOsc
import Verif.Green.LwnNear
import Verif.Green.LwnFar
import Verif.Green.LwnFarBessel
import Verif.Green.LwnFarStruve
import Verif.Green.LwnProps
import Verif.Blocks.ArithModel
import Verif.Blocks.ArithProps
import Verif.Green.EulerGamma
import Verif.Green.FinBesselModel
import Verif.Green.FinBesselSeries
import Verif.Green.FinBesselNear
import Verif.Green.FinBesselFar
import Verif.Green.FinBesselProps
import Verif.Green.FinKModel
import Verif.Green.FinKSeries
import Verif.Green.FinKDecay
import Verif.Green.FinKFirst
import Verif.Green.FinKRatio
import Verif.Green.FinKGamma
import Verif.Green.FinKFar
import Verif.Green.FinKNear
import Verif.Green.FinKProps
import Verif.Green.ExpIntModel
import Verif.Green.ExpIntSpec
import Verif.Green.ExpIntOne
import Verif.Green.ExpIntEi
import Verif.Green.ExpIntProps
import Verif.Green.LintonModel
import Verif.Green.LintonSeries
import Verif.Green.LintonProps
import Verif.Green.LintonFirst
import Verif.Green.LimesModel
import Verif.Green.LimesLemmas
import Verif.Green.LimesProps
import Verif.Green.QuadModel
import Verif.Green.QuadLemmas
import Verif.Green.QuadProps
import Verif.Green.ErfModel
import Verif.Green.ErfNear
import Verif.Green.ErfFar
import Verif.Green.ErfProps
import Verif.Green.LintonTailModel
import Verif.Green.LintonTail
import Verif.Green.LintonDerivModel
import Verif.Green.LintonDeriv
import Verif.Blocks.SizeModel
import Verif.Blocks.SizeProps
import Verif.Tabulation.IntegModel
import Verif.Tabulation.IntegLemmas
import Verif.Tabulation.IntegApprox
import Verif.Tabulation.IntegProps
import Verif.Tabulation.EdgeProps
import Verif.Green.IntPoly
import Verif.Tabulation.ExpE1Model
import Verif.Tabulation.ExpE1Lemmas
import Verif.Tabulation.ExpE1Near
import Verif.Tabulation.ExpE1Props
import Verif.Files.FormatProps
import Verif.Tabulation.ExpE1Far
import Verif.Green.DispModel
import Verif.Green.DispProps
import Verif.Green.DispEnd
import Verif.LowRank.RankProps
import Verif.LowRank.WrapModel
import Verif.LowRank.WrapProps
import Verif.Blocks.TypeModel
import Verif.Blocks.TypeProps
import Verif.Green.ImageModel
import Verif.Green.ImageProps
import Verif.Green.ImageFar
import Verif.Green.LintonErrModel
import Verif.Green.LintonErrProps
import Verif.Green.DcoefModel
import Verif.Green.DcoefProps
import Verif.Meshes.HealMeshModel
import Verif.Meshes.HealMeshProps
import Verif.Engines.FarModel
import Verif.Engines.FarProps
import Verif.Engines.MemoModel
import Verif.Engines.MemoProps
import Verif.Engines.SameProps
import Verif.Tabulation.DirModel
import Verif.Tabulation.DirProps
import Verif.Files.DriverModel
import Verif.Files.DriverProps
