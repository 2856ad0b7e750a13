import Verif.Common.Res
import Verif.BinMtx.Props
import Verif.BinMtx.PropsShape
import Verif.BinMtx.PropsText
import Verif.BinMtx.IntModel
import Verif.BinMtx.PropsInt
import Verif.BinMtx.PropsAlias
import Verif.BinTree.Props
import Verif.BinTree.PropsHeap
import Verif.KDTree.Props
import Verif.KDTree.PropsNN
import Verif.KDTree.PropsHeight
import Verif.Combinatorics.Props
import Verif.Combinatorics.PropsInt
import Verif.Triang.Props
import Verif.Mesh1D.Props
import Verif.Blocks.Props
import Verif.Blocks.PropsFrame
import Verif.Blocks.PropsFrameRows
import Verif.Threads.PropsQueue
import Verif.Threads.PropsPool
import Verif.Threads.PropsFair
import Verif.Threads.PropsRace
import Verif.LinAlg.PropsKron
import Verif.LinAlg.PropsKronExact
import Verif.LinAlg.PropsBlock
import Verif.LinAlg.PropsMisc
import Verif.LinAlg.PropsFp
import Verif.Geometry.PropsSimplex
import Verif.Geometry.PropsPlane
import Verif.Geometry.PropsNearest
import Verif.Geometry.PropsMeasure
import Verif.Geometry.PropsSearch
import Verif.Geometry.PropsFlat
import Verif.Geometry.PropsVoronoi
import Verif.Splines.PropsSpline
import Verif.Splines.PropsWhen
import Verif.Splines.PropsAssembly
import Verif.Splines.PropsSolver
import Verif.Splines.PropsExact
import Verif.Splines.PropsReproduce
import Verif.Splines.PropsSmooth
import Verif.Splines.PropsMass
import Verif.FEM.PropsPoly
import Verif.FEM.PropsLagrange
import Verif.FEM.PropsDofs
import Verif.FEM.PropsSpace
import Verif.FEM.PropsEval
import Verif.Quadrature.PropsTables
import Verif.Quadrature.PropsIntegrator
import Verif.PDE.PropsAssembly
import Verif.PDE.PropsOperators
import Verif.PDE.PropsSolver
import Verif.Optim.PropsGrid
import Verif.Optim.PropsLineSearch
import Verif.Optim.PropsRun
import Verif.Optim.PropsBfgs
import Verif.Optim.PropsConvergence
import Verif.Optim.PropsBfgsConv
import Verif.Float.Ieee
import Verif.Optim.FloatModel
import Verif.Optim.PropsFloat
import Verif.Optim.FloatGrid
import Verif.Optim.PropsNan
import Verif.Optim.Objects
import Verif.Optim.ObjectsSpec
import Verif.Optim.LemmasObjects
import Verif.Optim.PropsObjects
import Verif.IO.Number
import Verif.IO.NumberSpec
import Verif.IO.LemmasNumber
import Verif.IO.PropsNumber
import Verif.Splines.PropsApprox
import Verif.Splines.PropsSmoothing
import Verif.PDE.PropsRegression
import Verif.PDE.PropsSemi
import Verif.Fields.PropsDerivatives
import Verif.Fields.PropsExpr
import Verif.Fields.PropsDynamic
import Verif.IO.PropsCsv
import Verif.IO.PropsBinary
import Verif.IO.PropsShp
import Verif.IO.PropsDbf
import Verif.IO.PropsShapeFile
import Verif.Utils.PropsTypeLists
import Verif.Utils.PropsErasure
import Verif.Utils.PropsStorage
import Verif.Utils.PropsSymbols
import Verif.Utils.PropsHash
import Verif.Utils.PropsSparseLU
import Verif.PDE.PropsForm
import Verif.PDE.PropsInit
import Verif.PDE.PropsHistory
import Verif.PDE.Wrapper
import Verif.PDE.WrapperSpec
import Verif.PDE.PropsWrapper
import Verif.PDE.PropsWellPosed
import Verif.PDE.PropsElements
import Verif.Geometry.PropsWalk
import Verif.Geometry.PropsClockwise
import Verif.Geometry.PropsVoronoi2
import Verif.Geometry.PropsVoronoi2Geo
import Verif.Geometry.PropsVoronoi2Edges
import Verif.Triang.PropsEdges3
import Verif.Triang.Handles
import Verif.Triang.PropsHandles
import Verif.Triang.PropsSurface
import Verif.Triang.PropsCount
import Verif.Geometry.PropsProject
import Verif.LinAlg.PropsFspai
import Verif.PDE.PropsEuler
import Verif.LinAlg.PropsFspaiSelect
import Verif.LinAlg.PropsBlockHist
import Verif.PDE.PropsPatch
import Verif.PDE.PropsMaximum
import Verif.PDE.PropsMaximumTime
import Verif.PDE.PropsMaximumMesh
import Verif.PDE.ErrorSpec
import Verif.PDE.PropsError
import Verif.Triang.IterBack
import Verif.Triang.PropsIterBack
import Verif.Mesh1D.Uniform
import Verif.Mesh1D.PropsUniform
import Verif.PDE.WeakTree
import Verif.PDE.WeakTreeSpec
import Verif.PDE.PropsWeakTree
import Verif.Geometry.MeshObject
import Verif.Geometry.MeshObjectSpec
import Verif.Geometry.PropsMeshObject
import Verif.FEM.LemmasMesh
import Verif.PDE.MeshProb
import Verif.PDE.MeshProbSpec
import Verif.PDE.PropsMesh
import Verif.Geometry.LemmasDivergence
import Verif.PDE.LemmasWeak
import Verif.PDE.LemmasL2
import Verif.PDE.ConvergenceSpec
import Verif.PDE.PropsConvergence
import Verif.PDE.HeatSpec
import Verif.PDE.LemmasHeat
import Verif.PDE.PropsHeat
import Verif.PDE.EllipticSpec
import Verif.PDE.LemmasElliptic
import Verif.PDE.PropsElliptic
import Verif.PDE.PropsParabolic
import Verif.PDE.InexactSpec
import Verif.PDE.LemmasInexact
import Verif.PDE.PropsInexact
import Verif.PDE.LemmasInexactTime
import Verif.PDE.PropsInexactTime
import Verif.PDE.QuadSpec
import Verif.PDE.LemmasQuad
import Verif.PDE.LemmasQuadRule
import Verif.PDE.LemmasQuadCell
import Verif.PDE.LemmasQuadModel
import Verif.PDE.LemmasQuadMesh
import Verif.PDE.LemmasQuadTaylor
import Verif.PDE.LemmasQuadError
import Verif.PDE.LemmasQuadGlobal
import Verif.PDE.PropsQuadratic
import Verif.Float.Round
import Verif.Float.Error
import Verif.Splines.FloatModel
import Verif.Splines.PropsFloat
import Verif.Geometry.FloatSearch
import Verif.Geometry.PropsFloatSearch
import Verif.Geometry.FloatInverse
import Verif.Geometry.PropsFloatTriangle
import Verif.Quadrature.FloatModel
import Verif.Quadrature.PropsFloat
import Verif.PDE.ZeroSpec
import Verif.PDE.PropsZero
import Verif.PDE.PropsZeroMore
import Verif.PDE.PropsZeroExact
import Verif.PDE.PropsZeroMesh
import Verif.Float.Sum
import Verif.PDE.FloatAssembly
import Verif.PDE.LemmasRounded
import Verif.PDE.LemmasPerturbed
import Verif.PDE.PropsRounded
import Verif.PDE.FloatCells
import Verif.PDE.PropsRoundedCells
import Verif.PDE.FloatStep
import Verif.PDE.LemmasRoundedTime
import Verif.PDE.PropsRoundedTime
import Verif.PDE.PropsRoundedTimeCells
import Verif.PDE.FloatCells3
import Verif.PDE.PropsRoundedCells3
import Verif.PDE.PropsRoundedSpace
import Verif.KDTree.LemmasAny
import Verif.Geometry.NanModel
import Verif.Geometry.PropsNanLocate
import Verif.Fields.AccuracySpec
import Verif.Fields.LemmasAccuracy
import Verif.Fields.FloatDerivatives
import Verif.Fields.PropsAccuracy
import Verif.Quadrature.LemmasTaylor
import Verif.Geometry.LemmasConverge
import Verif.Geometry.PropsConverge
import Verif.PDE.SpaceTimeSpec
import Verif.PDE.PropsSpaceTime
import Verif.LinAlg.PropsBlockExact
import Verif.PDE.PropsFitMore
import Verif.PDE.PropsFitInexact
import Verif.PDE.PropsFitInexact2
import Verif.PDE.PropsRegression2
import Verif.PDE.PropsFit2
import Verif.BinMtx.PropsCopyExact
import Verif.BinTree.PropsFind
import Verif.PDE.PropsSemiInexact
import Verif.PDE.PropsSemiInexact2
import Verif.PDE.FitRoundedSpec
import Verif.PDE.PropsFitRounded
import Verif.PDE.LemmasPsiRounded
import Verif.PDE.PropsFitRoundedMesh
import Verif.PDE.SemiRoundedSpec
import Verif.PDE.LemmasNearRounded
import Verif.PDE.PropsSemiRounded
import Verif.PDE.PropsSemiRoundedMesh
import Verif.PDE.LemmasTame
import Verif.Splines.FloatSolver
import Verif.PDE.SmoothRoundedSpec
import Verif.PDE.LemmasSmoothRounded
import Verif.PDE.PropsSmoothRounded
import Verif.Splines.LemmasFloatSolver
import Verif.PDE.PropsSplineRounded
import Verif.PDE.PropsSmoothOptimal
