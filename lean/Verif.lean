import Verif.Outcome
import Verif.SparseModel
import Verif.SparseRep
import Verif.SparseIter
import Verif.SparseInv
import Verif.SparseOps
import Verif.SparseOps2
import Verif.SparseReach
import Verif.SparseHad
import Verif.SparseApi
import Verif.Props.Sparse
import Verif.Vec
import Verif.VecLemmas
import Verif.Props.Vector
import Verif.DenseModel
import Verif.Dense
import Verif.DenseOps
import Verif.Props.Dense
import Verif.Mat
import Verif.LUModel
import Verif.LUDoolittle
import Verif.LUSolve
import Verif.LUMore
import Verif.LUInv
import Verif.Props.LU
import Verif.Props.Cholesky
import Verif.Props.Envelope
import Verif.Props.Levels
import Verif.ILUModel
import Verif.SparseSorted
import Verif.ILU
import Verif.Props.ILU
import Verif.CGModel
import Verif.CGTheory
import Verif.VecIs
import Verif.CGLink
import Verif.Props.CG
import Verif.FlModel
import Verif.IterativeModel
import Verif.Iterative
import Verif.Props.Iterative
import Verif.OrderModel
import Verif.Order
import Verif.Props.Order
import Verif.ConstructModel
import Verif.Construct
import Verif.Hilbert
import Verif.Props.Construct
import Verif.SimplexModel
import Verif.Simplex
import Verif.Props.Simplex
import Verif.MeshModel
import Verif.Mesh
import Verif.MeshBuild
import Verif.Props.Mesh
import Verif.OutcomeIff
import Verif.Props.MeshValidate
import Verif.MeshThrowModel
import Verif.MeshThrow
import Verif.Props.MeshThrow
import Verif.MeshHandleModel
import Verif.Props.MeshHandle
import Verif.HyperCubeModel
import Verif.HyperCube
import Verif.Props.HyperCube
import Verif.ShapeModel
import Verif.Props.Shape
import Verif.Props.ShapeTables
import Verif.ShapeMesh
import Verif.Props.ShapeMesh
import Verif.QuadratureModel
import Verif.Props.Quadrature
import Verif.LoaderModel
import Verif.Props.Loader
import Verif.Props.LoaderNumber
import Verif.FemModel
import Verif.Props.Fem
import Verif.FemSystem
import Verif.FemEnergy
import Verif.Props.FemAssemble
import Verif.Props.FemGradient
import Verif.Props.FemGradient2
import Verif.Props.FemGrid
import Verif.Props.SorSpd
import Verif.Props.FemSor
import Verif.Props.SorLevels
import Verif.FdmModel
import Verif.Fdm
import Verif.Props.Fdm
import Verif.Props.Heat
import Verif.NormModel
import Verif.Props.Norm
import Verif.Rounding
import Verif.RoundOps
import Verif.RoundLU
import Verif.RoundInv
import Verif.Props.Rounding
import Verif.Props.RoundInv
import Verif.Props.Growth
import Verif.RoundMul
import Verif.Props.RoundMul
import Verif.RoundIter
import Verif.Props.RoundIter
import Verif.AliasModel
import Verif.Alias
import Verif.Props.Alias
import Verif.Props.AliasSparse
import Verif.Props.AliasFactor
import Verif.RoundChol
import Verif.Props.RoundChol
import Verif.ObjLoaderModel
import Verif.Props.ObjLoader
import Verif.VtkModel
import Verif.Props.Vtk
import Verif.Props.VtkMesh
import Verif.PrintModel
import Verif.Props.Print
import Verif.SecondDiff
import Verif.Props.FdmError
import Verif.Props.HeatError
import Verif.VecMoreModel
import Verif.Props.VecMore
import Verif.CxIterativeModel
import Verif.Props.CxIterative
import Verif.Props.FemError
import Verif.Props.FemConv
import Verif.Props.FemSine
import Verif.FemPostModel
import Verif.Props.FemPost
import Verif.Props.DenseMore
import Verif.TinyObjModel
import Verif.Props.ObjNumber
import Verif.Props.ObjNumber2
import Verif.ObjRoundModel
import Verif.Props.ObjRound
import Verif.Props.ObjText
import Verif.Props.ObjSafe
import Verif.Props.ObjSafe2
import Verif.MtlModel
import Verif.Props.Mtl
import Verif.Props.Dominant
import Verif.CheckedModel
import Verif.Props.Checked
import Verif.FemMainModel
import Verif.Props.FemMain
import Verif.Props.FemRun
import Verif.Props.FemFiles
import Verif.Props.FemObj
import Verif.Props.FdmSlow
import Verif.Props.SorRate
import Verif.Props.FdmRate
import Verif.Props.RoundSor
import Verif.Props.RoundFdm
import Verif.Props.RoundFdm2
import Verif.Props.RoundFdm3
import Verif.CGRate
import Verif.Props.CGRate
import Verif.GridSup
import Verif.Props.FemCg
import Verif.Props.FemCgRun
import Verif.Props.FemSame
import Verif.Props.FemSorRun
import Verif.HeatEnergy
import Verif.Props.HeatSlow
import Verif.Props.HeatProgram
import Verif.Props.HeatEnough
import Verif.Props.FemPatch
import Verif.LUReuse
import Verif.Props.Reuse
import Verif.Props.FemTame
import Verif.Props.FemTame2
import Verif.Props.FemLattice
import Verif.Props.FemGrid2
import Verif.Props.FemGrid3
import Verif.Props.FemGrid4
import Verif.Props.MtlValue
import Verif.Props.RoundStop
import Verif.Props.RoundHeat
import Verif.Props.RoundHeat2
import Verif.Props.RoundHeat3
import Verif.GridFileModel
import Verif.Props.GridFile
import Verif.Conformance
import Verif.Conformance2
