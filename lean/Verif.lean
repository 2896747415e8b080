import Verif.Basic.Vec
import Verif.Basic.Real
import Verif.Spec.Rigid
import Verif.Model.Isometry
import Verif.Spec.Axis
import Verif.Lemmas.Isometry
import Verif.Props.Isometry
import Verif.Model.Remap
import Verif.Lemmas.Remap
import Verif.Props.Remap
import Verif.Props.Lattice
import Verif.Model.Sky
import Verif.Props.Sky
import Verif.Props.Rsd
import Verif.Model.TruncCauchy
import Verif.Props.TruncCauchy
import Verif.Model.Box
import Verif.Props.Box
import Verif.Props.SubPad
import Verif.Props.BoxRemap
import Verif.Model.Alias
import Verif.Props.Alias
import Verif.Model.Cutsky
import Verif.Spec.Cutsky
import Verif.Props.BoxToCutsky
import Verif.Props.CutskyToBox
import Verif.Props.CutskyLayout
import Verif.Model.Mask
import Verif.Props.Mask
import Verif.Props.CutskyRows
import Verif.Props.Sampling
import Verif.Props.RandomCat
import Verif.Model.Radial
import Verif.Lemmas.Interp
import Verif.Props.Distance
import Verif.Props.RedshiftDensity
import Verif.Props.DensityInterp
import Verif.Props.SmearSample
import Verif.Props.TabMask
import Verif.Props.TabMaskNorm
import Verif.Model.Smearing
import Verif.Props.Smearing
import Verif.Model.Mesh
import Verif.Model.HalfMesh
import Verif.Model.InPlace
import Verif.Model.MaskInit
import Verif.Lemmas.Mesh
import Verif.Props.MeshGeom
import Verif.Props.GaussField
import Verif.Props.Poisson
import Verif.Props.Lagrangian
import Verif.Props.Hermitian
import Verif.Props.Kaiser
import Verif.Props.Interlace
import Verif.Props.Readout
import Verif.Model.Blinding
import Verif.Spec.Blinding
import Verif.Lemmas.Blinding
import Verif.Props.BlindFormat
import Verif.Props.BlindCosmo
import Verif.Props.BlindAp
import Verif.Props.BlindRsd
import Verif.Props.BlindShuffle
import Verif.Model.Png
import Verif.Spec.Png
import Verif.Props.BlindPng
import Verif.Model.EffectiveRedshift
import Verif.Props.EffectiveRedshift
import Verif.Model.Fiber
import Verif.Spec.Fiber
import Verif.Lemmas.Fiber
import Verif.Lemmas.FiberTile
import Verif.Lemmas.FiberPass
import Verif.Lemmas.FiberRun
import Verif.Lemmas.FiberComp
import Verif.Props.FiberAssign
import Verif.Props.FiberWitness
import Verif.Props.FiberWeights
import Verif.Props.FiberConserve
import Verif.Model.Bricks
import Verif.Spec.Bricks
import Verif.Lemmas.Bricks
import Verif.Lemmas.BricksRank
import Verif.Props.Bricks
import Verif.Props.BricksWitness
import Verif.Model.Footprint
import Verif.Spec.Footprint
import Verif.Props.Footprint
import Verif.Props.Regions
import Verif.Model.Script
import Verif.Props.Script
import Verif.Model.RadialSpline
import Verif.Spec.Spline
import Verif.Props.RadialSpline
import Verif.Model.RadialScript
import Verif.Props.RadialScript
import Verif.Model.Tracer
import Verif.Props.Tracer
import Verif.Model.MockObject
import Verif.Props.MockObject
import Verif.Model.Names
import Verif.Lemmas.Names
import Verif.Model.FiberFiles
import Verif.Props.FiberFiles
import Verif.Model.Sv3
import Verif.Props.Sv3
import Verif.Model.Sv3Cut
import Verif.Props.Sv3Cut
import Verif.Model.CutskyCall
import Verif.Props.CutskyCall
import Verif.Model.FiberV0
import Verif.Props.FiberV0
import Verif.Props.BlindShot
import Verif.Props.BricksBroadcast
import Verif.Props.Survey
import Verif.Props.RadialIntegral
import Verif.Props.RandomCall
import Verif.Props.SkyFiles
import Verif.Spec.Draws
import Verif.Props.Chance
import Verif.Props.Rejection
import Verif.Props.UniformRandoms
import Verif.Props.Laws
import Verif.Props.FieldStats
import Verif.Props.PoissonLaw
import Verif.Props.HalfMesh
import Verif.Props.InPlace
import Verif.Props.MaskInit
import Verif.Props.Homogeneity
import Verif.Props.UniformRegions
import Verif.Basic.Rounding
import Verif.Model.Rounded
import Verif.Props.Rounded
import Verif.Props.RoundedRemap
import Verif.Props.RoundedMask
import Verif.Lemmas.RoundedKeys
import Verif.Props.RoundedLattice
import Verif.Spec.CubicSpline
import Verif.Spec.SplinePieces
import Verif.Lemmas.CubicSpline
import Verif.Props.SplineValues
import Verif.Props.BoxInit
import Verif.Props.LagrangianLaw
import Verif.Model.Mpi
import Verif.Spec.Mpi
import Verif.Lemmas.Mpi
import Verif.Props.Ranks
import Verif.Props.Communicators
import Verif.Model.PoissonRanks
import Verif.Props.PoissonRanks
import Verif.Model.MpiErrors
import Verif.Props.RankErrors
import Verif.Props.RankFiber
import Verif.Props.RoundedMock
import Verif.Props.SmearSpline
import Verif.Model.Seeds
import Verif.Props.Seeds
import Verif.Model.RoundedIsometry
import Verif.Lemmas.RoundedIsometry
import Verif.Props.RoundedIsometry
import Verif.Model.RoundedTwoVectors
import Verif.Lemmas.RoundedTwoVectors
import Verif.Props.RoundedTwoVectors
import Verif.Model.RoundedSky
import Verif.Props.RoundedSky
import Verif.Model.RoundedRsd
import Verif.Props.RoundedRsd
import Verif.Model.RoundedBox
import Verif.Props.RoundedBox
import Verif.Model.RoundedMoves
import Verif.Props.RoundedMoves
import Verif.Props.RoundedQuarter
import Verif.Model.RoundedBlinding
import Verif.Props.RoundedBlinding
import Verif.Model.RoundedDensity
import Verif.Props.RoundedDensity
import Verif.Props.Rounds
import Verif.Props.RoundedBack
import Verif.Props.RoundedLognormal
import Verif.Props.RoundedLayout
import Verif.Props.RoundedCutsky
import Verif.Props.RoundedPlacement
import Verif.Props.RoundedOutputs
import Verif.Props.RoundedOpenings
