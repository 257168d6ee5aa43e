import Verif.Doctest
import Verif.DoctestGrids
import Verif.Lib.Accuracy
import Verif.Lib.Accuracy2
import Verif.Lib.Alias
import Verif.Lib.Arr2
import Verif.Lib.Basis
import Verif.Lib.Bil
import Verif.Lib.ChebEnergy
import Verif.Lib.ChebL2
import Verif.Lib.ChebStab
import Verif.Lib.ChebyshevAccept
import Verif.Lib.ChebyshevForms
import Verif.Lib.ChebyshevGrid
import Verif.Lib.ChebyshevHodge
import Verif.Lib.ChebyshevStar
import Verif.Lib.Cohomology
import Verif.Lib.Condition
import Verif.Lib.Dissipative
import Verif.Lib.Duality
import Verif.Lib.DualityCheb
import Verif.Lib.DualityGrids
import Verif.Lib.ELin
import Verif.Lib.Energy
import Verif.Lib.Energy2
import Verif.Lib.Exact2
import Verif.Lib.Exp
import Verif.Lib.Factors
import Verif.Lib.Fourier
import Verif.Lib.Grid2
import Verif.Lib.IntervalGrid
import Verif.Lib.Jet
import Verif.Lib.JsonRound
import Verif.Lib.JsonText
import Verif.Lib.JsonWrite
import Verif.Lib.KInv
import Verif.Lib.KOp
import Verif.Lib.LagrangePoly
import Verif.Lib.Laplace
import Verif.Lib.Leibniz2
import Verif.Lib.Lin
import Verif.Lib.Lin2
import Verif.Lib.LinOps
import Verif.Lib.Mirror
import Verif.Lib.Orthogonal
import Verif.Lib.PeriodicForms
import Verif.Lib.PeriodicGrid
import Verif.Lib.PowerSeries
import Verif.Lib.Proj2
import Verif.Lib.Refine2
import Verif.Lib.RegularGrid
import Verif.Lib.Res
import Verif.Lib.Smooth
import Verif.Lib.Smooth1
import Verif.Lib.Span
import Verif.Lib.Strong
import Verif.Lib.Symmetry
import Verif.Lib.Symmetry2
import Verif.Lib.Symmetry2Act
import Verif.Lib.SymmetryDet
import Verif.Lib.SymmetryGrids
import Verif.Lib.SymmetryOps
import Verif.Lib.SymmetryWedge
import Verif.Lib.Tab
import Verif.Lib.Tensor
import Verif.Lib.Triangle
import Verif.Lib.Trig
import Verif.Lib.Wedge2
import Verif.Lib.Wiener
import Verif.Model.Accessors
import Verif.Model.Chebyshev
import Verif.Model.Common
import Verif.Model.Data
import Verif.Model.Decform
import Verif.Model.DformEval
import Verif.Model.Diffeo
import Verif.Model.Discretise
import Verif.Model.Flows
import Verif.Model.Forms
import Verif.Model.Grid2
import Verif.Model.Grids
import Verif.Model.Helper
import Verif.Model.Integrate
import Verif.Model.JsonText
import Verif.Model.MakeRst
import Verif.Model.MemoText
import Verif.Model.Misc
import Verif.Model.Names
import Verif.Model.Nan2
import Verif.Model.Notebooks
import Verif.Model.Np
import Verif.Model.Objects
import Verif.Model.Periodic
import Verif.Model.Pictures
import Verif.Model.Regular
import Verif.Model.Rounding
import Verif.Model.Schur
import Verif.Model.SchurSin
import Verif.Model.Spectral
import Verif.Model.StarMatrix
import Verif.Model.Switch
import Verif.Model.Symbolic
import Verif.Model.Transforms
import Verif.Props.Accessors
import Verif.Props.Accuracy
import Verif.Props.Accuracy2
import Verif.Props.AccuracyCheb
import Verif.Props.AccuracyLaplace
import Verif.Props.AccuracyProducts
import Verif.Props.AccuracyProducts2
import Verif.Props.Arrays
import Verif.Props.Backwards
import Verif.Props.Basis
import Verif.Props.BasisDerivative
import Verif.Props.Cartan
import Verif.Props.Cells
import Verif.Props.Chebyshev
import Verif.Props.ChebyshevCalculus
import Verif.Props.ChebyshevInjective
import Verif.Props.Condition
import Verif.Props.Data
import Verif.Props.Decform
import Verif.Props.DecformExpr
import Verif.Props.DecformOps
import Verif.Props.DeprecatedStars
import Verif.Props.Derivative
import Verif.Props.DformEval
import Verif.Props.Diffeo
import Verif.Props.Discretise
import Verif.Props.Energy
import Verif.Props.Explicit
import Verif.Props.ExprBoundary
import Verif.Props.ExprExact
import Verif.Props.ExprOne
import Verif.Props.Figures
import Verif.Props.Flatten
import Verif.Props.Flows
import Verif.Props.Forms
import Verif.Props.Grid2
import Verif.Props.Grid2Agree
import Verif.Props.Grid2Basis
import Verif.Props.Grid2Cohomology
import Verif.Props.Grid2Commute
import Verif.Props.Grid2Exact
import Verif.Props.Grid2Leibniz
import Verif.Props.Grid2Lengths
import Verif.Props.Grid2Wedge
import Verif.Props.Helpers
import Verif.Props.HodgeDecomposition
import Verif.Props.Integrate
import Verif.Props.JsonText
import Verif.Props.Lagrange
import Verif.Props.LaplaceOne
import Verif.Props.LeibnizCheb
import Verif.Props.Lengths
import Verif.Props.MakeRst
import Verif.Props.MemoText
import Verif.Props.Names
import Verif.Props.Nested
import Verif.Props.Notebooks
import Verif.Props.Objects
import Verif.Props.OddBases
import Verif.Props.Periodic
import Verif.Props.PeriodicCalculus
import Verif.Props.Pictures
import Verif.Props.Poisson
import Verif.Props.Poisson2
import Verif.Props.PoissonCheb
import Verif.Props.PoissonConverge
import Verif.Props.PoissonNeumann
import Verif.Props.PoissonNeumannError
import Verif.Props.PullBack
import Verif.Props.PullBack2
import Verif.Props.Quadrature
import Verif.Props.QuadratureError
import Verif.Props.ReconstructCalculus
import Verif.Props.ReconstructWords
import Verif.Props.Reconstruction
import Verif.Props.Reconstruction2
import Verif.Props.Regular
import Verif.Props.Residual
import Verif.Props.ResidualOne
import Verif.Props.ResidualPeriodic
import Verif.Props.Rounding
import Verif.Props.SampleFlows
import Verif.Props.Scaling
import Verif.Props.Schur
import Verif.Props.SchurSin
import Verif.Props.Separable
import Verif.Props.Separable2
import Verif.Props.SharpContraction
import Verif.Props.SplitArgs
import Verif.Props.StarMatrix
import Verif.Props.Store
import Verif.Props.Switch
import Verif.Props.Symbolic
import Verif.Props.Symmetry
import Verif.Props.Symmetry2
import Verif.Props.Toeplitz
import Verif.Props.Transforms
import Verif.Props.Wedge
import Verif.Props.WedgeLimit
import Verif.Props.WellPosed
import Verif.Props.WellPosed2
import Verif.Props.WellPosed3
import Verif.Props.WellPosed4
import Verif.Props.Whitney
import Verif.Spec
