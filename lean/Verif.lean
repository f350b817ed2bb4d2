import Verif.Model.Boundaries
import Verif.Lemmas.Arr
import Verif.Lemmas.Boundaries
import Verif.Props.Fixtures
import Verif.Props.Grids
import Verif.Props.Shift
import Verif.Props.Ghost
import Verif.Props.PadTrim
import Verif.Props.Impose
import Verif.Props.BCUtils
import Verif.Model.Interpolation
import Verif.Props.FD
import Verif.Props.Wall
import Verif.Props.Interp
import Verif.Props.Advection
import Verif.Props.VanLeer
import Verif.Props.TimeStep
import Verif.Props.SemiLagrangian
import Verif.Props.Pressure
import Verif.Props.LaplacianMatrix
import Verif.Props.FastDiag
import Verif.Props.PressureSolve
import Verif.Props.DiffusionSolve
import Verif.Props.DiffusionLayout

import Verif.Props.TimeStepping
import Verif.Props.Imex
import Verif.Props.ImexSchemes
import Verif.Props.FuncUtils
import Verif.Props.ArrayUtils
import Verif.Props.Interp1d
import Verif.Props.GramSchmidt
import Verif.Props.Resize
import Verif.Props.SpectralUtils
import Verif.Props.SpectralVelocity
import Verif.Props.SpectralEquations
import Verif.Props.Forcings
import Verif.Props.Filters
import Verif.Props.TaylorGreen
import Verif.Props.InitialConditions
import Verif.Model.Equations
import Verif.Lemmas.Equations
import Verif.Props.Equations
import Verif.Props.NavierStokes
import Verif.Props.ImplicitNS
import Verif.Props.WallStep
import Verif.Model.Tiling
import Verif.Model.PeriodicConv
import Verif.SpecML
import Verif.Lemmas.Tiling
import Verif.Props.Tiling
import Verif.Props.PeriodicConv
import Verif.Model.Patches
import Verif.Model.Polynomial
import Verif.Model.SpatialDerivative
import Verif.SpecPoly
import Verif.Lemmas.Patches
import Verif.Lemmas.Polynomial
import Verif.Lemmas.SpatialDerivative
import Verif.Props.Patches
import Verif.Props.Polynomial
import Verif.Props.SpatialDerivative
import Verif.Props.FusedDerivative
import Verif.Props.GradientTensor
import Verif.Model.Collocated
import Verif.Props.Collocated
import Verif.Props.CollocatedProjection
import Verif.Props.CollocatedStep
import Verif.Model.TrainUtils
import Verif.Props.TrainUtils
import Verif.Model.Metrics
import Verif.Props.Metrics
import Verif.Lemmas.Fourier2
import Verif.Props.SpectralNS
import Verif.Model.Subgrid
import Verif.SpecSubgrid
import Verif.Lemmas.Subgrid
import Verif.Props.Subgrid
import Verif.Props.SubgridStep
import Verif.Model.ModelUtils
import Verif.Props.ModelUtils
import Verif.Model.Encoders
import Verif.Lemmas.Rfft
import Verif.Props.Encoders
import Verif.Model.Networks
import Verif.Props.Networks
import Verif.Model.LearnedInterpolation
import Verif.Props.LearnedInterpolation
import Verif.Props.LearnedAdvection
import Verif.Model.SpectralForcings
import Verif.Lemmas.Parseval
import Verif.Props.ExponentialFilter
import Verif.Props.SpectralStep
import Verif.Props.Circulation
import Verif.Props.SpectralScheme
import Verif.Props.RandomForcing
import Verif.Props.VorticityForcing
import Verif.Model.Evaluation
import Verif.Props.Spectrum
import Verif.Props.Correlation
import Verif.Props.Isotropic
import Verif.Props.DatasetMetrics
import Verif.Model.PointInterpolation
import Verif.Props.PointInterpolation
import Verif.Props.PointLinear
import Verif.Model.Towers
import Verif.Props.Towers
import Verif.Props.ResidualTowers
import Verif.Props.MirrorConv
import Verif.SpecTranslate
import Verif.Lemmas.Translate
import Verif.Props.Translation
import Verif.Props.TranslationAdvection
import Verif.Props.TranslationSemiLagrangian
import Verif.Props.TranslationProjection
import Verif.Props.TranslationSteps
import Verif.Props.TranslationTrajectory
import Verif.SpecPermute
import Verif.Lemmas.Permute
import Verif.Props.Permutation
import Verif.Props.PermutationAdvection
import Verif.Props.PermutationSteps
import Verif.Props.PermutationTrajectory
import Verif.Props.PermutationWalls
import Verif.Props.VanLeerDefects
import Verif.Props.Pytree
import Verif.Props.ConjugateGradient
import Verif.Props.MLSolvers
import Verif.Props.Viscosities
import Verif.Props.MLInterpolation
import Verif.Props.Reductions
import Verif.SpecTopHat
import Verif.Lemmas.TopHat
import Verif.Props.TopHat
import Verif.Props.TopHatWalls
import Verif.Props.TopHatExamples
import Verif.SpecSmooth
import Verif.Lemmas.Taylor
import Verif.Props.Accuracy
import Verif.Props.AccuracyInterp
import Verif.Props.AccuracyAdvection
import Verif.Props.Convergence
import Verif.Props.ConvergenceImplicit
import Verif.Props.ConvergenceAdvection
import Verif.Props.ConvergenceSemiLagrangian
import Verif.Props.ConvergenceWalls
import Verif.Props.ConvergenceWallsImplicit
import Verif.Props.ConvectWalls
import Verif.Props.AccuracyExamples
import Verif.SpecODE
import Verif.Lemmas.TaylorVector
import Verif.Lemmas.Order
import Verif.Props.TimeConvergence
import Verif.Props.RK4Convergence
import Verif.Props.ImexConvergence
import Verif.Lemmas.OrderSums
import Verif.Props.ImexOrder
import Verif.Props.Sil3Order
import Verif.Props.TimeConvergenceExamples
import Verif.Lemmas.ProductFlux
import Verif.Lemmas.DiscreteFluid
import Verif.Lemmas.DiscreteConvection
import Verif.Lemmas.FluidStep
import Verif.SpecFluid
import Verif.Props.AccuracyConvection
import Verif.Lemmas.Limiter
import Verif.Props.AccuracyVanLeer
import Verif.Props.AccuracyWalls
import Verif.Props.FluidAccuracy
import Verif.Props.FluidConvergence
import Verif.Props.FluidExamples
import Verif.Lemmas.ImplicitFluidStep
import Verif.Props.ImplicitConvergence
import Verif.Props.ImplicitFluidExamples
import Verif.Props.FluidLimit
import Verif.Lemmas.BoxPoincare
import Verif.SpecUnits
import Verif.Lemmas.Units
import Verif.Props.Units
import Verif.Props.UnitsAdvection
import Verif.Props.UnitsSteps
import Verif.Props.UnitsForcings
import Verif.Props.UnitsCutoff
import Verif.Props.UnitsSemiLagrangian
import Verif.SpecMirror
import Verif.Lemmas.Mirror
import Verif.Props.Mirror
import Verif.Props.MirrorSteps
import Verif.Props.MirrorSemiLagrangian
import Verif.Props.MirrorWalls
import Verif.Props.ForcedTrajectory
