import Verif.Lemmas.Argparse
import Verif.Lemmas.Dilog
import Verif.Lemmas.EccMatters
import Verif.Lemmas.EccSage
import Verif.Lemmas.EndToEnd
import Verif.Lemmas.FlowMC
import Verif.Lemmas.FlowMCFiles
import Verif.Lemmas.FullModels
import Verif.Lemmas.Graph
import Verif.Lemmas.GridLaws
import Verif.Lemmas.GridNorm
import Verif.Lemmas.Guru
import Verif.Lemmas.Hierarchy
import Verif.Lemmas.HierarchyNull
import Verif.Lemmas.HybridDensity
import Verif.Lemmas.HybridMass
import Verif.Lemmas.Hybrids
import Verif.Lemmas.Interp
import Verif.Lemmas.Jenks
import Verif.Lemmas.Joint
import Verif.Lemmas.Json
import Verif.Lemmas.LawMeasurable
import Verif.Lemmas.Lazy
import Verif.Lemmas.LazyEq
import Verif.Lemmas.Likelihood
import Verif.Lemmas.Logging
import Verif.Lemmas.MonkLimit
import Verif.Lemmas.MonkStep
import Verif.Lemmas.MultiSpin
import Verif.Lemmas.Names
import Verif.Lemmas.Normal
import Verif.Lemmas.Numeric
import Verif.Lemmas.PlanckSlope
import Verif.Lemmas.PlotFiles
import Verif.Lemmas.PowerLaw
import Verif.Lemmas.PowerLawJvp
import Verif.Lemmas.Ppd
import Verif.Lemmas.PpdModel
import Verif.Lemmas.PpdPlot
import Verif.Lemmas.PyDict
import Verif.Lemmas.Rates
import Verif.Lemmas.RatioBound
import Verif.Lemmas.Robust
import Verif.Lemmas.RoundedAnalytic
import Verif.Lemmas.RoundedEnd
import Verif.Lemmas.RoundedFormulas
import Verif.Lemmas.RoundedJoint
import Verif.Lemmas.RoundedLikelihood
import Verif.Lemmas.RoundedPosterior
import Verif.Lemmas.RoundedPowerLaw
import Verif.Lemmas.RoundedSum
import Verif.Lemmas.Rounding
import Verif.Lemmas.Sage
import Verif.Lemmas.SageVariance
import Verif.Lemmas.SmoothedDensity
import Verif.Lemmas.SmoothedSage
import Verif.Lemmas.Spin
import Verif.Lemmas.SpinPrior
import Verif.Lemmas.SpinPriorJoint
import Verif.Lemmas.SpinPriorJointDensity
import Verif.Lemmas.SpinPriorJointLaw
import Verif.Lemmas.SpinPriorJointValue
import Verif.Lemmas.SpinPriorLaw
import Verif.Lemmas.Survey
import Verif.Lemmas.Thinning
import Verif.Lemmas.Tools
import Verif.Lemmas.Training
import Verif.Lemmas.Uncertainty
import Verif.Lemmas.Validation
import Verif.Lemmas.Variation
import Verif.Lemmas.XR
import Verif.Lemmas.XRMath
import Verif.Model.Analytic
import Verif.Model.Argparse
import Verif.Model.Beta
import Verif.Model.Common
import Verif.Model.Constraints
import Verif.Model.Conversions
import Verif.Model.Cosmology
import Verif.Model.Diagnostics
import Verif.Model.Dirichlet
import Verif.Model.EccMatters
import Verif.Model.EccSage
import Verif.Model.Errors
import Verif.Model.Events
import Verif.Model.FlowInfo
import Verif.Model.FlowMC
import Verif.Model.FlowMCFiles
import Verif.Model.FullModels
import Verif.Model.Graph
import Verif.Model.Guru
import Verif.Model.Hmc
import Verif.Model.HybridAnalyses
import Verif.Model.HybridDensity
import Verif.Model.HybridSage
import Verif.Model.Hybrids
import Verif.Model.Injections
import Verif.Model.Jenks
import Verif.Model.Joint
import Verif.Model.Json
import Verif.Model.Key
import Verif.Model.LaplaceFit
import Verif.Model.Lazy
import Verif.Model.LazyEq
import Verif.Model.Likelihood
import Verif.Model.Logging
import Verif.Model.MassModels
import Verif.Model.Mixture
import Verif.Model.MixtureSampling
import Verif.Model.ModelFile
import Verif.Model.Monk
import Verif.Model.MultiSpin
import Verif.Model.Numeric
import Verif.Model.Numpyro
import Verif.Model.NumpyroSettings
import Verif.Model.Parameters
import Verif.Model.PlotFiles
import Verif.Model.Plots
import Verif.Model.PoissonMean
import Verif.Model.Population
import Verif.Model.PowerLaw
import Verif.Model.Ppd
import Verif.Model.PpdModel
import Verif.Model.PpdPlot
import Verif.Model.Priors
import Verif.Model.Programs
import Verif.Model.PyDict
import Verif.Model.Pytree
import Verif.Model.Regex
import Verif.Model.Registry
import Verif.Model.Rng
import Verif.Model.RoundedAnalytic
import Verif.Model.RoundedJoint
import Verif.Model.RoundedLikelihood
import Verif.Model.RoundedPopulation
import Verif.Model.RoundedPowerLaw
import Verif.Model.Rounding
import Verif.Model.Sage
import Verif.Model.SageVariance
import Verif.Model.SamplerConfig
import Verif.Model.Scripts
import Verif.Model.Selection
import Verif.Model.Smoothed
import Verif.Model.SmoothedDensity
import Verif.Model.SmoothedSage
import Verif.Model.Spin
import Verif.Model.SpinPrior
import Verif.Model.SpinPriorJoint
import Verif.Model.Tables
import Verif.Model.Thinning
import Verif.Model.Tools
import Verif.Model.TrainTargets
import Verif.Model.Training
import Verif.Model.Transforms
import Verif.Model.VarianceCut
import Verif.Model.Version
import Verif.Model.XR
import Verif.Model.XRMath
import Verif.Props.Analytic
import Verif.Props.Beta
import Verif.Props.BijectTo
import Verif.Props.BlockTransform
import Verif.Props.CommandLine
import Verif.Props.Common
import Verif.Props.Constraints
import Verif.Props.Conversions
import Verif.Props.Cosmology
import Verif.Props.Diagnostics
import Verif.Props.Dirichlet
import Verif.Props.EccEndToEnd
import Verif.Props.EndToEnd
import Verif.Props.Errors
import Verif.Props.EventFiles
import Verif.Props.Events
import Verif.Props.FlowInfo
import Verif.Props.FlowMC
import Verif.Props.FlowMCFiles
import Verif.Props.FullModels
import Verif.Props.Graph
import Verif.Props.GridNorm
import Verif.Props.Guru
import Verif.Props.Hierarchy
import Verif.Props.HierarchyNull
import Verif.Props.Hmc
import Verif.Props.HmcChain
import Verif.Props.HybridDensity
import Verif.Props.HybridNames
import Verif.Props.Hybrids
import Verif.Props.HyperParameterUse
import Verif.Props.InjectionFiles
import Verif.Props.InjectionPrior
import Verif.Props.Injections
import Verif.Props.Jacobians
import Verif.Props.Jenks
import Verif.Props.JenksReturns
import Verif.Props.Joint
import Verif.Props.Json
import Verif.Props.LaplaceFit
import Verif.Props.Lazy
import Verif.Props.LazyEq
import Verif.Props.Likelihood
import Verif.Props.Logging
import Verif.Props.MassModels
import Verif.Props.Mixture
import Verif.Props.MixtureSampling
import Verif.Props.ModelFile
import Verif.Props.Monk
import Verif.Props.MonkLimit
import Verif.Props.MultiSpin
import Verif.Props.Numeric
import Verif.Props.Numpyro
import Verif.Props.NumpyroSettings
import Verif.Props.Parameters
import Verif.Props.Planck
import Verif.Props.PlotFiles
import Verif.Props.Plots
import Verif.Props.PoissonMean
import Verif.Props.Population
import Verif.Props.PowerLaw
import Verif.Props.PowerLawJvp
import Verif.Props.Ppd
import Verif.Props.PpdModel
import Verif.Props.PpdPlot
import Verif.Props.Priors
import Verif.Props.Pytree
import Verif.Props.Rates
import Verif.Props.Regex
import Verif.Props.Registry
import Verif.Props.Rng
import Verif.Props.Robust
import Verif.Props.RoundedAnalytic
import Verif.Props.RoundedEnd
import Verif.Props.RoundedError
import Verif.Props.RoundedJoint
import Verif.Props.RoundedLikelihood
import Verif.Props.RoundedPopulation
import Verif.Props.RoundedPowerLaw
import Verif.Props.RoundedRate
import Verif.Props.Rounding
import Verif.Props.Sage
import Verif.Props.SamplerConfig
import Verif.Props.Scripts
import Verif.Props.Selection
import Verif.Props.Smoothed
import Verif.Props.SmoothedDensity
import Verif.Props.SmoothedEndToEnd
import Verif.Props.Spin
import Verif.Props.SpinPrior
import Verif.Props.SpinPriorJoint
import Verif.Props.SpinPriorUse
import Verif.Props.Survey
import Verif.Props.Tables
import Verif.Props.Thinning
import Verif.Props.Tools
import Verif.Props.TrainTargets
import Verif.Props.Training
import Verif.Props.TrainingLoss
import Verif.Props.TrainingRate
import Verif.Props.Transforms
import Verif.Props.Uncertainty
import Verif.Props.Validation
import Verif.Props.VarianceCut
import Verif.Spec.Analytic
import Verif.Spec.CommandLine
import Verif.Spec.Cosmology
import Verif.Spec.EccSage
import Verif.Spec.EndToEnd
import Verif.Spec.Events
import Verif.Spec.FlowInfo
import Verif.Spec.FlowMCFiles
import Verif.Spec.FullModels
import Verif.Spec.Graph
import Verif.Spec.GridNorm
import Verif.Spec.Hierarchy
import Verif.Spec.Hmc
import Verif.Spec.HmcChain
import Verif.Spec.HybridDensity
import Verif.Spec.Hybrids
import Verif.Spec.HyperParameterUse
import Verif.Spec.Injections
import Verif.Spec.Jenks
import Verif.Spec.Joint
import Verif.Spec.Json
import Verif.Spec.Lazy
import Verif.Spec.LazyEq
import Verif.Spec.Likelihood
import Verif.Spec.Logging
import Verif.Spec.Monk
import Verif.Spec.MonkLimit
import Verif.Spec.MultiSpin
import Verif.Spec.Planck
import Verif.Spec.PlotFiles
import Verif.Spec.Plots
import Verif.Spec.Ppd
import Verif.Spec.PpdModel
import Verif.Spec.PpdPlot
import Verif.Spec.Priors
import Verif.Spec.Programs
import Verif.Spec.Pytree
import Verif.Spec.Quantile
import Verif.Spec.Robust
import Verif.Spec.RoundedEnd
import Verif.Spec.RoundedLikelihood
import Verif.Spec.RoundedPopulation
import Verif.Spec.RoundedPowerLaw
import Verif.Spec.Sage
import Verif.Spec.SamplerConfig
import Verif.Spec.SmoothedDensity
import Verif.Spec.SmoothedSage
import Verif.Spec.Spin
import Verif.Spec.SpinPrior
import Verif.Spec.SpinPriorJoint
import Verif.Spec.Survey
import Verif.Spec.Tangent
import Verif.Spec.Thinning
import Verif.Spec.Training
import Verif.Spec.Transforms
import Verif.Spec.Uncertainty
import Verif.Spec.XR
