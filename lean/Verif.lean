import Verif.Py.Err
import Verif.Py.Dict
import Verif.Py.XR
import Verif.Spec.Graph
import Verif.Spec.Expr
import Verif.Model.Digraph
import Verif.Model.Dag
import Verif.Model.Expr
import Verif.Model.Ast
import Verif.Model.Factory
import Verif.Model.Loci
import Verif.Model.BN
import Verif.Lemmas.Digraph
import Verif.Lemmas.Dag
import Verif.Lemmas.BN
import Verif.Lemmas.Expr
import Verif.Props.Dag
import Verif.Props.BN
import Verif.Props.BNViews
import Verif.Props.BNCopy
import Verif.Props.BNMerge
import Verif.Props.Toy
import Verif.Props.Expr
import Verif.Model.Sampling
import Verif.Model.ChromHeap
import Verif.Lemmas.Sampling
import Verif.Lemmas.Chromosome
import Verif.Lemmas.ChromHeap
import Verif.Props.Sampling
import Verif.Props.Chromosome
import Verif.Model.Script
import Verif.Lemmas.Script
import Verif.Props.Script
import Verif.Model.Monitor
import Verif.Props.Monitor
import Verif.Model.Registry
import Verif.Props.Registry
import Verif.Model.Prob
import Verif.Props.Prob
import Verif.Py.Tree
import Verif.Spec.Settle
import Verif.Model.NodeSet
import Verif.Lemmas.NodeSet
import Verif.Props.NodeSet
import Verif.Model.SimCore
import Verif.Lemmas.SimCore
import Verif.Lemmas.SimActor
import Verif.Props.SimCore
import Verif.Props.SimActor
import Verif.Props.SimGen
import Verif.Props.SimShared
import Verif.Props.SimBred
import Verif.Props.Converter
import Verif.Props.Targets
import Verif.Props.FitBase
import Verif.Lemmas.Quantile
import Verif.Py.Rand
import Verif.Model.Resample
import Verif.Model.Abc
import Verif.Model.Smc
import Verif.Props.Resample
import Verif.Props.Abc
import Verif.Lemmas.Rand
import Verif.Props.Smc
import Verif.Model.Spread
import Verif.Props.Spread
import Verif.Model.Hme
import Verif.Props.Hme
import Verif.Lemmas.Round
import Verif.Model.Ga
import Verif.Props.Ga
import Verif.Lemmas.ExpMeasure
import Verif.Model.Hazard
import Verif.Props.Hazard
import Verif.Model.Regression
import Verif.Props.Regression
import Verif.Model.Quantile
import Verif.Model.Converter
import Verif.Model.FitBase
import Verif.Model.Targets
import Verif.Py.XRField
import Verif.Model.Tables
import Verif.Lemmas.Tables
import Verif.Props.Tables
import Verif.Props.Cpt
import Verif.Props.TimeSeries
import Verif.Model.Draw
import Verif.Props.Draw
import Verif.Props.Collect
import Verif.Model.Dist
import Verif.Props.Dist
import Verif.Model.Samplers
import Verif.Props.Samplers
import Verif.Model.Empirical
import Verif.Props.Empirical
import Verif.Model.Toys
import Verif.Lemmas.Sir
import Verif.Props.Toys
import Verif.Model.Relatives
import Verif.Props.Relatives
import Verif.Model.Assembled
import Verif.Props.Assembled
import Verif.Model.Fitter
import Verif.Props.Fitter
import Verif.Props.Failures
import Verif.Model.Parsed
import Verif.Lemmas.Parsed
import Verif.Model.Operators
import Verif.Props.Parsed
import Verif.Props.Operators
import Verif.Props.Evals
import Verif.Props.Lookups
import Verif.Model.Posteriors
import Verif.Props.Posteriors
import Verif.Props.Clones
import Verif.Model.CoreRest
import Verif.Props.CoreRest
import Verif.Spec.Chance
import Verif.Lemmas.Chance
import Verif.Lemmas.Generator
import Verif.Props.Laws
import Verif.Props.LawsAbc
import Verif.Props.LawsResample
import Verif.Props.LawsMinimal
import Verif.Props.LawsSmc
import Verif.Model.Described
import Verif.Props.Described
import Verif.Props.LawsStart
import Verif.Props.LawsDraw
import Verif.Props.LawsGa
import Verif.Props.LawsTour
import Verif.Props.LawsPrior
import Verif.Props.Trajectories
import Verif.Model.GaFit
import Verif.Props.GaFit
import Verif.Props.LawsParents
import Verif.Props.LawsBayes
import Verif.Props.LawsSim
import Verif.Lemmas.SimLike
import Verif.Props.LawsHier
import Verif.Props.LawsImpulse
import Verif.Props.LawsConverter
import Verif.Props.LawsTable
import Verif.Props.LawsReg
import Verif.Model.Categorical
import Verif.Props.LawsCat
import Verif.Props.LawsEmp
import Verif.Props.LawsTriangle
import Verif.Props.LawsDensity
import Verif.Props.LawsPosterior
import Verif.Model.ToyNets
import Verif.Props.LawsToy
import Verif.Props.LawsScript
import Verif.Model.Frames
import Verif.Props.Frames
import Verif.Props.LawsSir
import Verif.Props.LawsNormal
import Verif.Model.BNRest
import Verif.Props.BNRest
import Verif.Model.DataSample
import Verif.Props.DataSample
