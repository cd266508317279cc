import Verif.Props.Index
import Verif.Props.States
import Verif.Props.Matrix
import Verif.Props.Corr
import Verif.Props.HighOrder
import Verif.Props.Helpers
import Verif.Props.Neighbors
import Verif.Props.Enumerate
import Verif.Props.EnumeratePotts
import Verif.Props.EqnModule
import Verif.Props.Models
import Verif.Props.Solvers
import Verif.Props.Mpf
import Verif.Props.Pseudo
import Verif.Props.MchSolve
import Verif.Props.MeanField
import Verif.Props.Cluster
import Verif.Props.Metropolis
import Verif.Props.CppSampler
import Verif.Props.CondSampler
import Verif.Props.Tempering
import Verif.Props.IterCluster
import Verif.Props.Wolff
import Verif.Props.Heisenberg
import Verif.Props.MeanFieldEq
import Verif.Props.MeanFieldPlain
import Verif.Props.RegMeanField
import Verif.Props.IsingFront
import Verif.Props.Automaton
import Verif.Props.LatticeCoarse
import Verif.Props.Mixing
import Verif.Props.MixingCpp
import Verif.Props.MixingCond
import Verif.Props.MixingWolff
import Verif.Props.Homogeneous
import Verif.Props.MeanFieldSite
import Verif.Props.PseudoOld
import Verif.Props.PseudoOld2
import Verif.Model.SwendsenWang
import Verif.Lemmas.SwendsenWang
import Verif.Lemmas.SwendsenWang2
import Verif.Props.SwendsenWang
import Verif.Spec.ModelEnergy
import Verif.Model.SampleFront
import Verif.Lemmas.SampleFront
import Verif.Lemmas.SampleFront2
import Verif.Lemmas.SampleFront3
import Verif.Props.SampleFront
import Verif.Model.PottsFile
import Verif.Lemmas.PottsFile
import Verif.Lemmas.PottsFileRun
import Verif.Props.PottsFile
import Verif.Lemmas.UniformLln
import Verif.Lemmas.UniformMetro
import Verif.Lemmas.SampleUniform
import Verif.Model.MchProg
import Verif.Spec.MchProg
import Verif.Lemmas.MchProg
import Verif.Lemmas.MchProg2
import Verif.Lemmas.MchProg3
import Verif.Lemmas.MchProg4
import Verif.Lemmas.MchOneSpin
import Verif.Props.MchProg
import Verif.Spec.Sweep
import Verif.Lemmas.Recur
import Verif.Lemmas.Sweep
import Verif.Lemmas.Sweep2
import Verif.Lemmas.Sweep3
import Verif.Props.Sweep
import Verif.Lemmas.TemperErgodic
import Verif.Lemmas.TemperErgodic2
import Verif.Props.TemperErgodic
import Verif.Model.EnumerateObj
import Verif.Lemmas.Exists2
import Verif.Lemmas.EnumerateObj
import Verif.Lemmas.EnumerateObj2
import Verif.Props.EnumerateObj
import Verif.Spec.Covariance
import Verif.Spec.Sparse
import Verif.Model.SparseObj
import Verif.Lemmas.SparseObj
import Verif.Props.SparseObj
import Verif.Model.PseudoObj
import Verif.Lemmas.PseudoObj
import Verif.Props.PseudoObj
import Verif.Model.SparseMchProg
import Verif.Spec.SparseMchProg
import Verif.Lemmas.SparseMchProg
import Verif.Props.SparseMchProg
import Verif.Model.RmfProg
import Verif.Spec.RmfProg
import Verif.Lemmas.RmfProg
import Verif.Lemmas.RmfHistory
import Verif.Lemmas.RmfMade
import Verif.Props.RmfProg
import Verif.Spec.Incomplete
import Verif.Model.Incomplete
import Verif.Lemmas.Incomplete
import Verif.Props.Incomplete
import Verif.Model.EstimateJac
import Verif.Lemmas.EstimateJac
import Verif.Props.EstimateJac
import Verif.Lemmas.Attain
import Verif.Lemmas.Attain2
import Verif.Props.Attain
import Verif.Model.MpfObj
import Verif.Spec.Box
import Verif.Lemmas.MpfObj
import Verif.Props.MpfObj
import Verif.Lemmas.Tilt
import Verif.Spec.Tilt
import Verif.Lemmas.LearnTilt
import Verif.Props.LearnTilt
import Verif.Model.Guide
import Verif.Lemmas.MchReach
import Verif.Props.Guide
import Verif.Spec.Freq
import Verif.Lemmas.Stable
import Verif.Lemmas.Stable2
import Verif.Lemmas.SampleFreq
import Verif.Props.Consistent
import Verif.Spec.Orders
import Verif.Lemmas.Orders
import Verif.Model.GuideData
import Verif.Lemmas.GuideData
import Verif.Props.GuideData
import Verif.Lemmas.Orders2
import Verif.Model.TripletFit
import Verif.Lemmas.TripletFit
import Verif.Props.TripletFit
import Verif.Spec.PottsFit
import Verif.Lemmas.CondExist
import Verif.Lemmas.PottsFit
import Verif.Lemmas.ModelSample
import Verif.Props.PottsFit
import Verif.Spec.Summary
import Verif.Model.GuideSummary
import Verif.Lemmas.GuideSummary
import Verif.Props.GuideSummary
import Verif.Spec.PairInfo
import Verif.Lemmas.Matching
import Verif.Lemmas.Paired
import Verif.Lemmas.Paired2
import Verif.Lemmas.ClusterPairs
import Verif.Lemmas.ClusterPairs2
import Verif.Lemmas.ClusterPairs3
import Verif.Lemmas.ClusterLimit
import Verif.Props.ClusterFit
import Verif.Model.EqnMain
import Verif.Lemmas.EqnMain
import Verif.Props.EqnMain
import Verif.Model.Counting
import Verif.Lemmas.Counting
import Verif.Props.Counting
import Verif.Lemmas.LatErgodic
import Verif.Props.LatticeMixing
import Verif.Model.SpecCluster
import Verif.Lemmas.SpecCluster
import Verif.Props.SpecCluster
import Verif.Model.MchUser
import Verif.Spec.MchUser
import Verif.Lemmas.UniformKind
import Verif.Lemmas.MchUser
import Verif.Props.MchUser
import Verif.Props.MchMismatch
import Verif.Spec.WarmStart
import Verif.Lemmas.RandWords
import Verif.Lemmas.WarmStart
import Verif.Props.WarmStart
import Verif.Model.FloatLse
import Verif.Spec.FloatLse
import Verif.Lemmas.FloatLse
import Verif.Props.FloatLse
import Verif.Spec.FloatAcc
import Verif.Lemmas.FloatAcc
import Verif.Lemmas.FloatEnergy
import Verif.Props.FloatAcc
import Verif.Model.FloatPseudo
import Verif.Spec.FloatPseudo
import Verif.Lemmas.FloatPseudo
import Verif.Props.FloatPseudo
import Verif.Model.FloatPotts
import Verif.Lemmas.FloatPotts
import Verif.Props.FloatPotts
import Verif.Model.FloatMpf
import Verif.Lemmas.FloatMpf
import Verif.Props.FloatMpf
import Verif.Model.FloatMch
import Verif.Spec.FloatMch
import Verif.Lemmas.FloatMch
import Verif.Props.FloatMch
import Verif.Model.FloatMetropolis
import Verif.Lemmas.FloatMetropolis
import Verif.Props.FloatMetropolis
import Verif.Model.FloatPotts3
import Verif.Lemmas.FloatPotts3
import Verif.Props.FloatPotts3
