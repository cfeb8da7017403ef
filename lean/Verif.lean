import Verif.Props.Sigma
import Verif.Props.Bullet
import Verif.Props.Poly
import Verif.Props.PolyEval
import Verif.Props.Sumcheck
import Verif.Props.SumcheckSound
import Verif.Props.Instance
import Verif.Props.NIZK
import Verif.Props.Scalar
import Verif.Model.FieldExtra
import Verif.Props.FieldExtra
import Verif.Props.HashToCurve
import Verif.Props.HashToCurveStd
import Verif.Props.Group
import Verif.Props.PrimeField
import Verif.Props.Concrete
import Verif.Props.PolyMerge
import Verif.Props.Reader
import Verif.Props.Convert
import Verif.Props.Lib
import Verif.Props.Circuits
import Verif.Props.Poseidon
import Verif.Props.Membership
import Verif.Props.Address
import Verif.Props.AddressExamples
import Verif.Props.ProductTree
import Verif.Props.Memory
import Verif.Props.SNARK
import Verif.Props.Hiding
import Verif.Spec.Simulator
import Verif.Lemmas.Simulator
import Verif.Lemmas.Replay
import Verif.Props.ZeroKnowledge
import Verif.Props.NIZKSound
import Verif.Props.SNARKSound
import Verif.Model.Challenge
import Verif.Props.Bias
import Verif.Props.FiatShamir
import Verif.Lemmas.RBRProd
import Verif.Spec.SnarkRels
import Verif.Lemmas.RBRMem
import Verif.Lemmas.RBROpen
import Verif.Lemmas.RBRLayer
import Verif.Lemmas.RBRHash
import Verif.Lemmas.RBRSparse
import Verif.Props.Binding
import Verif.Model.Bincode
import Verif.Lemmas.Bincode
import Verif.Lemmas.ProofSize
import Verif.Props.Bincode
import Verif.Model.Tree
import Verif.Lemmas.Tree
import Verif.Props.Tree
import Verif.Model.Prover
import Verif.Props.Prover
import Verif.Props.ProverEx
import Verif.Props.AddrProver
import Verif.Props.AddrProverEx
import Verif.Model.CoreScalar
import Verif.Props.CoreScalar
import Verif.Model.Programs
import Verif.Props.Programs
import Verif.Model.SqrtQ
import Verif.Props.SqrtQ
import Verif.Model.Merlin
import Verif.Spec.Sponge
import Verif.Lemmas.Merlin
import Verif.Lemmas.Plain
import Verif.Props.Merlin
import Verif.Spec.Soft
import Verif.Lemmas.Safe
import Verif.Props.Graceful
import Verif.Props.LogSound
import Verif.Model.Grain
import Verif.Lemmas.Grain
import Verif.Props.PoseidonPerm
import Verif.Props.Grain
import Verif.Props.GrainSelect
import Verif.Props.SecurityIneq
import Verif.Lemmas.SnarkSize
import Verif.Props.SnarkSize
import Verif.Props.SnarkGraceful
import Verif.Props.GenInst
import Verif.Props.TestCircuit
import Verif.Props.SageParams
import Verif.Props.SswuGeneric
import Verif.Props.GlueHeap
import Verif.Props.Glue
import Verif.Props.GlueBounds
import Verif.Props.GlueHist
import Verif.Props.GlueEx
import Verif.Props.GlueStr
import Verif.Props.GlueStrEx
import Verif.Props.WitnessCalc
import Verif.Props.Async
import Verif.Props.GensStd
import Verif.Props.Parallel
import Verif.Props.Points
import Verif.Props.PointCodec
import Verif.Props.Run
import Verif.Props.Machine
import Verif.Model.Machine
import Verif.Lemmas.Rank1
import Verif.Lemmas.Templates
import Verif.Lemmas.TemplatesKeccak
import Verif.Props.Compile
import Verif.Props.CompileEx
import Verif.Props.Anon
import Verif.Props.AnonEx
import Verif.Props.Forge
import Verif.Props.ForgeRun
import Verif.Props.MachineSound
import Verif.Props.CircuitFile
import Verif.Props.CircuitFileEx
import Verif.Props.ForgeFile
import Verif.Props.CompleteRandom
import Verif.Lemmas.RandomRun
import Verif.Lemmas.FoldCount
import Verif.Props.CompleteMember
import Verif.Props.CompleteMemberEx
import Verif.Lemmas.Rare
import Verif.Props.Rare
import Verif.Props.RareMember
import Verif.Props.Unread
import Verif.Props.RareAddr
import Verif.Spec.Embed
import Verif.Props.Embed
import Verif.Props.GenWitness
import Verif.Props.SquareRoot
import Verif.Model.BenchKeys
import Verif.Props.BenchKeys
