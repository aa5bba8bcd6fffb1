import Verif.Props.LinearCombination
import Verif.Props.Expression
import Verif.Props.IntegerPermutation
import Verif.Props.CycleRepresentation
import Verif.Props.Circuits
import Verif.Props.QAP
import Verif.Props.SapSsp
import Verif.Props.Groups
import Verif.Props.Groth16
import Verif.Props.PGHR13
import Verif.Props.GM17
import Verif.Props.USCSArg
import Verif.Props.PlonkTable
import Verif.Props.LookupTables
import Verif.Props.EvalStorage
import Verif.Props.KZG
import Verif.Props.KZGScheme
import Verif.Props.Quotient
import Verif.Props.Alphas
import Verif.Props.Transcript
import Verif.Props.ProofOfWork
import Verif.Props.Pedersen
import Verif.Props.SetCommitment
import Verif.Props.PCD
import Verif.Props.FRI
import Verif.Props.LPC
import Verif.Props.PermutationArg
import Verif.Props.GateArg
import Verif.Props.LookupArg
import Verif.Model.Placeholder
import Verif.Spec.Placeholder
import Verif.Lemmas.PlaceholderLpc
import Verif.Lemmas.PlaceholderPoints
import Verif.Lemmas.PlaceholderRun
import Verif.Lemmas.PlaceholderSession
import Verif.Lemmas.PlaceholderReads
import Verif.Lemmas.PlaceholderFinal
import Verif.Lemmas.PlaceholderComplete
import Verif.Props.Placeholder
import Verif.Lemmas.PlaceholderPublic
import Verif.Lemmas.PlaceholderDegree
import Verif.Spec.PlaceholderTotal
import Verif.Lemmas.PlaceholderQuotient
import Verif.Lemmas.PlaceholderTotal
import Verif.Props.PlaceholderPublic
import Verif.Lemmas.PlaceholderLpcTotal
import Verif.Props.PlaceholderTotal
import Verif.Props.PlaceholderExample
import Verif.Spec.PlaceholderSound
import Verif.Lemmas.PlaceholderSoundPolys
import Verif.Lemmas.PlaceholderSoundRun
import Verif.Lemmas.PlaceholderSoundParts
import Verif.Props.PlaceholderSound
import Verif.Props.PlaceholderSoundExample
import Verif.Lemmas.PlaceholderAnyProver
import Verif.Props.PlaceholderRelease
import Verif.Props.PlaceholderReleaseExample
import Verif.Model.PowersOfTau
import Verif.Spec.PowersOfTau
import Verif.Lemmas.PowersOfTau
import Verif.Props.PowersOfTau
import Verif.Model.Groth16MPC
import Verif.Spec.Groth16MPC
import Verif.Lemmas.Groth16MPC
import Verif.Props.Groth16MPC
import Verif.Model.Benes
import Verif.Spec.Benes
import Verif.Lemmas.Benes
import Verif.Lemmas.BenesRoute
import Verif.Lemmas.BenesCheck
import Verif.Props.Benes
import Verif.Model.AsWaksman
import Verif.Spec.AsWaksman
import Verif.Lemmas.AsWaksmanTopology
import Verif.Lemmas.AsWaksman
import Verif.Lemmas.AsWaksmanStep
import Verif.Lemmas.AsWaksmanLoop
import Verif.Lemmas.AsWaksmanRoute
import Verif.Lemmas.AsWaksmanCheck
import Verif.Props.AsWaksman
import Verif.Spec.FRISound
import Verif.Lemmas.FRISound
import Verif.Props.FRISound
import Verif.Props.LPCSound
import Verif.Model.CircuitArgs
import Verif.Props.CircuitArgs
import Verif.Model.Groth16Aggregate
import Verif.Spec.Groth16Aggregate
import Verif.Lemmas.Groth16Aggregate
import Verif.Lemmas.Groth16AggregateVerify
import Verif.Lemmas.Groth16AggregateHonest
import Verif.Props.Groth16Aggregate
import Verif.Model.EncryptedInput
import Verif.Spec.EncryptedInput
import Verif.Lemmas.EncryptedInput
import Verif.Props.EncryptedInput
import Verif.Model.SizeT
import Verif.Model.Marshalling
import Verif.Spec.Marshalling
import Verif.Lemmas.Marshalling
import Verif.Lemmas.MarshallingRead
import Verif.Lemmas.MarshallingSafe
import Verif.Props.Marshalling
import Verif.Props.MarshallingExample
import Verif.Model.KimchiPedersen
import Verif.Spec.KimchiPedersen
import Verif.Lemmas.KimchiVector
import Verif.Lemmas.KimchiCoefficients
import Verif.Lemmas.KimchiVerify
import Verif.Lemmas.KimchiProve
import Verif.Lemmas.KimchiComplete
import Verif.Lemmas.KimchiSound
import Verif.Props.KimchiPedersen
import Verif.Props.KimchiCommitment
import Verif.Props.KimchiPedersenExample
import Verif.Model.KimchiMapping
import Verif.Spec.KimchiMapping
import Verif.Props.KimchiMapping
import Verif.Props.KimchiMappingExample
import Verif.Model.KimchiSponge
import Verif.Spec.KimchiSponge
import Verif.Props.KimchiSponge
import Verif.Model.KimchiExpr
import Verif.Spec.KimchiExpr
import Verif.Props.KimchiExpr
import Verif.Model.KimchiVerifier
import Verif.Spec.KimchiVerifier
import Verif.Lemmas.KimchiVerifier
import Verif.Props.KimchiVerifier
import Verif.Spec.KimchiRows
import Verif.Props.KimchiRows
import Verif.Props.KimchiVerifierExamples
import Verif.Model.AdSnark
import Verif.Spec.AdSnark
import Verif.Lemmas.AdSnark
import Verif.Lemmas.AdSnarkVerify
import Verif.Props.AdSnark
import Verif.Lemmas.ManyPoints
import Verif.Spec.Groth16Linear
import Verif.Lemmas.Groth16Linear
import Verif.Props.Groth16Linear
import Verif.Spec.PGHR13Linear
import Verif.Lemmas.PGHR13Linear
import Verif.Props.PGHR13Linear
import Verif.Spec.GM17Linear
import Verif.Lemmas.GM17Linear
import Verif.Props.GM17Linear
import Verif.Spec.USCSLinear
import Verif.Lemmas.USCSLinear
import Verif.Props.USCSLinear
import Verif.Spec.FRIDistance
import Verif.Lemmas.FRIDistance
import Verif.Props.FRIDistance
import Verif.Spec.LookupPack
import Verif.Lemmas.LookupPack
import Verif.Props.LookupPack
import Verif.Model.Equality
import Verif.Spec.Equality
import Verif.Lemmas.Equality
import Verif.Props.Equality
import Verif.Lemmas.Groth16AggregateTranscript
import Verif.Model.LeafData
import Verif.Spec.LeafData
import Verif.Lemmas.LeafData
import Verif.Props.LeafData
import Verif.Model.CircuitDigest
import Verif.Spec.CircuitDigest
import Verif.Lemmas.CircuitDigest
import Verif.Props.CircuitDigest
import Verif.Model.ColumnPolynomial
import Verif.Props.ColumnPolynomial
import Verif.Model.PlaceholderKzg
import Verif.Lemmas.PlaceholderKzg
import Verif.Props.PlaceholderKzg
import Verif.Lemmas.KZGSound
import Verif.Props.KZGSound
import Verif.Spec.KZGSound
import Verif.Lemmas.PlaceholderKzgPadded
import Verif.Lemmas.PlaceholderKzgForgery
import Verif.Props.PlaceholderKzgForgery
import Verif.Spec.PlaceholderKzgSound
import Verif.Lemmas.PlaceholderKzgSound
import Verif.Props.PlaceholderKzgSound
import Verif.Props.PlaceholderKzgSoundExample
import Verif.Spec.PlaceholderPublicSound
import Verif.Props.PlaceholderPublicSound
import Verif.Props.PlaceholderPublicSoundExample
import Verif.Spec.PlaceholderHiding
import Verif.Lemmas.PlaceholderHiding
import Verif.Props.PlaceholderHiding
import Verif.Props.PlaceholderHidingExample
import Verif.Spec.CachedEvaluator
import Verif.Lemmas.CachedEvaluator
import Verif.Props.CachedEvaluator
import Verif.Model.PlaceholderKzg2
import Verif.Lemmas.PlaceholderKzg2
import Verif.Props.PlaceholderKzg2
import Verif.Spec.CycleWork
import Verif.Lemmas.CycleWork
import Verif.Props.CycleWork
import Verif.Spec.KimchiClaims
import Verif.Props.KimchiClaims
import Verif.Model.LinearVariable
import Verif.Props.LinearVariable
import Verif.Spec.PlaceholderKzg2Sound
import Verif.Lemmas.PlaceholderKzg2Padded
import Verif.Props.PlaceholderKzg2Sound
import Verif.Props.PlaceholderKzg2SoundExample
import Verif.Spec.EncryptedLinear
import Verif.Lemmas.EncryptedLinear
import Verif.Lemmas.EncryptedCombine
import Verif.Lemmas.EncryptedCount
import Verif.Props.EncryptedLinear
import Verif.Props.PlaceholderPublicKzg2
import Verif.Props.AdSnarkForgery
import Verif.Spec.Simulation
import Verif.Props.ZeroKnowledge
import Verif.Spec.GipaTree
import Verif.Lemmas.GipaSound
import Verif.Lemmas.AggSound
import Verif.Spec.FormalPairing
import Verif.Lemmas.FormalPairing
import Verif.Props.Groth16AggregateSound
import Verif.Props.Groth16AggregateFormal
import Verif.Spec.Malleability
import Verif.Props.Malleability
import Verif.Spec.SeenProofs
import Verif.Lemmas.SeenProofs
import Verif.Props.GM17Extractable
import Verif.Lemmas.SeenGroth16
import Verif.Props.Groth16Extractable
import Verif.Spec.PlaceholderHistory
import Verif.Props.PlaceholderHistory
import Verif.Props.VariableOrder
import Verif.Lemmas.LPCClaims
import Verif.Props.PlaceholderLpcForgery
import Verif.Lemmas.VerifyDefined
import Verif.Props.TauCeremony
import Verif.Props.FullCeremony
import Verif.Lemmas.BlankedLookup
import Verif.Props.PlaceholderKzgLookupForgery
import Verif.Props.PlaceholderKzg2LookupForgery
import Verif.Lemmas.PartsForgery
import Verif.Props.PlaceholderPartsForgery
import Verif.Props.PlaceholderPartsForgeryExample
import Verif.Lemmas.LookupPartsForgery
import Verif.Props.PlaceholderLookupPartsForgery
import Verif.Spec.PlaceholderParts
import Verif.Lemmas.PartsPolys
import Verif.Lemmas.PartsRun
import Verif.Props.PlaceholderGatesSound
import Verif.Props.PlaceholderGatesSoundExample
import Verif.Spec.PlaceholderPartsKzg
import Verif.Lemmas.PartsKzg
import Verif.Props.PlaceholderKzgGatesSound
import Verif.Props.PlaceholderKzg2GatesSound
import Verif.Props.PlaceholderKzgGatesExample
import Verif.Props.PlaceholderPublicParts
import Verif.Props.PlaceholderPublicPartsExample
import Verif.Props.PlaceholderBothPartsForgery
import Verif.Props.PlaceholderBothPartsExample
import Verif.Props.PlaceholderCopiesLookupParts
import Verif.Props.PlaceholderLookupsParts
import Verif.Props.PlaceholderMixedPartsExample
import Verif.Lemmas.ArgumentsHonest
import Verif.Lemmas.MarshallingCut
import Verif.Props.MarshallingTruncated
import Verif.Props.MarshallingDamaged
import Verif.Props.PlaceholderHidingCount
import Verif.Props.LPCQueriesShow
import Verif.Props.PlaceholderLpcShows
