import Verif.Spec.Edwards
import Verif.Props.Num
import Verif.Props.Signal
import Verif.Props.NumConv
import Verif.Props.Setup
import Verif.Props.Bitify
import Verif.Props.Poseidon
import Verif.Props.Ecc
import Verif.Props.Seedbox
import Verif.Props.Rand
import Verif.Props.CEcc
import Verif.Props.Eddsa
import Verif.Props.Groth16
import Verif.Props.Solidity
import Verif.Props.Contract
import Verif.Props.Curves
import Verif.Props.Proving
import Verif.Props.Testing
import Verif.Props.Base64
import Verif.Props.Json
import Verif.Props.KeyFiles
import Verif.Props.Cli
import Verif.Props.Infinity
import Verif.Props.Session
import Verif.Props.Derive
import Verif.Props.OsRng
import Verif.Props.Operators
import Verif.Props.CEccConst
import Verif.Props.Algebraic
import Verif.Props.Handwritten
import Verif.Props.Preimage
import Verif.Props.Knowledge
import Verif.Props.KeysExist
import Verif.Props.Membership
import Verif.Lemmas.CEccHash
import Verif.Lemmas.SignalConst
import Verif.Lemmas.Used
import Verif.Lemmas.UsedSignal
import Verif.Props.HelperVars
import Verif.Spec.JsonGrammar
import Verif.Spec.JsonData
import Verif.Lemmas.JsonGrammar
import Verif.Lemmas.JsonReader
import Verif.Props.JsonGrammar
import Verif.Spec.Counts
import Verif.Spec.CountsTree
import Verif.Spec.PoseidonMatrix
import Verif.Lemmas.Counts
import Verif.Lemmas.CountsEcc
import Verif.Lemmas.CountsBits
import Verif.Lemmas.CountsShipped
import Verif.Lemmas.CountsTree
import Verif.Lemmas.PoseidonMatrix
import Verif.Lemmas.PoseidonShippedBn
import Verif.Lemmas.PoseidonShippedBls
import Verif.Lemmas.PoseidonBijective
import Verif.Props.Counts
import Verif.Model.Handles
import Verif.Spec.Handles
import Verif.Lemmas.Handles
import Verif.Props.Handles
import Verif.Props.PoseidonBalanced
import Verif.Props.Signature
import Verif.Lemmas.FreshKeys
import Verif.Props.MembershipKeys
import Verif.Lemmas.Slim
import Verif.Props.Variables
import Verif.Props.MerkleBinding
import Verif.Props.SignatureKeys
import Verif.Props.Simulation
import Verif.Props.Provable
import Verif.Props.FromScalarConst
import Verif.Props.FirstWindow
import Verif.Props.Missing
import Verif.Spec.Unique
import Verif.Lemmas.Rigid
import Verif.Lemmas.RigidBits
import Verif.Lemmas.RigidCode
import Verif.Lemmas.RigidSignal
import Verif.Props.Unique
import Verif.Spec.Native
import Verif.Lemmas.NativeMont
import Verif.Lemmas.NativeSound
import Verif.Lemmas.NativeRuns
import Verif.Lemmas.NativeCode
import Verif.Lemmas.NativeSignal
import Verif.Lemmas.NativeWitness
import Verif.Props.Native
import Verif.Props.SignatureForm
import Verif.Props.MerkleUpdate
import Verif.Props.UpdateCircuit
import Verif.Lemmas.PointCount
import Verif.Props.PointCount
import Verif.Model.Trace
import Verif.Model.Process
import Verif.Model.CommandLine
import Verif.Props.Trace
import Verif.Props.Concurrent
import Verif.Props.Stranger
import Verif.Props.Forge
import Verif.Props.CommandLine
import Verif.Model.Forger
import Verif.Spec.Forger
import Verif.Lemmas.Rewind
import Verif.Lemmas.Forking
import Verif.Lemmas.Lazy
import Verif.Props.Unforgeable
import Verif.Model.PointBytes
import Verif.Spec.PointBytes
import Verif.Lemmas.PointBytes
import Verif.Props.PointBytes
import Verif.Model.RandomPoint
import Verif.Lemmas.PrimesTwist
import Verif.Lemmas.TwistCert
import Verif.Lemmas.TwistCount
import Verif.Lemmas.RandomPoint
import Verif.Lemmas.RandomGroup
import Verif.Lemmas.Evenly
import Verif.Props.RandomPoint
import Verif.Props.FromBytes
import Verif.Spec.Blake2s
import Verif.Lemmas.Blake2s
import Verif.Model.Blake2Stream
import Verif.Lemmas.Blake2Stream
import Verif.Props.Digest
import Verif.Model.Sqrt
import Verif.Lemmas.Sqrt
import Verif.Props.Sqrt
import Verif.Model.Limbs
import Verif.Spec.Limbs
import Verif.Lemmas.Limbs
import Verif.Lemmas.LimbsField
import Verif.Props.Limbs
import Verif.Model.LimbsRand
import Verif.Props.LimbsRand
import Verif.Model.WordField
import Verif.Lemmas.Natural
import Verif.Model.WordSign
import Verif.Lemmas.WordSign
import Verif.Props.WordField
import Verif.Spec.Mapped
import Verif.Model.WordCircuit
import Verif.Lemmas.NaturalCircuit
import Verif.Lemmas.WordCircuit
import Verif.Props.WordCircuit
import Verif.Props.WordBls
import Verif.Spec.Near
import Verif.Spec.Files
import Verif.Props.NearLayout
import Verif.Props.FileLayout
import Verif.Props.FileReading
import Verif.Model.NativeJson
import Verif.Spec.NativeJson
import Verif.Props.NativeJson
import Verif.Lemmas.PrimesBlsTwist
import Verif.Lemmas.CurveTurn
import Verif.Lemmas.BlsCert
import Verif.Props.BlsPoints
import Verif.Model.BoolApi
import Verif.Props.BoolApi
import Verif.Props.BlsKeys
import Verif.Props.BlsSession
import Verif.Props.Salts
