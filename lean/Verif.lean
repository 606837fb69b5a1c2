import Verif.Basic.Blocks
import Verif.Basic.Bytes
import Verif.Basic.Io
import Verif.Basic.Lockstep
import Verif.Basic.Loops
import Verif.Basic.Mem
import Verif.Basic.Res
import Verif.Basic.Rot
import Verif.Basic.Stream
import Verif.Model.AEGIS
import Verif.Model.AEGISArray
import Verif.Model.AEGISTrace
import Verif.Model.AES
import Verif.Model.AESFlags
import Verif.Model.AESTables
import Verif.Model.AESTrace
import Verif.Model.Align
import Verif.Model.BigEndian
import Verif.Model.BigEndianBlocks
import Verif.Model.ChaCha
import Verif.Model.DES
import Verif.Model.DESTrace
import Verif.Model.ExampleAE
import Verif.Model.Gmp
import Verif.Model.GmpLeft
import Verif.Model.HC128
import Verif.Model.HC128Trace
import Verif.Model.HMAC
import Verif.Model.HeapLeft
import Verif.Model.Hex
import Verif.Model.HexOverlap
import Verif.Model.InPlace
import Verif.Model.JLDebug
import Verif.Model.JLTrace
import Verif.Model.JoyeLibert
import Verif.Model.LHEOutput
import Verif.Model.LHEStore
import Verif.Model.LabeledHE
import Verif.Model.MD5
import Verif.Model.MuLabeledHE
import Verif.Model.Overlap
import Verif.Model.OverlapBlock
import Verif.Model.Poly1305
import Verif.Model.Programs
import Verif.Model.ProgramsHE
import Verif.Model.ProgramsMore
import Verif.Model.Rabbit
import Verif.Model.RabbitDebug
import Verif.Model.Reinit
import Verif.Model.SHA256
import Verif.Model.Serpent
import Verif.Model.Serpent32
import Verif.Model.Sosemanuk
import Verif.Model.SosemanukBranch
import Verif.Model.SosemanukTables
import Verif.Model.SosemanukTrace
import Verif.Model.Stack
import Verif.Model.TagTrace
import Verif.Proof.AEGIS
import Verif.Proof.AES
import Verif.Proof.AESCfb
import Verif.Proof.AESCtr
import Verif.Proof.AESPerm
import Verif.Proof.ChaCha
import Verif.Proof.DES
import Verif.Proof.DESKey
import Verif.Proof.DESSpec
import Verif.Proof.HC128
import Verif.Proof.HC128Fast
import Verif.Proof.HC128Inj
import Verif.Proof.JLKeys
import Verif.Proof.JoyeLibert
import Verif.Proof.LabeledHE
import Verif.Proof.MD5
import Verif.Proof.MuLabeledHE
import Verif.Proof.Overlap
import Verif.Proof.Rabbit
import Verif.Proof.RabbitCounter
import Verif.Proof.RabbitMerge
import Verif.Proof.RabbitPeriod
import Verif.Proof.SHA256
import Verif.Proof.Serpent
import Verif.Proof.Serpent32
import Verif.Proof.Sosemanuk
import Verif.Proof.SosemanukLinear
import Verif.Proof.SosemanukLinearData
import Verif.Props.AEGIS
import Verif.Props.AEGISArray
import Verif.Props.AEGISCommit
import Verif.Props.AEGISReuse
import Verif.Props.AEGISTrace
import Verif.Props.AESCfb
import Verif.Props.AESCfbError
import Verif.Props.AESCfbReuse
import Verif.Props.AESCfbTail
import Verif.Props.AESCtr
import Verif.Props.AESNonces
import Verif.Props.AESReduced
import Verif.Props.AESTrace
import Verif.Props.Align
import Verif.Props.BigEndian
import Verif.Props.BigEndianBlocks
import Verif.Props.ByteSwap
import Verif.Props.ChaCha
import Verif.Props.ChosenCiphertext
import Verif.Props.Collision
import Verif.Props.DES
import Verif.Props.DESKeyBits
import Verif.Props.DESNonces
import Verif.Props.DESSlide
import Verif.Props.DESStructure
import Verif.Props.DESTrace
import Verif.Props.Empty
import Verif.Props.ExampleAE
import Verif.Props.ExampleIv
import Verif.Props.GmpLeft
import Verif.Props.HC128
import Verif.Props.HC128Packets
import Verif.Props.HC128Short
import Verif.Props.HC128Trace
import Verif.Props.HMAC
import Verif.Props.HMACKeys
import Verif.Props.HeapLeft
import Verif.Props.Hex
import Verif.Props.HexOverlap
import Verif.Props.InPlace
import Verif.Props.JLAny
import Verif.Props.JLDebug
import Verif.Props.JLJacobi
import Verif.Props.JLPublic
import Verif.Props.JLRerandomise
import Verif.Props.JLSizes
import Verif.Props.JLTermination
import Verif.Props.JLTrace
import Verif.Props.JoyeLibert
import Verif.Props.LHEFresh
import Verif.Props.LHEKnown
import Verif.Props.LHEOutput
import Verif.Props.LHEShort
import Verif.Props.LHEStore
import Verif.Props.LabeledHE
import Verif.Props.LengthExtension
import Verif.Props.LoadOrder
import Verif.Props.MD5
import Verif.Props.MuLabeledHE
import Verif.Props.Overlap
import Verif.Props.OverlapBlock
import Verif.Props.OverlapExact
import Verif.Props.Poly1305
import Verif.Props.Programs
import Verif.Props.ProgramsExact
import Verif.Props.ProgramsHE
import Verif.Props.ProgramsMore
import Verif.Props.ProgramsVectors
import Verif.Props.Rabbit
import Verif.Props.RabbitDebug
import Verif.Props.RabbitExact
import Verif.Props.RabbitKeys
import Verif.Props.RabbitPeriod
import Verif.Props.Reinit
import Verif.Props.SHA256
import Verif.Props.SameState
import Verif.Props.Serpent
import Verif.Props.Serpent32
import Verif.Props.Sosemanuk
import Verif.Props.SosemanukBranch
import Verif.Props.SosemanukKeys
import Verif.Props.SosemanukTrace
import Verif.Props.Stack
import Verif.Props.Stolen
import Verif.Props.Stream
import Verif.Props.TagTrace
import Verif.Spec.AEGIS
import Verif.Spec.AES
import Verif.Spec.AESReduced
import Verif.Spec.ByteSwap
import Verif.Spec.ChaCha
import Verif.Spec.DES
import Verif.Spec.HC128
import Verif.Spec.Hex
import Verif.Spec.JoyeLibert
import Verif.Spec.LabeledHE
import Verif.Spec.MD5
import Verif.Spec.Rabbit
import Verif.Spec.RabbitCarry
import Verif.Spec.SHA256
import Verif.Spec.Serpent
import Verif.Spec.Sosemanuk
import Verif.Tests.KernelVectors
import Verif.Tests.Vectors
