import Verif.Props.Codec
import Verif.Props.Keys
import Verif.Props.Curve
import Verif.Props.PubKey
import Verif.Props.Ecdsa
import Verif.Props.Script
import Verif.Props.Template
import Verif.Props.Tx
import Verif.Props.Sign
import Verif.Props.InOut
import Verif.Props.Interp
import Verif.Props.InterpOps
import Verif.Props.Der
import Verif.Props.HdKey
import Verif.Props.Unit
import Verif.Props.Uri
import Verif.Props.Names
import Verif.Props.KeySign
import Verif.Props.Push
import Verif.Props.SignTx
import Verif.Props.Create
import Verif.UtilsEncoding
import Verif.Props.UtilsEncoding
import Verif.Spec.Rfc6979
import Verif.Props.Rfc6979
import Verif.IntBytes
import Verif.Props.IntBytes
import Verif.Spec.Reference
import Verif.Props.Reference
import Verif.Compare
import Verif.Props.Compare
import Verif.Repr
import Verif.Props.Repr
import Verif.Spec.Consensus
import Verif.Proofs.Consensus
import Verif.Props.Consensus
import Verif.RealHashes
import Verif.Props.ConsensusCases
import Verif.Spec.Uri
import Verif.Props.UriText
import Verif.Spec.Reasons
import Verif.Props.Reasons
import Verif.Props.DerLax
import Verif.Spec.Errors
import Verif.Props.Errors
import Verif.Spec.Binding
import Verif.Props.Binding
import Verif.Message
import Verif.Spec.Messages
import Verif.Proofs.Literal
import Verif.Proofs.Sentences
import Verif.Props.Messages
import Verif.CurveObj
import Verif.Props.CurveObj
import Verif.Payment
import Verif.Props.Payment
import Verif.Props.Compile
import Verif.Props.Multisig
import Verif.Props.TxParse
import Verif.Props.TextKind
import Verif.Props.Flags
import Verif.Props.Malleable
import Verif.Props.MalleableTx
import Verif.Props.Locked
import Verif.Props.Frame
import Verif.Props.Memory
import Verif.Props.Size
import Verif.Props.SignAll
import Verif.Props.Ledger
import Verif.Props.Owner
import Verif.Props.Replay
import Verif.Props.Refused
import Verif.Props.FloatRead
import Verif.Props.UriRead
import Verif.Props.UriDict
import Verif.Props.Bip21
import Verif.Props.HdPath
import Verif.Props.Checks
import Verif.Props.Standard
import Verif.Props.Request
import Verif.Props.Fiat
import Verif.Props.Broken
import Verif.Props.Readers
import Verif.Props.Writers
import Verif.Props.SignOutcome
import Verif.Props.MakeOutcome
import Verif.Props.Instances
import Verif.Props.DeriveOutcome
import Verif.Props.StepOutcome
import Verif.Props.OpcodeOutcome
import Verif.Props.Convert
import Verif.Props.AmountOutcome
import Verif.Props.CodecOutcome
import Verif.Props.EcdsaOutcome
import Verif.Props.ScriptOutcome
import Verif.Props.TxOutcome
import Verif.Props.NumberOutcome
import Verif.Props.PointOutcome
import Verif.Props.PrintOutcome
import Verif.Props.OneThing
import Verif.Props.Settle
import Verif.Props.AnyPoint
import Verif.Props.CurveRepr
import Verif.Props.Relay
import Verif.Props.Inputs
import Verif.Props.Foreign
import Verif.Props.Hand
import Verif.Props.Nets
import Verif.Props.Found
import Verif.Props.Watch
import Verif.Props.Sender
import Verif.Props.Signers
import Verif.Props.Published
import Verif.Conformance
