import Verif.Model.Basic
import Verif.Model.Identifier
import Verif.Model.Cbor
import Verif.Model.Crypto
import Verif.Model.IndexMap
import Verif.Model.Types
import Verif.Model.Store
import Verif.Model.MemStore
import Verif.Model.Selection
import Verif.Model.Validate
import Verif.Spec.Text
import Verif.Spec.Store
import Verif.Spec.Rules
import Verif.Lemmas.Bytes
import Verif.Lemmas.Res
import Verif.Lemmas.Identifier
import Verif.Lemmas.MemStore
import Verif.Lemmas.Accept
import Verif.Lemmas.AcceptMix
import Verif.Props.Identifiers
import Verif.Props.Stores
import Verif.Props.Ids
import Verif.Spec.Ledger
import Verif.Lemmas.Ledger
import Verif.Lemmas.Pigeon
import Verif.Examples.Toy
import Verif.Props.Signing
import Verif.Props.Setup
import Verif.Props.Voting
import Verif.Lemmas.AcceptDec
import Verif.Props.Mixing
import Verif.Props.Decrypting
import Verif.Props.Robust
import Verif.Model.Decode
import Verif.Spec.Cbor
import Verif.Spec.Serde
import Verif.Lemmas.Cbor
import Verif.Lemmas.Serde
import Verif.Lemmas.Proto
import Verif.Props.Serialization
import Verif.Model.Exonum
import Verif.Lemmas.Exonum
import Verif.Props.Exonum
import Verif.Model.Api
import Verif.Props.Api
import Verif.Model.Tally
import Verif.Lemmas.Tally
import Verif.Props.Tally
import Verif.Props.Borda
import Verif.Model.Pairs
import Verif.Spec.Pairs
import Verif.Props.Pairs
import Verif.Model.E2e
import Verif.Props.E2e
import Verif.Props.Report
import Verif.Model.Sawtooth
import Verif.Lemmas.SerdeFits
import Verif.Props.Sawtooth
import Verif.Model.Trustee
import Verif.Model.Server
import Verif.Spec.Server
import Verif.Lemmas.Server
import Verif.Lemmas.ServerMix
import Verif.Examples.ToyNode
import Verif.Props.Server
import Verif.Props.ServerMix
import Verif.Props.ServerPartials
import Verif.Props.ServerDec
import Verif.Props.Authn
import Verif.Props.Shares
import Verif.Model.Client
import Verif.Examples.ElGamal
import Verif.Props.Threshold
import Verif.Props.E2eHonest
import Verif.Props.Client
import Verif.Props.NodeCrash
import Verif.Model.Network
import Verif.Spec.Network
import Verif.Lemmas.Network
import Verif.Lemmas.NetStore
import Verif.Lemmas.NetEmit
import Verif.Lemmas.NetSetup
import Verif.Lemmas.NetDone
import Verif.Props.Network
import Verif.Props.Records
import Verif.Spec.NetworkTally
import Verif.Lemmas.NetHistory
import Verif.Lemmas.NetParty
import Verif.Lemmas.NetTally
import Verif.Lemmas.NetItems
import Verif.Lemmas.NetTarget
import Verif.Lemmas.NetFinish
import Verif.Props.NetworkTally
import Verif.Spec.NetworkMix
import Verif.Lemmas.NetMix
import Verif.Lemmas.NetMixed
import Verif.Lemmas.NetMixFinish
import Verif.Props.NetworkMix
import Verif.Spec.NetworkE2e
import Verif.Lemmas.NetE2e
import Verif.Props.NetworkE2e
import Verif.Model.Blocks
import Verif.Spec.Blocks
import Verif.Lemmas.Blocks
import Verif.Props.Blocks
import Verif.Props.BlocksPlain
import Verif.Spec.Rest
import Verif.Lemmas.Rest
import Verif.Props.Rest
import Verif.Spec.Verifiable
import Verif.Props.Verifiable
import Verif.Props.LeftOut
import Verif.Model.Json
import Verif.Spec.Json
import Verif.Spec.Order
import Verif.Spec.Quorum
import Verif.Lemmas.Json
import Verif.Lemmas.JsonTx
import Verif.Props.Json
import Verif.Props.JsonText
import Verif.Props.Order
import Verif.Props.Quorum
import Verif.Model.Cli
import Verif.Model.Unsigned
import Verif.Model.Voter
import Verif.Spec.Voter
import Verif.Spec.Cli
import Verif.Spec.Finality
import Verif.Props.Finality
import Verif.Props.Copying
import Verif.Props.Cli
import Verif.Lemmas.Encoding
import Verif.Spec.Encoding
import Verif.Props.Encoding
import Verif.Props.Unsigned
import Verif.Props.Voter
import Verif.Props.Builds
import Verif.Model.Report
import Verif.Spec.Report
import Verif.Props.Foreign
import Verif.Props.Forged
import Verif.Spec.Secrecy
import Verif.Props.Secrecy
import Verif.Spec.KeySecrecy
import Verif.Props.KeySecrecy
import Verif.Props.RestMix
import Verif.Props.Together
import Verif.Spec.Contests
import Verif.Props.Contests
import Verif.Model.Crash
import Verif.Spec.Crash
import Verif.Lemmas.Crash
import Verif.Lemmas.Missed
import Verif.Props.Crash
import Verif.Spec.Selection
import Verif.Lemmas.ProtoText
import Verif.Props.Plaintext
import Verif.Spec.Unlinkable
import Verif.Examples.Rsa
import Verif.Props.Unlinkable
import Verif.Spec.Mixing
import Verif.Lemmas.Mixing
import Verif.Examples.Mixing
import Verif.Examples.Fixtures
import Verif.Props.MixSecrecy
import Verif.Spec.Voters
import Verif.Props.Voters
import Verif.Props.Isolation
import Verif.Spec.Receipt
import Verif.Props.Receipt
import Verif.Spec.Settings
import Verif.Props.Settings
import Verif.Spec.Backends
import Verif.Props.Backends
import Verif.Props.Sharing
import Verif.Model.Wire
import Verif.Spec.Wire
import Verif.Lemmas.Wire
import Verif.Props.Wire
import Verif.Model.Winners
import Verif.Lemmas.Winners
import Verif.Props.Winners
import Verif.Spec.Views
import Verif.Props.Views
import Verif.Props.ViewsMixed
import Verif.Spec.Separation
import Verif.Props.Separation
import Verif.Spec.Size
import Verif.Props.Size
import Verif.Model.Args
import Verif.Spec.Args
import Verif.Props.Args
import Verif.Props.Fairness
import Verif.Props.Errors
import Verif.Props.Messages
import Verif.Props.Final
import Verif.Props.Retry
import Verif.Props.Copy
import Verif.Props.FinalExonum
import Verif.Props.Announce
import Verif.Props.CopyTools
import Verif.Props.Shown
