import Verif.Model.Base
import Verif.Model.Varint
import Verif.Model.Types
import Verif.Model.Out
import Verif.Model.In
import Verif.Proof.Varint
import Verif.Props.Varint
import Verif.Spec.Wire
import Verif.Spec.Supported
import Verif.Proof.OutBase
import Verif.Proof.OutSafe
import Verif.Proof.WireLemmas
import Verif.Proof.Bits
import Verif.Proof.OutProtocol
import Verif.Spec.Archive
import Verif.Proof.OutWire
import Verif.Proof.OutCall
import Verif.Proof.OutBroken
import Verif.Proof.OutSlack
import Verif.Checks
import Verif.Props.Output
import Verif.Model.Options
import Verif.Props.Options
import Verif.Props.Output2
import Verif.Spec.Input
import Verif.Proof.InSafe
import Verif.Proof.InOld
import Verif.Proof.InLocal
import Verif.Proof.InCall
import Verif.Proof.InRound
import Verif.Props.Input
import Verif.Proof.InRoundPb
import Verif.Proof.InRoundMain
import Verif.Proof.Assoc
import Verif.Props.RoundTrip
import Verif.Props.Prepared
import Verif.Props.VarintArchive
import Verif.Props.RoundTrip2
import Verif.Proof.InBytes
import Verif.Proof.InLimit
import Verif.Proof.InSeq
import Verif.Props.Input2
import Verif.Model.Numbers
import Verif.Model.Bytes
import Verif.Spec.Hash
import Verif.Proof.Numbers
import Verif.Proof.Hash
import Verif.Props.Hash
import Verif.Props.Bytes
import Verif.Spec.Records
import Verif.Proof.InRecords
import Verif.Props.Protobuf
import Verif.Model.KnownId
import Verif.Model.Duplex
import Verif.Model.Rpc
import Verif.Spec.KnownId
import Verif.Spec.Queue
import Verif.Spec.Rpc
import Verif.Proof.Duplex
import Verif.Proof.Rpc
import Verif.Props.KnownId
import Verif.Props.Duplex
import Verif.Props.Rpc
import Verif.Props.Disagreements
import Verif.Props.Rpc2
import Verif.Model.RpcArgs
import Verif.Spec.RpcArgs
import Verif.Props.RpcArgs
import Verif.Props.Moves
import Verif.Props.RpcThrow
import Verif.Model.Result
import Verif.Spec.Result
import Verif.Proof.Result
import Verif.Props.Result
import Verif.Proof.OutExact
import Verif.Props.Exact
import Verif.Model.Reflect
import Verif.Proof.Reflect
import Verif.Props.Reflect
import Verif.Model.Dispatch
import Verif.Props.Dispatch
import Verif.Model.ConstEval
import Verif.Proof.ConstEval
import Verif.Props.ConstEval
import Verif.Spec.Depth
import Verif.Proof.InLeast
import Verif.Proof.InDepth
import Verif.Props.Depth
import Verif.Proof.InRecFail
import Verif.Props.Protobuf2
import Verif.Model.User
import Verif.Spec.User
import Verif.Proof.OutBits
import Verif.Proof.User
import Verif.Props.User
import Verif.Props.Partial
import Verif.Spec.Reread
import Verif.Proof.Reread
import Verif.Proof.Reread2
import Verif.Proof.Reread3
import Verif.Props.Reread
import Verif.Spec.Alike
import Verif.Proof.Alike
import Verif.Props.Alike
import Verif.Props.Evolve
import Verif.Model.Static
import Verif.Spec.Static
import Verif.Proof.Static
import Verif.Props.Static
import Verif.Spec.Storage
import Verif.Proof.Storage
import Verif.Props.Storage
import Verif.Props.Cost
import Verif.Model.Raw
import Verif.Props.Raw
import Verif.Model.UserNest
import Verif.Spec.UserNest
import Verif.Proof.UserNest
import Verif.Proof.UserLocal
import Verif.Props.UserNest
import Verif.Spec.UserLib
import Verif.Proof.UserLib
import Verif.Props.UserLib
import Verif.Checks2
import Verif.Checks3
import Verif.Props.Shift
import Verif.Props.Views
import Verif.Model.Rules
import Verif.Proof.Rules
import Verif.Props.Rules
import Verif.Model.Lifetime
import Verif.Spec.Lifetime
import Verif.Proof.Lifetime
import Verif.Props.Lifetime
import Verif.Proof.Mirror
import Verif.Proof.Mirror2
import Verif.Proof.Mirror3
import Verif.Proof.Mirror4
import Verif.Proof.Mirror5
import Verif.Proof.Mirror6
import Verif.Props.Mirror
import Verif.Spec.Objects
import Verif.Proof.Objects
import Verif.Props.NamedIds
import Verif.Props.Objects
import Verif.Spec.Refuse
import Verif.Proof.InRefuse
import Verif.Props.Refuse
import Verif.Spec.Tape
import Verif.Props.Tape
import Verif.Model.SelfRef
import Verif.Spec.SelfRef
import Verif.Props.SelfRef
import Verif.Model.Work
import Verif.Spec.Work
import Verif.Proof.Work
import Verif.Proof.WorkCounts
import Verif.Props.Work
import Verif.Spec.Relay
import Verif.Proof.Relay
import Verif.Props.Relay
import Verif.Spec.Proto
import Verif.Proof.Proto
import Verif.Proof.ProtoHolds
import Verif.Proof.ProtoRead
import Verif.Props.Proto
import Verif.Model.Located
import Verif.Spec.Located
import Verif.Proof.Located
import Verif.Proof.LocatedViews
import Verif.Props.Located
import Verif.Model.Own
import Verif.Spec.Own
import Verif.Proof.Own
import Verif.Props.Own
import Verif.Model.ZigzagUnsigned
import Verif.Props.ZigzagUnsigned
import Verif.Props.MessageEnd
import Verif.Props.Packs
import Verif.Spec.ProtoBytes
import Verif.Proof.ProtoBytes
import Verif.Proof.ProtoBytes2
import Verif.Proof.ProtoBytes3
import Verif.Props.ProtoBytes
import Verif.Spec.Writable
import Verif.Proof.Writable
import Verif.Props.Writable
import Verif.Model.Capacity
import Verif.Props.Capacity
import Verif.Spec.Receive
import Verif.Props.Receive
import Verif.Spec.Layout
import Verif.Props.Layout
import Verif.Spec.Versions
import Verif.Spec.Append
import Verif.Proof.Versions
import Verif.Proof.Append
import Verif.Props.Versions
import Verif.Props.Append
import Verif.Spec.Sort
import Verif.Proof.Sort
import Verif.Props.Sort
import Verif.Props.Concat
import Verif.Props.UnknownTag
import Verif.Model.SizeTypes
import Verif.Spec.SizeTypes
import Verif.Proof.SizeTypes
import Verif.Props.SizeTypes
import Verif.Proof.SizeMsg
import Verif.Props.SizeMsg
import Verif.Spec.Merge
import Verif.Proof.Merge
import Verif.Props.Merge
import Verif.Model.RpcVersions
import Verif.Spec.RpcVersions
import Verif.Props.RpcVersions
import Verif.Model.RpcMany
import Verif.Spec.RpcMany
import Verif.Proof.RpcMany
import Verif.Props.RpcMany
import Verif.Model.RpcShared
import Verif.Spec.RpcShared
import Verif.Proof.RpcShared
import Verif.Props.RpcShared
import Verif.Spec.Send
import Verif.Proof.Send
import Verif.Props.Send
import Verif.Spec.Bounded
import Verif.Proof.Bounded
import Verif.Props.Bounded
import Verif.Spec.ServePieces
import Verif.Proof.ServePieces
import Verif.Props.ServePieces
import Verif.Spec.LogFile
import Verif.Proof.LogFile
import Verif.Props.LogFile
import Verif.Spec.Threads
import Verif.Proof.Threads
import Verif.Props.Threads
import Verif.Spec.Most
import Verif.Proof.Most
import Verif.Proof.MostAttained
import Verif.Props.Most
import Verif.Props.TwoSlots
import Verif.Props.Retry
import Verif.Props.OutSame
import Verif.Props.OutBehind
import Verif.Props.OutBehindUser
import Verif.Props.Indexed
import Verif.Props.Memo
import Verif.Props.Envelope
import Verif.Props.Chain
import Verif.Spec.Float
import Verif.Proof.Float
import Verif.Props.Float
import Verif.Props.Lossy
import Verif.Model.Graph
import Verif.Spec.Graph
import Verif.Props.Graph
import Verif.Spec.Search
import Verif.Props.Search
import Verif.Model.Fetch
import Verif.Spec.Fetch
import Verif.Proof.FetchSafe
import Verif.Proof.FetchOnce
import Verif.Proof.FetchFirst
import Verif.Proof.FetchBehind
import Verif.Props.Fetch
import Verif.Spec.OneByOne
import Verif.Props.OneByOne
import Verif.Spec.Together
import Verif.Props.Together
