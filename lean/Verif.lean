import Verif.Basic
import Verif.VecDiff
import Verif.Lemmas
import Verif.MutableVec
import Verif.MutableVecSpec
import Verif.MutableVecProofs
import Verif.MutableVecInv
import Verif.MutableVecSolo
import Verif.MutableVecWake
import Verif.Props.MutableVec
import Verif.Input
import Verif.Run
import Verif.Polite
import Verif.SignalVec1
import Verif.SignalVec1Spec
import Verif.SignalVec1Proofs
import Verif.Props.SignalVecMap
import Verif.EnumerateProofs
import Verif.FoldProofs
import Verif.Props.SignalVecFold
import Verif.Props.Polite1
import Verif.SignalVec2
import Verif.ChainProofs
import Verif.Props.SignalVecChain
import Verif.FlattenProofs
import Verif.Props.SignalVecFlatten
import Verif.Props.FlattenAny
import Verif.SignalVec3
import Verif.MapSignalProofs
import Verif.FilterSignalProofs
import Verif.Props.SignalVecSignal
import Verif.SignalVec4
import Verif.SortSpec
import Verif.SortProofs
import Verif.Props.SignalVecSort
import Verif.SignalVec5
import Verif.DelayProofs
import Verif.Props.SignalVecDelay
import Verif.SignalVec6
import Verif.SwitchVecProofs
import Verif.Props.SignalVecSwitch
import Verif.Hub
import Verif.HubProofs
import Verif.MapDiff
import Verif.BTree
import Verif.MutableBTreeMap
import Verif.MutableBTreeMapSpec
import Verif.MutableBTreeMapProofs
import Verif.Props.MutableBTreeMap
import Verif.SignalMap
import Verif.MInput
import Verif.MapProofs
import Verif.Props.SignalMap
import Verif.SignalA
import Verif.SignalASpec
import Verif.SignalAProofs
import Verif.Props.SignalA
import Verif.Props.SignalA2
import Verif.SignalB
import Verif.SignalBSpec
import Verif.SignalBProofs
import Verif.MapRefProofs
import Verif.Props.SignalB
import Verif.Props.SignalB2
import Verif.Mutable
import Verif.MutableSpec
import Verif.MutableProofs
import Verif.Props.Mutable
import Verif.Hist
import Verif.Channel
import Verif.ChannelSpec
import Verif.ChannelProofs
import Verif.Props.Channel
import Verif.Atomic
import Verif.AtomicProofs
import Verif.Props.Atomic
import Verif.Cancelable
import Verif.CancelableSpec
import Verif.CancelableProofs
import Verif.Props.Cancelable
import Verif.CancelableConc
import Verif.Props.CancelableConc
import Verif.ChannelConc
import Verif.ChannelConcSpec
import Verif.ChannelConcProofs
import Verif.Props.ChannelConc
import Verif.MutableConc
import Verif.MutableConcSpec
import Verif.MutableConcProofs
import Verif.MutableConcCount
import Verif.Props.MutableConc
import Verif.SwapConc
import Verif.Props.SwapConc
import Verif.Broadcaster
import Verif.BroadcasterSpec
import Verif.BroadcasterProofs
import Verif.Props.Broadcaster
import Verif.BroadcasterConc
import Verif.BroadcasterConcSpec
import Verif.BroadcasterConcProofs
import Verif.Props.BroadcasterConc
import Verif.LiveSpec
import Verif.Live
import Verif.Props.Live1
import Verif.Props.Live2
import Verif.Props.Live3
import Verif.Props.Live4
import Verif.Pipe
import Verif.PipeProofs
import Verif.PipeMut
import Verif.Props.Pipe
import Verif.ForEach
import Verif.Props.ForEach
import Verif.Net
import Verif.NetInv
import Verif.NetProofs
import Verif.NetPoll
import Verif.NetEnv
import Verif.NetTotal
import Verif.Props.Net
import Verif.NetConc
import Verif.NetDrift
import Verif.NetConcPoll
import Verif.Props.NetConc
import Verif.Sink
import Verif.SinkProofs
import Verif.Props.Sink
import Verif.SourceProofs
import Verif.Flow
import Verif.FlowProofs
import Verif.Props.Flow
import Verif.Forward
import Verif.Props.Forward
import Verif.SourceMap
import Verif.Expr
import Verif.ExprProofs
import Verif.SourceChan
import Verif.ChainStage
import Verif.MutableVecLively
import Verif.SourceBc
import Verif.FlattenStage
import Verif.Props.Expr
import Verif.SourceHubConc
import Verif.SourceMutConc
import Verif.SourceChanConc
import Verif.Props.ExprConc
import Verif.MutablePanic
import Verif.Props.MutablePanic
import Verif.MutableVecPanic
import Verif.Props.MutableVecPanic
import Verif.Props.Consume
import Verif.HubConc
import Verif.HubConcProofs
import Verif.HubConcApi
import Verif.Props.HubConc
import Verif.HubPanic
import Verif.MutableVecHub
import Verif.Props.TornVec
import Verif.MutableBTreeMapPanic
import Verif.Props.TornMap
import Verif.BroadcasterPanic
import Verif.Props.BroadcasterPanic
import Verif.Props.Garbage
import Verif.Locks
import Verif.Props.Locks
import Verif.EnumSig
import Verif.EnumSigSpec
import Verif.EnumSigProofs
import Verif.Props.EnumSig
import Verif.ChannelRA
import Verif.ChannelRASpec
import Verif.ChannelRAProofs
import Verif.Props.ChannelRA
import Verif.EnumStage
import Verif.Props.Positions
import Verif.AtomicRA
import Verif.AtomicRAProofs
import Verif.Props.AtomicRA
import Verif.SourceAsync
import Verif.Props.ExprAsync
import Verif.HubConcSolo
import Verif.MutableBTreeMapSolo
import Verif.Props.Alone
import Verif.Fut
import Verif.ExprStages
import Verif.AsyncStage
import Verif.Props.ExprTimed
import Verif.Tasks
import Verif.TaskProofs
import Verif.TaskSettle
import Verif.TaskBind
import Verif.Props.Tasks
import Verif.Props.TaskBind
import Verif.Checks
import Verif.Props.Checks
import Verif.Replica
import Verif.Props.Replica
import Verif.AfterEnd
import Verif.Props.AfterEnd
import Verif.Props.FilterExact
import Verif.Volume
import Verif.VolumeProofs
import Verif.VolumeProofs2
import Verif.Props.Volume
import Verif.VolumeVec
import Verif.Props.VolumeVec
import Verif.Held
import Verif.Props.Held
import Verif.FnMut
import Verif.FnMutProofs
import Verif.Props.FnMut
import Verif.MutableVecLeak
import Verif.Props.Leak
import Verif.VolumeMap
import Verif.Props.VolumeMap
import Verif.Tells
import Verif.Props.Tells
import Verif.Props.GarbageWhich
import Verif.Sends
import Verif.SendsProofs
import Verif.Props.Sends
import Verif.SendsSignal
import Verif.Props.SendsSignal
import Verif.Props.TellsConc
import Verif.SendsSwitch
import Verif.Props.SendsSwitch
import Verif.SendsDelay
import Verif.Props.SendsDelay
import Verif.SendsFlatten
import Verif.Props.SendsFlatten
import Verif.Waits
import Verif.Props.Wakes
import Verif.Props.WakesConc
import Verif.Tidy
import Verif.Props.Tidy
import Verif.Props.MutableConcEnd
import Verif.Thru
import Verif.Same
import Verif.ThruSignal
import Verif.Props.Same
import Verif.Props.SameVec
import Verif.Props.SameMore
import Verif.Props.SameFilter
import Verif.Props.SameSink
import Verif.Props.MutableVecTorn
import Verif.Props.MutableMapTorn
import Verif.Props.SameSort
import Verif.Props.SameChain
import Verif.Props.PlainStages
import Verif.Props.MutableTorn
import Verif.Props.PlainPipe
import Verif.Props.PlainDelay
import Verif.Props.PlainMap
import Verif.Whole
import Verif.Props.Whole
import Verif.Props.WholeSwitch
import Verif.Props.WholeVec
import Verif.Props.WholeMap
import Verif.Props.Timing
import Verif.Props.TimingVec
import Verif.Props.TimingMap
import Verif.Props.TimingChain
import Verif.Props.TimingConc
import Verif.Props.TimingSame
import Verif.Props.MutableVecHalf
import Verif.Props.MutableMapHalf
import Verif.Props.VolumeSharp
