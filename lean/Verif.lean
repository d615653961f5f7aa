import Verif.Spsc.Props
import Verif.Pool.Props
import Verif.CircularBuffer.Props
import Verif.Vector.Props
import Verif.Vector.Uninit
import Verif.Deque.Props
import Verif.Deque.IterSwap
import Verif.List.Props
import Verif.IntrusiveList.Props
import Verif.Cyclic.Props
import Verif.Debounce.Props
import Verif.Maths.Props
import Verif.Binary.Props
import Verif.Crc.Props
import Verif.Hash.Props
import Verif.Base64.Decode
import Verif.Base64.Restart
import Verif.Algo.Search
import Verif.Algo.Heap
import Verif.PriorityQueue.Props
import Verif.Queue.Props
import Verif.Observer.Props
import Verif.Algo.Partition
import Verif.Router.Model
import Verif.Router.Props
import Verif.SharedMsg.Model
import Verif.SharedMsg.Props
import Verif.Stack.Props
import Verif.Algo.Rotate
import Verif.Algo.Sort
import Verif.Algo.Range
import Verif.Fsm.Model
import Verif.Fsm.Props
import Verif.Fsm.Hfsm
import Verif.StateChart.Model
import Verif.StateChart.Props
import Verif.Scheduler.Model
import Verif.Scheduler.Props
import Verif.Timer.Model
import Verif.Timer.Rep
import Verif.Timer.Spec
import Verif.Timer.Sim
import Verif.Timer.Props
import Verif.Bitset.Model
import Verif.Bitset.Lemmas
import Verif.Bitset.Lemmas2
import Verif.Bitset.Lemmas3
import Verif.Bitset.Props
import Verif.Bitset.Extract
import Verif.Bitset.ToNumber
import Verif.Bloom.Model
import Verif.Bloom.Props
import Verif.View.Model
import Verif.View.Props
import Verif.Flat.Model
import Verif.Flat.Props
import Verif.UMap.Model
import Verif.UMap.Core
import Verif.UMap.Ops
import Verif.UMap.Props
import Verif.UMap.Bucket
import Verif.Stream.BitModel
import Verif.Stream.BitCore
import Verif.Stream.BitProps
import Verif.Stream.ByteModel
import Verif.Stream.ByteProps
import Verif.Str.Model
import Verif.Str.Props
import Verif.Str.More
import Verif.Str.Wide
import Verif.Str.Search
import Verif.Arith.Model
import Verif.Arith.Props
import Verif.SumT.Model
import Verif.SumT.Props
import Verif.Bip.Model
import Verif.Bip.Props
import Verif.Locked.Model
import Verif.Locked.Props
import Verif.Common.FwLinks
import Verif.Common.FwSort
import Verif.FList.Model
import Verif.FList.Lemmas
import Verif.FList.Ops
import Verif.FList.Props
import Verif.Tree.Heap
import Verif.Tree.Model
import Verif.Tree.Shape
import Verif.Tree.Rot
import Verif.Tree.Insert
import Verif.Tree.InsNode
import Verif.Tree.Rebal
import Verif.Tree.Step2
import Verif.Tree.Detach
import Verif.Tree.RemLoop
import Verif.Tree.Remove
import Verif.Tree.Search
import Verif.Tree.Spec
import Verif.Tree.Ops
import Verif.Tree.Refine
import Verif.Tree.Props
import Verif.MTree.Model
import Verif.MTree.Par
import Verif.MTree.Insert
import Verif.MTree.Rebal
import Verif.MTree.Detach
import Verif.MTree.RemLoop
import Verif.MTree.Remove
import Verif.MTree.Search
import Verif.MTree.Ops
import Verif.MTree.Spec
import Verif.MTree.Refine
import Verif.MTree.Props
import Verif.IFList.Model
import Verif.IFList.Lemmas
import Verif.IFList.Ops
import Verif.IFList.Two
import Verif.IFList.Props
import Verif.TimerIsr.Model
import Verif.TimerIsr.Sim
import Verif.TimerIsr.Spec
import Verif.TimerIsr.Inv
import Verif.TimerIsr.Steps
import Verif.TimerIsr.Props
import Verif.TimerIsr.Return
import Verif.MsgTimer.Model
import Verif.MsgTimer.Spec
import Verif.MsgTimer.Sim
import Verif.MsgTimer.Props
import Verif.Broker.Model
import Verif.Broker.Spec
import Verif.Broker.Props
import Verif.BufDesc.Model
import Verif.BufDesc.Spec
import Verif.BufDesc.Props
import Verif.IStackQ.Model
import Verif.IStackQ.Props
import Verif.Line.Model
import Verif.Line.Props
import Verif.PVec.Model
import Verif.PVec.Props
import Verif.IVec.Model
import Verif.IVec.Props
import Verif.StrUtil.Model
import Verif.StrUtil.Props
import Verif.Stream.LegacyModel
import Verif.Stream.LegacyProps
import Verif.Random.Model
import Verif.Random.Props
import Verif.MultiRange.Model
import Verif.MultiRange.Props
import Verif.BlockAlloc.Model
import Verif.BlockAlloc.Props
import Verif.Memory.Model
import Verif.Memory.Props
import Verif.Arr.Model
import Verif.Arr.Props
import Verif.CircIter.Model
import Verif.CircIter.Props
import Verif.Histogram.Model
import Verif.Histogram.Props
import Verif.Registry.Model
import Verif.Registry.Props
import Verif.Unaligned.Model
import Verif.Unaligned.Props
import Verif.Rounding.Model
import Verif.Rounding.Props
import Verif.MovAvg.Model
import Verif.MovAvg.Props
import Verif.MultiSpan.Model
import Verif.MultiSpan.Props
import Verif.Atomic.Spec
import Verif.Atomic.Lock
import Verif.Atomic.LockProps
import Verif.Atomic.Prim
import Verif.Atomic.PrimProps
import Verif.VPool.Model
import Verif.VPool.Props
import Verif.CStr.Model
import Verif.CStr.Props
import Verif.TreeLink.Model
import Verif.TreeLink.Props
import Verif.Delegate.Model
import Verif.Delegate.Props
import Verif.StrStream.Model
import Verif.StrStream.Props
import Verif.Packet.Model
import Verif.Packet.Props
import Verif.Stats.Model
import Verif.Stats.Props
import Verif.Flags.Model
import Verif.Flags.Props
import Verif.Functor.Model
import Verif.Functor.Props
import Verif.StdHash.Model
import Verif.StdHash.Props
import Verif.Numeric.Model
import Verif.Numeric.Props
import Verif.PolySpan.Model
import Verif.PolySpan.Props
import Verif.TypeList.Model
import Verif.TypeList.Props
import Verif.Algo.Loops
import Verif.Algo.LoopsProps
import Verif.Iter.Model
import Verif.Iter.Props
import Verif.SumT.More
import Verif.SumT.MoreProps
import Verif.SharedList.Model
import Verif.SharedList.Lemmas
import Verif.SharedList.Props
import Verif.Binary.Bit
import Verif.View.ArrayView
import Verif.MemCast.Model
import Verif.MemCast.Props
import Verif.IoPort.Model
import Verif.IoPort.Props
import Verif.Instance.Model
import Verif.Instance.Props
import Verif.Bitset.Legacy
import Verif.Bitset.LegacyProps
import Verif.Ratio.Model
import Verif.Ratio.Props
import Verif.Compare.Model
import Verif.Compare.Props
import Verif.SumT.Legacy
import Verif.SumT.LegacyProps
import Verif.TPacket.Model
import Verif.TPacket.Props
import Verif.Limits.Model
import Verif.Limits.Props
import Verif.FunctionObj.Model
import Verif.FunctionObj.Props
import Verif.FunctionObj.TypeDef
import Verif.Pair.Model
import Verif.Pair.Props
