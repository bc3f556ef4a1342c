import Verif.DiskAlloc.Props
import Verif.BlockAlloc.Props
import Verif.BlockManager.Props
import Verif.Pager.Props
import Verif.ExtVector.Props
import Verif.Stack.NormalProps
import Verif.Stack.GrowShrinkProps
import Verif.Pools.Props
import Verif.Stack.GrowShrink2Props
import Verif.Stack.MigratingProps
import Verif.Sequence.Props
import Verif.Deque.Props
import Verif.BinBuf.Props
import Verif.UIntPair.Props
import Verif.Schedule.Props
import Verif.BufStream.Props
import Verif.LoserTree.Props
import Verif.Sort.Props
import Verif.ParseUnits.Props
import Verif.AddrQueue.Props
import Verif.AddrQueue.PrioProps
import Verif.CountingPtr.Props
import Verif.WinnerTree.Props
import Verif.Scan.Props
import Verif.ReqQueue.Props
import Verif.ReqQueue.OneQ
import Verif.Streams.Props
import Verif.Sorter.Props
import Verif.BTree.Props
import Verif.NodeCache.Props
import Verif.PQ.Props
import Verif.HashMap.Props
import Verif.Wbtl.Props
import Verif.BlockCache.Props
import Verif.HashMap.IterProps
import Verif.Request.Props
import Verif.FileIo.Props
import Verif.KSort.Props
import Verif.StableKSort.Props
import Verif.Matrix.Props
import Verif.BlockSched.Flaws
import Verif.MultiSeq.Props
import Verif.MwMerge.Props
import Verif.Sync.Props
import Verif.PPQ.Props
import Verif.VecBuf.Props
import Verif.LinuxAio.Findings
import Verif.Config.Props
import Verif.IoStats.Props
import Verif.Cmdline.Props
import Verif.MwSort.Props
import Verif.Interleave.Props
import Verif.BlockIndex.Props
import Verif.SwapVec.Props
import Verif.AlignedAlloc.Props
import Verif.Singleton.Props
import Verif.MallocCount.Props
import Verif.Utils.Props
import Verif.Small.Props
import Verif.SimDisk.Props
import Verif.Tuple.Props
import Verif.StatsData.Props
import Verif.Handler.Props
