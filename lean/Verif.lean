import Verif.Time.Props
import Verif.Event.Props
import Verif.TokenBucket.Props
import Verif.Cpu.Props
import Verif.Relay.Props
import Verif.Runahead.Props
import Verif.Sim.Clock
import Verif.Fd.Props
import Verif.EventFd.Props
import Verif.Dns.Props
import Verif.IpAssign.Props
import Verif.Units.Props
import Verif.Counter.Props
import Verif.Tcp.SeqProps
import Verif.Tcp.ScalingProps
import Verif.Tcp.StreamExamples
import Verif.Tcp.StatesExamples
import Verif.NetQueue.Props
import Verif.NetIface.Props
import Verif.UnixNs.Props
import Verif.Codel.Props
import Verif.ByteQueue.Props
import Verif.Pipe.Examples
import Verif.Timer.Props
import Verif.TimerFd.Props
import Verif.Epoll.Props
import Verif.Futex.Props
import Verif.IntervalMap.Props
import Verif.ShMem.Props
import Verif.Channel.Props
import Verif.Mutex.Props
import Verif.Latch.SimpleProps
import Verif.Latch.CountDownProps
import Verif.Steal.Props
import Verif.Pool.UnboundedExamples
import Verif.Signal.Examples
import Verif.IoVec.Props
import Verif.Udp.World
import Verif.Listen.Props
import Verif.Procs.Findings
import Verif.Unix.Findings
import Verif.Files.Props
import Verif.MemMap.Props
import Verif.Lazy.Props
import Verif.TlsMap.Props
import Verif.Rooted.Props
import Verif.Rooted.CellProps
import Verif.PidWatch.Props
import Verif.Pool.BoundedExamples
import Verif.Pcap.Props
import Verif.Pcap.LegacyProps
import Verif.Ipc.Examples
import Verif.Calls.Examples
import Verif.Wake.Examples
import Verif.Tally.Props
import Verif.CTcp.Model
import Verif.CTcp.TallyLem
import Verif.CTcp.Inv
import Verif.CTcp.Ops
import Verif.CTcp.Ops2
import Verif.CTcp.Ops3
import Verif.CTcp.World
import Verif.CTcp.Props
import Verif.CTcp.Stuck
import Verif.CTcp.Examples
import Verif.Graph.Model
import Verif.Graph.Dijkstra
import Verif.Graph.Lem
import Verif.Graph.Props
import Verif.Graph.Examples
import Verif.Poll.Model
import Verif.Poll.Lem
import Verif.Poll.Inv
import Verif.Poll.Props
import Verif.Poll.Examples
import Verif.Sleep.Model
import Verif.Sleep.Props
import Verif.Sleep.Timers
import Verif.Sleep.Examples
import Verif.Reno.Props
import Verif.Reno.Examples
import Verif.Rto.Props
import Verif.Rto.Examples
import Verif.PrioQ.Props
import Verif.EpollWait.Props
import Verif.EpollWait.Examples
import Verif.SockAddr.Props
import Verif.SockAddr.Examples
import Verif.PrioQ.Examples
import Verif.ProcMaps.Model
import Verif.ProcMaps.Props
import Verif.ProcMaps.Examples
import Verif.Gml.Model
import Verif.Gml.Props
import Verif.Gml.Examples
import Verif.Netlink.Model
import Verif.Netlink.Props
import Verif.Netlink.Examples
import Verif.Sched.Model
import Verif.Sched.Props
import Verif.Sched.Examples
import Verif.Affinity.Model
import Verif.Affinity.Props
import Verif.Affinity.Examples
import Verif.RangeList.Model
import Verif.RangeList.Props
import Verif.RangeList.Examples
import Verif.ShmClean.Model
import Verif.ShmClean.Props
import Verif.ShmClean.Examples
import Verif.Rlimit.Model
import Verif.Rlimit.Props
import Verif.Rlimit.Examples
import Verif.Once.Model
import Verif.Once.Props
import Verif.CbQueue.Model
import Verif.CbQueue.Props
import Verif.Preload.Model
import Verif.Preload.Props
import Verif.Plugin.Model
import Verif.Plugin.Props
import Verif.Config.Model
import Verif.Config.Props
import Verif.InsnEmu.Model
import Verif.InsnEmu.Props
import Verif.ShimTls.Model
import Verif.ShimTls.Props
import Verif.Uio.Model
import Verif.Uio.Props
import Verif.HostSched.Model
import Verif.HostSched.Props
import Verif.CopyDir.Props
import Verif.FdFlags.Props
import Verif.MmapFile.Props
import Verif.NameLookup.Props
import Verif.Prctl.Props
import Verif.Random.Props
import Verif.AuxRandom.Props
import Verif.MemInfo.Props
import Verif.Logger.Model
import Verif.Logger.Props
import Verif.Logger.Examples
import Verif.FmtBuf.Model
import Verif.FmtBuf.Props
import Verif.FmtBuf.Examples
