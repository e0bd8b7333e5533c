import Verif.Props.Wire
import Verif.Props.Send
import Verif.Props.LiveHeap
import Verif.Props.Heap
import Verif.Props.EndToEnd
import Verif.Props.Descriptor
import Verif.Props.Stream
import Verif.Props.Stats
import Verif.Props.Mem
import Verif.Props.GetDescriptors
import Verif.Props.Tcp
import Verif.Props.ChunkWindow
import Verif.Props.ChunkStream
import Verif.Props.ChunkGroup
import Verif.Props.Ring
import Verif.Props.Queue
import Verif.Props.MemPool
import Verif.Props.SendQueue
import Verif.Props.Rate
import Verif.Props.RawPacket
import Verif.Props.SendUdp
import Verif.Props.RecvUdp
import Verif.Props.RingStream
import Verif.Props.Memcpy
import Verif.Props.Traffic
import Verif.Props.Lifecycle
import Verif.Props.Semaphore
import Verif.Props.SendIbv
import Verif.Props.SendIbvRing
import Verif.Props.RecvIbvWake
import Verif.Model.SendWriter
import Verif.Spec.SendWriter
import Verif.Lemmas.SendWriter
import Verif.Props.SendWriter
import Verif.Model.Transport
import Verif.Spec.Delivery
import Verif.Spec.Submit
import Verif.Lemmas.Framing
import Verif.Lemmas.Delivery
import Verif.Lemmas.DeliveryStream
import Verif.Lemmas.Provenance
import Verif.Lemmas.Quiet
import Verif.Lemmas.Transport
import Verif.Props.TcpEndToEnd
import Verif.Model.RecvInproc
import Verif.Spec.RecvInproc
import Verif.Lemmas.RecvInproc
import Verif.Props.InprocEndToEnd
import Verif.Spec.Integrity
import Verif.Lemmas.Integrity
import Verif.Props.Integrity
import Verif.Model.SendMmsg
import Verif.Spec.SendMmsg
import Verif.Lemmas.SendMmsg
import Verif.Props.SendMmsg
import Verif.Spec.UdpEndToEnd
import Verif.Props.UdpEndToEnd
import Verif.Model.ChunkRecv
import Verif.Spec.ChunkRecv
import Verif.Lemmas.ChunkRecv
import Verif.Lemmas.ChunkRecvEvents
import Verif.Props.ChunkRecv
import Verif.Lemmas.ChunkFlow
import Verif.Lemmas.ChunkCausal
import Verif.Model.ChunkRings
import Verif.Spec.ChunkRings
import Verif.Lemmas.ChunkFeed
import Verif.Lemmas.ChunkRings
import Verif.Lemmas.ChunkRingsRun
import Verif.Lemmas.ChunkRingsOrder
import Verif.Props.ChunkRings
import Verif.Props.PyItem
import Verif.Props.PyGroup
import Verif.Props.PySync
import Verif.Props.PyAsync
import Verif.Props.PyAsyncSend
import Verif.Props.DumpWriter
import Verif.Props.DumpCapture
import Verif.Props.PyLog
import Verif.Props.DumpSizes
import Verif.Props.PlaceData
import Verif.Props.ChunkNet
import Verif.Props.Config
import Verif.Props.StreamBuild
import Verif.Props.Mprq
import Verif.Props.Flow
import Verif.Props.IbvEndToEnd
import Verif.Props.IbvSlots
import Verif.Props.SendTool
import Verif.Model.PyDescr
import Verif.Spec.PyDescr
import Verif.Lemmas.PyDescr
import Verif.Lemmas.PyText
import Verif.Props.PyDescr
import Verif.Props.VerifyTool
import Verif.Props.PyWire
import Verif.Props.PySend
import Verif.Props.PyExit
import Verif.Props.Bench
import Verif.Props.PyChunk
import Verif.Props.PyConnect
import Verif.Props.PyTool
import Verif.Props.Alloc
import Verif.Props.ThreadPool
import Verif.Props.PyBench
import Verif.Props.Loader
import Verif.Props.Cmdline
import Verif.Props.Socket
import Verif.Props.RecvTool
import Verif.Model.ToolSocket
import Verif.Spec.ToolSocket
import Verif.Props.ToolSocket
import Verif.Model.PyPlace
import Verif.Spec.PyPlace
import Verif.Lemmas.PyPlace
import Verif.Props.PyPlace
import Verif.Model.TcpConn
import Verif.Spec.TcpConn
import Verif.Lemmas.TcpConn
import Verif.Props.TcpConn
import Verif.Model.NetRaw
import Verif.Spec.NetRaw
import Verif.Props.NetRaw
import Verif.Model.StatsObj
import Verif.Spec.StatsObj
import Verif.Lemmas.StatsObj
import Verif.Props.StatsObj
import Verif.Model.GroupSeq
import Verif.Spec.GroupSeq
import Verif.Props.GroupSeq
import Verif.Model.DataClass
import Verif.Spec.DataClass
import Verif.Props.DataClass
import Verif.Model.LogFn
import Verif.Spec.LogFn
import Verif.Props.LogFn
