import Verif.Common
import Verif.RB.Props
import Verif.RB.Augment
import Verif.RB.AugmentProps
import Verif.Sync.MutexProps
import Verif.Sync.RWLockProps
import Verif.Sync.CondProps
import Verif.Sync.ChanProps
import Verif.Fiber.JoinProps
import Verif.KList.Props
import Verif.Align
import Verif.KBuf.Props
import Verif.KBuf.SBufProps
import Verif.Pool.Array
import Verif.Sel.Timer
import Verif.Sel.TimerSpec
import Verif.Sel.TimerLemmas
import Verif.Sel.TimerProps
import Verif.Sel.Lists
import Verif.Sel.ListsProps
import Verif.Mgr.Model
import Verif.Mgr.Props
import Verif.Thr.Worker
import Verif.Thr.WorkerProps
import Verif.Thr.Pool
import Verif.Thr.PoolProps
import Verif.Sel.Notice
import Verif.Thr.Spin
import Verif.Thr.SpinProps
import Verif.Thr.KCond
import Verif.Addr.Model
import Verif.Addr.Spec
import Verif.Addr.Lemmas
import Verif.Addr.Inv
import Verif.Addr.Props
import Verif.NetIO.Full
import Verif.NetIO.FullProps
import Verif.NetIO.Tls
import Verif.NetIO.TlsProps
import Verif.Sel.Epoll
import Verif.Sel.EpollInv
import Verif.Sel.EpollStep
import Verif.Sel.EpollAcct
import Verif.Sel.EpollPoll
import Verif.Sel.EpollServe
import Verif.Sel.EpollRank
import Verif.Sel.EpollSound
import Verif.Sel.EpollProps
import Verif.Sel.EpollWatch
import Verif.File.Aio
import Verif.File.AioProps
import Verif.File.AioLoop
import Verif.File.Open
import Verif.RB.Cmp
import Verif.Str.KString
import Verif.Str.KStringProps
import Verif.Addr.Ip
import Verif.Addr.IpProps
import Verif.Srv.Server
import Verif.Srv.Lemmas
import Verif.Srv.Props
import Verif.Srv.Finish
import Verif.Tls.Handshake
import Verif.Tls.HandshakeLemmas
import Verif.Tls.HandshakeProps
import Verif.Tls.ShutdownProps
import Verif.RB.Heap
import Verif.RB.HeapRep
import Verif.RB.HeapOps
import Verif.RB.HeapInsert
import Verif.RB.HeapErase
import Verif.RB.HeapErase2
import Verif.RB.HeapErase3
import Verif.RB.HeapNav
import Verif.RB.HeapMap
import Verif.RB.HeapProps
import Verif.Fiber.Sched
import Verif.Fiber.SchedLemmas
import Verif.Fiber.SchedInv
import Verif.Fiber.SchedProps
import Verif.KBuf.Tight
import Verif.Tls.Bio
import Verif.Tls.BioLemmas
import Verif.Tls.BioInv
import Verif.Tls.BioProps
import Verif.Uring.Model
import Verif.Uring.Inv
import Verif.Uring.Steps
import Verif.Uring.Reach
import Verif.Uring.Props
import Verif.Tls.Proto
import Verif.Tls.ProtoProps
import Verif.Tls.Cert
import Verif.Tls.CertLemmas
import Verif.Tls.CertProps
import Verif.Srv.SslCtx
import Verif.Srv.SslCtxInv
import Verif.Srv.SslCtxSteps
import Verif.Srv.SslCtxProps
import Verif.Tls.Sni
import Verif.Tls.SniProps
import Verif.Sock.Model
import Verif.Sock.Props
import Verif.Sock.Server
import Verif.Udp.Model
import Verif.Udp.Props
import Verif.Fiber.RTime
import Verif.Fiber.RTimeProps
import Verif.Sel.Tick
import Verif.Sel.TickProps
import Verif.Fiber.Remote
import Verif.Fiber.RemoteSpec
import Verif.Fiber.RemoteInv
import Verif.Fiber.RemoteTac
import Verif.Fiber.RemoteStep1
import Verif.Fiber.RemoteStep2
import Verif.Fiber.RemoteStep3
import Verif.Fiber.RemoteStep4
import Verif.Fiber.RemoteProps
import Verif.Mgr.Life
import Verif.Mgr.LifeSpec
import Verif.Mgr.LifeInv
import Verif.Mgr.LifeStep
import Verif.Mgr.LifeThread
import Verif.Mgr.LifeTime
import Verif.Mgr.LifeTime2
import Verif.Mgr.LifeTime3
import Verif.Mgr.LifeEnd
import Verif.Mgr.LifeProps
import Verif.Sel.Kqueue
import Verif.Sel.KqueueInv
import Verif.Sel.KqueueStep
import Verif.Sel.KqueuePoll
import Verif.Sel.KqueueProps
import Verif.Sel.KqueueAns
import Verif.Iocp.Model
import Verif.Iocp.Inv
import Verif.Iocp.Step
import Verif.Iocp.Props
import Verif.MDbg.Model
import Verif.MDbg.Inv
import Verif.MDbg.Struct
import Verif.MDbg.Struct2
import Verif.MDbg.Step
import Verif.MDbg.Mem
import Verif.MDbg.Eff
import Verif.MDbg.Data
import Verif.MDbg.Guard
import Verif.MDbg.Props
import Verif.FNet.Model
import Verif.FNet.Spec
import Verif.FNet.InvA
import Verif.FNet.InvF
import Verif.FNet.InvL
import Verif.FNet.Step
import Verif.FNet.Props
import Verif.Tls.Sid
import Verif.Tls.SidProps
import Verif.File.WorkerIo
import Verif.File.WorkerIoProps
import Verif.Addr.Lookup
import Verif.Addr.LookupProps
import Verif.File.Plain
import Verif.File.PlainProps
import Verif.Srv.Adopt
import Verif.Srv.AdoptProps
import Verif.Thr.Atom
import Verif.Thr.AtomProps
import Verif.KBuf.Num
import Verif.KBuf.NumProps
import Verif.KBuf.Klib
import Verif.KBuf.KlibProps
