import Verif.Props.Wire
import Verif.Props.Crypt
import Verif.Props.SendLock
import Verif.Props.HLC
import Verif.Props.RLE
import Verif.Props.Membership
import Verif.Props.Span
import Verif.Props.Pong
import Verif.Props.Imap
import Verif.Props.Limit
import Verif.Props.Numeric
import Verif.Props.Frag
import Verif.Props.Stream
import Verif.Props.PeerURL
import Verif.Props.CAS
import Verif.Props.Persistor
import Verif.Props.WAL
import Verif.Props.Raft
import Verif.Props.Apply
import Verif.Props.KV
import Verif.Props.Snapshot
import Verif.Props.RaftRepair
import Verif.Props.Reconfig
import Verif.Props.Session
import Verif.Props.Omap
import Verif.Props.CDC
import Verif.Props.Sync
import Verif.Props.Rpc
import Verif.Props.NetRpc
import Verif.Props.Upload
import Verif.Props.Hermes
import Verif.Props.Art
import Verif.Props.ArtNode
import Verif.Props.Greenpack
import Verif.Props.Hooks
import Verif.Props.Handshake
import Verif.Props.HandshakeSym
import Verif.Props.HostKey
import Verif.Props.Parallel
import Verif.Model.Simnet
import Verif.Proofs.Simnet
import Verif.Proofs.SimnetStep
import Verif.Proofs.SimnetOps
import Verif.Proofs.SimnetRun
import Verif.Proofs.SimnetFifo
import Verif.Proofs.SimnetFault
import Verif.Props.Simnet
import Verif.Model.Simconn
import Verif.Props.Simconn
import Verif.Model.Lease
import Verif.Spec.Lease
import Verif.Proofs.Lease
import Verif.Proofs.LeaseStep
import Verif.Proofs.LeaseInv
import Verif.Proofs.LeaseRead
import Verif.Proofs.LeaseApply
import Verif.Props.Lease
import Verif.Proofs.RaftOrder
import Verif.Proofs.RaftHistory
import Verif.Props.RaftOrder
import Verif.Model.Czar
import Verif.Spec.Czar
import Verif.Proofs.Czar
import Verif.Proofs.CzarInv
import Verif.Proofs.CzarStep
import Verif.Proofs.CzarApply
import Verif.Proofs.CzarViews
import Verif.Proofs.CzarMono
import Verif.Proofs.CzarTake
import Verif.Proofs.CzarKeep
import Verif.Proofs.CzarPing
import Verif.Props.Czar
import Verif.Model.DirSync
import Verif.Spec.DirSync
import Verif.Proofs.DirSync
import Verif.Proofs.DirSyncScan
import Verif.Proofs.DirSyncTake
import Verif.Proofs.DirSyncPrune
import Verif.Proofs.DirSyncTame
import Verif.Proofs.DirSyncTwice
import Verif.Props.DirSync
import Verif.Model.RaftCompact
import Verif.Spec.RaftCompact
import Verif.Proofs.RaftCompactAcc
import Verif.Proofs.RaftCompact
import Verif.Proofs.RaftCompactGrow
import Verif.Proofs.RaftCompactAE
import Verif.Proofs.RaftCompactSnap
import Verif.Proofs.RaftCompactSim
import Verif.Proofs.RaftCompactSame
import Verif.Props.RaftCompact
import Verif.Model.Pump
import Verif.Spec.Pump
import Verif.Proofs.PumpFlow
import Verif.Proofs.PumpInv
import Verif.Proofs.Pump
import Verif.Proofs.PumpRun
import Verif.Proofs.PumpTold
import Verif.Proofs.PumpClose
import Verif.Props.Pump
import Verif.Model.FragPool
import Verif.Spec.FragPool
import Verif.Proofs.FragPool
import Verif.Props.FragPool
import Verif.Model.PeerSvc
import Verif.Spec.PeerSvc
import Verif.Proofs.PeerSvc
import Verif.Props.PeerSvc
import Verif.Model.Ticket
import Verif.Spec.Ticket
import Verif.Proofs.Ticket
import Verif.Proofs.TicketStep
import Verif.Proofs.TicketApply
import Verif.Proofs.TicketMove
import Verif.Proofs.TicketFlow
import Verif.Proofs.TicketRun
import Verif.Proofs.TicketOrder
import Verif.Proofs.TicketExt
import Verif.Props.Ticket
import Verif.Model.Sparse
import Verif.Spec.Sparse
import Verif.Proofs.Sparse
import Verif.Proofs.SparseChunks
import Verif.Props.Sparse
import Verif.Model.MemWAL
import Verif.Spec.MemWAL
import Verif.Proofs.MemWAL
import Verif.Props.MemWAL
import Verif.Model.Rand
import Verif.Spec.Rand
import Verif.Proofs.Rand
import Verif.Props.Rand
import Verif.Model.RandLock
import Verif.Spec.RandLock
import Verif.Proofs.RandLock
import Verif.Props.RandLock
import Verif.Model.PreVote
import Verif.Spec.PreVote
import Verif.Proofs.RaftProgress
import Verif.Proofs.RaftProgress2
import Verif.Proofs.PreVote
import Verif.Proofs.PreVoteStuck
import Verif.Proofs.RaftProgress3
import Verif.Props.PreVote
import Verif.Model.Prune
import Verif.Proofs.Prune
import Verif.Proofs.Prune2
import Verif.Props.Prune
import Verif.Model.EventQ
import Verif.Proofs.EventQ
import Verif.Proofs.EventQ2
import Verif.Proofs.EventQ3
import Verif.Props.EventQ
import Verif.Model.SessTable
import Verif.Spec.SessTable
import Verif.Proofs.SessTable
import Verif.Proofs.SessTable2
import Verif.Props.SessTable
import Verif.Model.ReqChunks
import Verif.Proofs.ReqChunks
import Verif.Props.ReqChunks
import Verif.Props.CDCWindow
import Verif.Props.HermesWake
import Verif.Props.HermesOrder
import Verif.Props.HostCID
import Verif.Props.KVMerge
import Verif.Props.FindLeader
import Verif.Props.Watchdog
import Verif.Props.Rolling
import Verif.Props.UserMeta
import Verif.Props.SvcLimit
import Verif.Props.ToDisk
import Verif.Props.ProdCfg
import Verif.Props.KVReport
