import Verif.Props.Metadata
import Verif.Model.Lazy
import Verif.Proof.LazyRefine
import Verif.Props.Lazy
import Verif.Props.LazySafety
import Verif.Props.LazyProgress
import Verif.Props.LazyTail
import Verif.Props.Crypt
import Verif.Props.Archive
import Verif.Props.ArchiveRead
import Verif.Props.RemoteSource
import Verif.Props.Migration
import Verif.Props.Vhost
import Verif.Props.Ublk
import Verif.Props.Tracker
import Verif.Props.Includes
import Verif.Props.Secrets
import Verif.Props.Load
import Verif.Props.S3
import Verif.Props.Effect
import Verif.Props.Util
import Verif.Props.XtsTool
import Verif.Props.Init
import Verif.Props.Uring
import Verif.Props.Restore
import Verif.Props.RestoreLimits
import Verif.Props.Rpc
import Verif.Props.LazyKill
import Verif.Props.Stack
import Verif.Props.StackDemo
import Verif.Props.LazyRefused
import Verif.Props.Front
import Verif.Props.FrontDemo
import Verif.Props.UblkFront
import Verif.Props.UblkFrontDemo
import Verif.Props.GuestRefused
import Verif.Props.LazyWork
import Verif.Model.Leftover
import Verif.Spec.Rearchive
import Verif.Proof.Rearchive
import Verif.Props.Rearchive
import Verif.Model.StoreWait
import Verif.Props.StoreWait
import Verif.Model.DirStore
import Verif.Spec.DirStore
import Verif.Proof.DirStore
import Verif.Props.DirStore
import Verif.Model.Psk
import Verif.Spec.Psk
import Verif.Props.Psk
import Verif.Model.Names
import Verif.Spec.Names
import Verif.Props.Names
import Verif.Model.Shell
import Verif.Spec.Shell
import Verif.Props.Shell
import Verif.Model.Base64
import Verif.Spec.Base64
import Verif.Proof.Base64
import Verif.Model.LegacyConfig
import Verif.Spec.LegacyConfig
import Verif.Props.Base64
import Verif.Model.Wait
import Verif.Spec.Wait
import Verif.Proof.Wait
import Verif.Props.Wait
import Verif.Model.Assemble
import Verif.Spec.Assemble
import Verif.Proof.Assemble
import Verif.Props.Assemble
import Verif.Model.Tail
import Verif.Spec.Tail
import Verif.Props.Tail
import Verif.Model.Wake
import Verif.Spec.Wake
import Verif.Props.Wake
import Verif.Spec.Accept
import Verif.Proof.Accept
import Verif.Props.Accept
import Verif.Model.Sessions
import Verif.Spec.Sessions
import Verif.Props.Sessions
import Verif.Model.MetaRing
import Verif.Spec.MetaRing
import Verif.Proof.MetaRing
import Verif.Props.MetaRing
import Verif.Model.LiveArchive
import Verif.Spec.LiveArchive
import Verif.Proof.LiveArchive
import Verif.Proof.LazyAck
import Verif.Props.LazyMarked
import Verif.Props.LiveArchive
import Verif.Props.LiveArchiveLimits
import Verif.Model.LiveServe
import Verif.Spec.LiveServe
import Verif.Proof.LiveServe
import Verif.Props.LiveServe
import Verif.Props.LiveServeLimits
import Verif.Spec.Lend
import Verif.Model.Lend
import Verif.Model.LendRing
import Verif.Proof.Lend
import Verif.Proof.LendFront
import Verif.Proof.LendPool
import Verif.Proof.LendLayers
import Verif.Proof.LendRing
import Verif.Props.Lend
import Verif.Spec.Ends
import Verif.Props.Ends
import Verif.Spec.Durable
import Verif.Model.Durable
import Verif.Props.Durable
import Verif.Model.RpcServer
import Verif.Props.RpcServer
import Verif.Model.ArchiveSize
import Verif.Props.ArchiveSize
import Verif.Model.RemoteLate
import Verif.Props.RemoteLate
import Verif.Props.LateVolume
import Verif.Model.Reconfig
import Verif.Props.Reconfig
import Verif.Spec.InitCrash
import Verif.Props.InitCrash
import Verif.Model.FrontSetup
import Verif.Spec.FrontSetup
import Verif.Props.FrontSetup
import Verif.Model.Account
import Verif.Spec.Account
import Verif.Proof.Account
import Verif.Props.Account
import Verif.Model.Report
import Verif.Spec.Report
import Verif.Proof.Report
import Verif.Props.Report
import Verif.Model.S3Workers
import Verif.Spec.S3Workers
import Verif.Proof.S3Workers
import Verif.Props.S3Workers
import Verif.Model.Formats
import Verif.Spec.Formats
import Verif.Proof.Formats
import Verif.Props.Formats
import Verif.Model.Hold
import Verif.Spec.Hold
import Verif.Props.Hold
import Verif.Model.Warn
import Verif.Spec.Warn
import Verif.Props.Warn
import Verif.Props.SharedKey
import Verif.Model.Request
import Verif.Spec.Request
import Verif.Proof.Request
import Verif.Props.Request
import Verif.Model.CoreDump
import Verif.Props.CoreDump
import Verif.Model.LiveDump
import Verif.Props.LiveDump
import Verif.Spec.WriteThrough
import Verif.Model.WriteThrough
import Verif.Proof.WriteThroughTrace
import Verif.Proof.WriteThrough
import Verif.Props.WriteThrough
import Verif.Spec.CacheMode
import Verif.Model.CacheMode
import Verif.Props.CacheMode
import Verif.Proof.RecodeThrough
import Verif.Props.ThroughStack
import Verif.Model.NullDev
import Verif.Props.Detached
