import Verif.Common.Str
import Verif.Common.KMap
import Verif.HashSlot.Props
import Verif.Util.Wildcard
import Verif.Util.Codec
import Verif.Util.DataSize
import Verif.Meta.Props
import Verif.Meta.Listing
import Verif.Meta.Index
import Verif.Meta.Versions
import Verif.Admin.Paging
import Verif.Admin.Gather
import Verif.Api.Spread
import Verif.Object.CacheKeys
import Verif.Admin.Stat
import Verif.Admin.StatProps
import Verif.Meta.Fsm
import Verif.Meta.Reads
import Verif.Meta.GroupProps
import Verif.Meta.Groups
import Verif.Meta.Guard
import Verif.Meta.MemberProps
import Verif.Meta.Members
import Verif.Meta.Restore
import Verif.Meta.Replay
import Verif.Meta.Rest
import Verif.Meta.Cache
import Verif.Meta.MigStatus
import Verif.Meta.Migration
import Verif.Object.RSProps
import Verif.Object.RSSeek
import Verif.Object.RSFindings
import Verif.Object.Repair
import Verif.Object.Lagrange
import Verif.Object.Disk
import Verif.Object.DataServer
import Verif.Object.DirectIO
import Verif.Object.CacheRace
import Verif.Object.EndToEnd
import Verif.Conc.DoneGroup
import Verif.Conc.Panics
import Verif.Conc.PanicProps
import Verif.Object.Upload
import Verif.Object.CopyRead
import Verif.Object.Resume
import Verif.Api.Locate
import Verif.Api.LocateSys
import Verif.Api.Dedup
import Verif.Api.Store
import Verif.Api.StoreMore
import Verif.Api.BigLayout
import Verif.Api.Select
import Verif.Api.Load
import Verif.Api.Auth
import Verif.Api.Keys
import Verif.Api.KeyShare
import Verif.Api.Config
import Verif.Object.PathDb
import Verif.Object.Paths
import Verif.Object.Relocate
import Verif.Object.Drives
import Verif.Object.Escape
import Verif.Object.DriveRace
import Verif.Object.Rebalance
import Verif.Object.Capacity
import Verif.Object.CapacityProps
import Verif.Object.JoinLeave
import Verif.Object.JoinLeaveProps
import Verif.Object.Temp
import Verif.Object.TempProps
import Verif.Registry.Discovery
import Verif.Registry.Lifecycle
import Verif.Registry.Roles
import Verif.Registry.RolesProps
import Verif.Registry.Entries
import Verif.Registry.EntriesProps
import Verif.Perf.Store
import Verif.Perf.Collector
import Verif.System.Model
import Verif.System.Lemmas
import Verif.System.Sample
import Verif.System.Props
import Verif.Util.Slices
import Verif.Util.Collections
import Verif.Util.Range
import Verif.Msgp.Prim
import Verif.Msgp.Lemmas
import Verif.Msgp.Local
import Verif.Msgp.Entry
import Verif.Msgp.Records
import Verif.Msgp.Spec
import Verif.Msgp.RecordProofs
import Verif.Msgp.Props
import Verif.Api.Errors
import Verif.Api.ErrorProps
import Verif.Api.MetaRpc
import Verif.Api.MetaRpcProps
import Verif.Meta.Route
import Verif.Meta.RouteProps
import Verif.Perf.Etcd
import Verif.Perf.EtcdProps
import Verif.Admin.Auth
import Verif.Admin.AuthProps
import Verif.Api.BucketHttp
import Verif.Api.BucketHttpProps
import Verif.Api.BindProps
import Verif.Object.Client
import Verif.Object.ClientProps
import Verif.Object.Compress
import Verif.Object.CompressProps
import Verif.Admin.Pages
import Verif.Admin.PagesProps
import Verif.Admin.Commands
import Verif.Api.Token
import Verif.Api.TokenProps
import Verif.Api.TokenUpload
import Verif.Api.TokenCodec
import Verif.Config.Size
import Verif.Config.Persist
import Verif.Config.PersistProps
import Verif.Config.Pages
import Verif.Conc.Shutdown
import Verif.Conc.ConnPool
import Verif.Conc.Maps
import Verif.Perf.Life
import Verif.Conc.Requests
import Verif.System.LossSample
import Verif.Admin.CmdLine
import Verif.Config.Identity
import Verif.Config.Logs
import Verif.Meta.Pages
import Verif.Admin.Console
import Verif.Meta.DbFile
import Verif.Api.Bodies
import Verif.Api.BodiesProps
import Verif.Api.Remains
import Verif.Api.RemainsProps
import Verif.Perf.Clear
import Verif.Perf.ClearProps
import Verif.Object.Race
import Verif.Object.RaceProps
import Verif.Ui.Pager
import Verif.Ui.Session
import Verif.Ui.Requests
import Verif.Ui.RequestsProps
import Verif.Ui.Slots
import Verif.Ui.Versions
import Verif.Ui.SlotsProps
import Verif.Ui.Charts
import Verif.Ui.Buckets
import Verif.Meta.Encoded
import Verif.Meta.EncodedProps
import Verif.Meta.EncodedLog
import Verif.Object.Power
import Verif.Object.PowerProps
import Verif.Meta.Faults
import Verif.System.Space
import Verif.Api.BigDigest
import Verif.Object.PowerCode
import Verif.Object.PowerCopy
import Verif.Object.DiskInfo
import Verif.Object.PowerMove
import Verif.Object.Ticks
import Verif.Api.Cut
import Verif.Meta.MovingWrites
import Verif.Meta.MovingReads
import Verif.Api.Half
import Verif.Registry.Watch
import Verif.Object.Overlap
import Verif.Object.Recopy
