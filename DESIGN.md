# Machine-checked model of goodfs

This directory holds a Lean 4 model of the goodfs object store (`/repo`, Go) and
proofs of the properties in `properties.jsonl`.  Nothing here runs the Go code:
the tie between model and code is the reading of the source, and every
definition of the model names the file and lines it was read from.

* `properties.jsonl` – the properties, in terms of API and observable effects
* `lean/` – the model and the proofs (`lake build` in `lean/`)
* `MANIFEST.json` – property → theorems, status
* `seeded/LOG.jsonl` – wrong programs tried against the theorems.  A list of failed theorems is what the build reported, automatic runs stop at the first failing module.  Until commit b97c613 the runs copied the working tree, so a file being edited could fail on its own; 23 entries had only such failures.  They were run again (their notes begin with `corrected:`): 15 fail, 3 survived and one stood for three edits that survived, which led to `C77_first_only`, `C82_unit`, `C82_failed` and limits stated as numbers; 4 were no well-typed programs and were removed.  Runs now use an export of a commit that was built first.  Entries with failures only in dependent modules were run again in the same way; all of them fail.

## Trusted base

1. **Lean 4.33.0's kernel**, and the reading of the statements by a human.
2. **Axioms**: every theorem depends on at most `propext`, `Classical.choice`
   and `Quot.sound` (check with `#print axioms`).  No axiom is added; there is no
   `sorry`, `admit`, `native_decide`, `bv_decide`, `implemented_by` or `unsafe`.
   Mathlib is used by `Object/Lagrange.lean` (finite field, interpolation) and, for
   facts about lists and finite sets, by a few other modules.
3. **The faithfulness of the definitions to the Go source**, by reading.  A
   simplification is stated in the comment of the definition or of the module.
4. **Components outside of /repo**, which appear as parameters with a contract or
   as the documented behaviour written out:

| component | what is assumed |
|----|----|
| Go memory | slices are lists (aliasing is modelled only where the code depends on it), maps are finite maps whose iteration order is an arbitrary permutation, `sort.*` is any function that returns a sorted permutation |
| Go integers | unbounded, except where wrap-around matters (C11, C12, C52) |
| Go strings | byte lists |
| float64 | exact in the capacity computations (true below 2^53) |
| goroutines | explicit actions of a state machine; loads and stores are sequentially consistent; data races as such (torn or stale reads) are not modelled |
| bbolt | a transaction sees a sorted map, commits atomically, an error changes nothing; values up to any size |
| badger, bigcache, sync.Map | maps; bigcache may drop entries at any time where that matters (C30, C50) |
| hashicorp/raft | changes of members as written out in Meta/Members; committed entries are delivered in order to every replica, in arbitrary batches; restarts redeliver (C62) |
| etcd | a sorted map with ordered change events; calls may fail; watches may miss what happens while they are not established |
| klauspost/reedsolomon | structure `Code k m` (any `k` of `k+m` shards determine all); `Object/Lagrange.lean` proves the contract can be met for all `k ≥ 1`, `k+m ≤ 256` |
| SHA-256 | an arbitrary function; collisions are named in the statements (C42) |
| CRC-32/IEEE | written out bit by bit (C03) |
| panic, defer, recover | the rules written out in Conc/Panics |
| logrus | `Panicf` logs and then panics (C77) |
| msgp | the identity on records in Meta/Model and Meta/Fsm; C131 proves that this loses nothing: the store of bytes and the log of bytes, with the codec of C73, do the same. Array framing is modelled (C10) |
| s2 compression | the contract `S2` in Object/Compress: decoding undoes encoding, streams begin with the identifier and are refused without it (C87); the effect of compressed commits on the path database and marks is part of C67 |
| file system, direct I/O | a file is its bytes; writes are not lost; the kernel's alignment rules appear as the padding the code does, not as `EINVAL` (except in `Object/DirectIO`, C114) |
| net/url, gin paths | parsing, escaping and route parameters of Go 1.20 and gin 1.9 as written out in Api/BucketHttp, Object/Client and Admin/Pages (C84, C86, C88); their sources were not available |
| etcd leases | a put under a lease that does not exist is refused, a put replaces the lease of the entry, an entry goes with its lease, lease 0 is no lease, lease numbers are not 0 and not reused: `Registry/Entries` (C93) |
| yaml.v3, cleanenv | yaml reads back the values it wrote (sizes excepted, whose text is modelled), a list in the file is never nil; cleanenv takes the environment variable, else the file unless zero, else the default, and fails for a missing required field: `Config/Persist` (C94) |
| grpc-go, gin | grpc-go runs a handler in a goroutine without a `recover`; gin's recovery answers 500: `Conc/Requests` (C101) |
| net, validator | `net.SplitHostPort`, `net.JoinHostPort` written out; `binding:"required"` refuses empty texts and absent lists; malformed JSON is not a validation error: `Admin/Commands` (C102) |
| gin | a static route has priority over a parameter; `ShouldBindJSON`/`ShouldBindQuery` report malformed input as plain errors and tags as validation errors; `ShouldBindQuery` reads absent or empty numbers as zero: `Meta/Rest` (C103) |
| etcd, uuid | puts on a key are delivered to a watcher in order and once, from the beginning of the watch; the keys of different searches differ and have no `#`: `Api/LocateSys` (C104) |
| protobuf | a nil element of a repeated field arrives as a message without fields: `Admin/CmdLine` (C106) |
| standard library `net`, raft | classes of addresses; `BootstrapCluster` refuses a server with a configuration, a server that is no member, and members without or with equal ids or addresses; resolver and local address are parameters: `Config/Identity` (C107) |
| `gin`, `gin-contrib/static`, `http.FileServer`, `http.ServeContent`, `io.CopyN` | files before routes before NoRoute; `/index.html` is moved to `./`; the position of a range is set by Seek of the embedded file; `http.Redirect` leaves the location as it is (it escapes bytes above 127): `Admin/Console` (C108) |
| bbolt, file system | commits are durable; a missing file is an empty database; what follows the last page is ignored; `Close` clears the path; rename is atomic; raft keeps a snapshot before it calls `Restore`: `Meta/DbFile` (C109) |
| net/http, http2 | a body is given back when it is closed or read to its end, closing twice does nothing, an answer without content holds nothing: `Api/Bodies` (C110) |
| bbolt: `Bucket.Delete` refuses a key that is a nested bucket; a transaction that returns an error changes nothing; a closed database refuses every transaction (C112) | what a cursor finds after `Delete`, and whether a closed database knows its path, are parameters |
| the file system: a write to a file opened with `O_APPEND` goes behind everything in it as one piece, a removed or replaced file stays for those who have it open, a rename replaces a file in one step; net/http: a body that is cut off ends with `io.ErrUnexpectedEOF` (C113) | used in `Object/Race` |
| open(2), `O_DIRECT`: position, length and address must be multiples of the device's block size, else `EINVAL` (so on ext4 and xfs; btrfs and others fall back to the page cache); a read of a regular file is short only at its end; `directio.AlignedBlock` begins at a page; `io.CopyBuffer` uses `os.File.ReadFrom` if the destination is a file (C114) | used in `Object/DirectIO` |
| Vue, axios, js-base64, the browser | watchers and `v-model` as written in the comments of Ui/Pager; Base64 is decoded to what was encoded and has no blanks; blanks at the end of a header are removed |
| The browser's rules for addresses (URL standard), gin's defaults | as in `browse` and `route` of Ui/Requests: blanks at the end removed, cut at `#` and `?`, backslashes are slashes, `.` and `..` resolved, some characters escaped; routes are matched with the decoded path |
| JavaScript's `RegExp.test`, `split`, `parseInt`, `Array.sort` | the expression of the form is written out as a relation (`Matches`); sorting is any function with the contract of `Order` |
| Vue, echarts, headlessui | watchers run when what they watch is written to; echarts ignores options that it does not know; the page behind an open dialog cannot be used |
| Go's `sort.Slice` and `reflectlite.Swapper` | insertion sort for up to 12 elements; a swap reads both entries and then writes both; single reads and writes are atomic and seen by all goroutines in one order |
| Go's locks and maps | `Lock`, `RLock` and `TryLock` exclude as documented; a map access has a beginning and an end, a loop over a map one access a round; an operation is its sequence of lock and map actions, read off the code |
| logrus levels and hooks | an entry is printed and its hooks are called when its level is at most that of the logger; `Fatal` ends the process, `Panic` panics, both after the hooks (C124) |
| bbolt pages | keys and values are slices of the mapped file; a write transaction puts what it changes on a page that is neither current nor used by an open transaction, and may take the page the previous transaction gave up; a leaf page is a header of 16 bytes, 16 bytes for each entry, then keys and values one behind the other, then zeros (C125) |
| select of Go | a select that waits takes the case that becomes ready first; a select that finds several ready cases may take any (C126) |
| math/rand | after `rand.Seed(s)` the numbers depend on `s` and the calls since only; `Intn(n)` is below `n` (C127) |
| gob | a record that was encoded is decoded to itself, and its encoding is not empty (C128) |
| `filepath.Join`, `filepath.Clean` | written out for absolute paths in Object/Escape (C129); files are made only in directories that exist, `os.Remove` removes files and empty directories |
| the kernel and the drive: files and directories are written back in any part and order; what is written back stays (C132) | used in `Object/Power` |
| statfs | reports unit, blocks, free blocks and blocks free for the server as any numbers of 64 bits; a path lies on one file system (C138) |
| time.Ticker, channels, select | the channel of a ticker holds one tick and is never closed; select takes any case that is ready (C140) |
| gin writer and recovery, io.Copy, net/http bodies | status and headers are those at the first write; a handler that returns ends its answer in order; a connection that ends before that is an error for the reader (C141) |
| etcd watch | a watch without revision delivers the changes after its start, in order, until it is cancelled; what it did not deliver then is lost (C145) |
| hashicorp/raft | acknowledged writes are in the log for good, every member applies the log in order: `Meta/Reads` (C99), `Meta/Fsm` (C27) |
| gopsutil `disk.IOCounters`, `statfs` | arbitrary counters or an error: `Api/Load` (C97) |
| net/http, grpc shutdown | `http.Server.Shutdown` refuses new connections and returns when no request is left or its context ends; `GracefulStop` returns when no call is left; `Stop` aborts all calls: `Conc/Shutdown` (C95) |
| Go maps | a read while another goroutine writes may end the process: `Conc/ConnPool` (C96) |
| `math.Log2` in `DataSize.String` | `FloatLog`: exact for powers of 1024, and wrong by at most one unit only just below one: hypothesis of the theorems of `Config/Size` (C94) |
| base64, encoding/gob | decoding a token undoes encoding it, the text uses the base64 alphabet and is not empty: structure `Codec` in Api/Token (C92); elsewhere not modelled |
| gin bindings, encoding/json | form mapping (a field without a tag is looked up by its Go name; the first conversion error ends the mapping), validation after every binding, and JSON decoding that skips members of the wrong type, as written out in Api/Bind for gin 1.9.1 (C85); their sources were not available. Not modelled: struct fields read from JSON text, the fields of `request.Range` found under the name `Bytes`, case-insensitive JSON names |
| HTTP, gRPC, gin | a request arrives once or not at all, and so does the answer; route parameters contain no `/`; bodies may break off |
| random numbers, clocks, load tables | parameters |
| callbacks, other services | parameters |

## Conventions

`Str` is `List Char`; Go `error` returns are values (`Except`, `Option` or an enumeration); a
run-time panic or an endless wait is an explicit outcome (`none` or a constructor), never a default
value; `nil` is explicit where it can occur.  Loops are structural recursions, so that the
`example`s beside the theorems compute.  A history is a list of operations folded over the initial
state, an interleaving is a list of actions of a transition system.  Where the code violates a
property, the file states the full property as `Cnn_statement`, proves `Cnn_statement_fails` (or a
concrete run), and proves what remains true under a named condition as `…_partial`.

## What is modelled, file by file

| source | model | not modelled there |
|----|----|----|
| common/hashslot/*.go | HashSlot/{Model,Spec,Props} | – |
| common/wildcard | Util/Wildcard | – |
| common/util/util.go | Util/Codec (integers, array framing), Common/Str (numbers as text), Admin/Paging (`PagingOffset`) | HTTP helpers, reflection helpers, random names |
| common/util/{slices,math}, collection/set, sync_map.go, cache | Util/Slices, Util/Collections | iterator helpers without logic |
| `*_gen.go` (generated record codecs), `EncodeMsgp`/`DecodeMsgp`, the append and read functions of tinylib/msgp | Msgp/{Prim,Records} (model), Spec, Props | the streaming `EncodeMsg`/`DecodeMsg` methods, `Msgsize` |
| common/datasize | Util/DataSize | `String` (floating point logarithms) |
| common/request/range.go | Util/Range | – |
| common/util/done_group.go | Conc/DoneGroup (interleavings, no panics), Conc/Panics (panics, one goroutine) | – |
| common/graceful/recover.go | Conc/Panics | formatting of stacks |
| common/system/disk | Object/Disk (readers, alignment) | system calls, capacity queries |
| common/registry | Registry/Discovery, Registry/Lifecycle, Registry/Roles (interleaved role changes) | etcd client, data races |
| common/system/syncer.go, common/graceful ListenAndServe, the start and stop of the three servers, as far as their two entries in etcd are concerned | Registry/Entries, EntriesProps | the values of the statistics (`NewInfo`), the mutex of `Lifecycle` (C69), the 15 seconds of `Shutdown` |
| metaserver/config/config.go (ReadConfigFrom, initialize, Persist), common/datasize String, the three places that change and persist the configuration | Config/Size, Persist, PersistProps | the encoding of values other than sizes, errors of environment variables, the data races on the fields (an assignment is one step), errors of OpenFile |
| common/performance/collector.go (NewCollector, PutAsync, startAutoFlush, Close), apiserver pool/instance.go (initPerform) | Perf/Life | ticks come at any time; the unsynchronised read of `stopAutoSave` sees the value once it is written |
| common/util/h2c_handler.go, the engines of the four HTTP servers | Conc/Requests | handlers are functions on a shared state; HTTP/2 itself |
| adminserver controller/http/metadata.go 70-142, object.go 67-81, logic/metadata_logic.go 127-244, object_logic.go 43-83 | Admin/Commands | dialling does not fail; a server is a function from commands to answers |
| metaserver controller/http/metadata_rest.go, version_rest.go, bucket_rest.go, middleware.go | Meta/Rest | JSON decoding is the library's; the order of lists is a parameter; an ill-formed `desc` is left out |
| apiserver usecase/service/object_service.go (LocateObject), objectserver usecase/service/locate.go, as one system | Api/LocateSys | etcd delivers the values put on a key in order, each once, from the moment the watch begins; a server's address is fixed |
| the whole system with lost, moved and repaired files | System/Loss, LossProps, LossSample | on top of System/Model: a moved file has the bytes of the original; repaired shards are written in the order of the blocks; only reads of versions without compression repair |
| common/cmd/cmd.go, cmd/ of all servers, ip_tool.go (GetHost, GetHostPort) | Admin/CmdLine | what is printed and `grpc.Dial` are not modelled |
| util/ip_tool.go (ParseIP, GetHostFromAddr, DetectServerIP, IsPublicIP), registry/config.go, initialize of the data and metadata servers, raft_impl.go NewRaft | Config/Identity | `filepath.Join` is the pair of its arguments; files are whole |
| adminserver/resource (embed.go, configjs.go), controller/http_server.go | Admin/Console | sessions are in Admin/Auth; headers of CORS and methods are not modelled |
| metaserver db/storage.go (Open, Stop, Replace), metadata_repo.go Restore | Meta/DbFile | content and transactions are arbitrary; a replacement that begins after `Stop` writes its file and is not followed further |
| webapi of API and administration server, get_stream.go, temp_stream.go, Close of copy_get_stream.go and rs_get_stream.go, callback_validator.go Verify, getPeersCapacity | Api/Bodies, Api/BodiesProps | only the bodies; contents, headers and addresses left out |
| object_service.go StoreObject 158-184, streamToDataServer; NewRSPutStream, NewCopyPutStream, Commit; provideGetStream, NewRSGetStream; done_group.go WaitDone | Api/Remains, Api/RemainsProps | contents left out; each request to a data server succeeds or fails; the version limit of lines 185-192 is elsewhere (C63) |
| local_store.go Clear, delete; etcd_store.go Clear | Perf/Clear, Perf/ClearProps | a failed `Close` of the database is taken to change nothing |
| objects_rest.go, objects_service.go: requests for one shard cut into operations on files | Object/Race, Object/RaceProps | marks and path database (C67), content cache (C50), compression (C87), offsets |
| objects_service.go: GetFile, AppendFileAligned as calls to a kernel that refuses unaligned direct I/O; direct_io_unix.go | Object/DirectIO | direct_io_others.go (systems without direct I/O), compressed files (not opened for direct I/O), WriteFileWithSize |
| objects_rest.go, objects_cache.go: the content cache and the goroutines that fill it | Object/CacheRace | the question whether the shard exists and the creation of its file are one step (C113), marks and path database (C67), offsets (C50), compression, bodies that fail (C113) |
| adminserver/ui: Pagination.vue, metadata.vue and bucket.vue (asking for pages) | Ui/Pager | layout, error messages, the forms for buckets; `curPage` and `modelValue` are one field; watchers run at once |
| adminserver/ui: LoginDialog.vue, store/index.ts, App.vue, api/base.js (credentials) | Ui/Session | a request is answered before the next thing is done; locale and tabs |
| adminserver/ui: api/objects.ts, api/metadata.ts, api/server-stat.ts (addresses) | Ui/Requests | the other requests of these files carry their texts in bodies or as `params`, which axios escapes; what is done with the answers |
| adminserver/ui: pages/server/meta.vue (form for migrations, slots), components/SlotsCard.vue | Ui/Slots | colours, the factor 0.9 of widths, the dialogs |
| adminserver/ui: components/UsageLine.vue, components/CapCard.vue, pages/index.vue (alarms), pages/server/data.vue and meta.vue (`updateInfo`) | Ui/Charts | drawing (echarts), rounding of numbers, `formatBytes` |
| adminserver/ui: pages/bucket.vue (dialogs) | Ui/Buckets | the single fields of a bucket, styles; paging is in Ui/Pager |
| objectserver: usecase/component/driver_manager.go, driver_balancer.go under concurrent requests | Object/DriveRace | tables of more than 12 drives (Go uses another sorting algorithm), torn reads of the slice header, weak memory |
| common: registry/service_list.go, registry/etcd_discovery.go, collection/set/map_set.go; apiserver: componet/selector/*.go; adminserver: db/server_stat_db.go — locks and map accesses only | Conc/Maps | contents of the maps (modelled elsewhere), `len` of a map, the time stamps beside the maps, writer preference of `sync.RWMutex` |
| common: logs/*.go; `initLog` of the four servers; metaserver: the timing lines of db/storage.go | Config/Logs | formatter, colours, SMTP, the data race on `SmtpPort` |
| metaserver: keys and values used after their bbolt transaction (FindByHash, migrateBuckets, GetBytes of buckets) | Meta/Pages | trees of several pages, inline buckets, remapping of the file |
| adminserver: answers put together from several servers (MetadataPaging, BucketPaging, Stat, EtcdStatus) with failures | Admin/Gather | the HTTP requests themselves, the fields of the states |
| apiserver: the seed of the random selector, and how requests are spread | Api/Spread | the generator of math/rand itself (any generator determined by its seed) |
| objectserver: one cache for contents, records of uploads and marks | Object/CacheKeys | goroutines that fill the cache (C115), drives (C52), compression (C87), padding (C49), directories of uploads and their cleaning (C80) |
| objectserver: the paths that names of shards lead to | Object/Escape | caches and marks (C67, C115, C128), compression and padding (C87, C49), symbolic links and permissions of the file system, uploads in progress (C80) |
| web console: list of versions and downloads from it | Ui/Versions | the pager (C116), how a download is sent (C118), the columns of the table |
| metadata store and raft state machine on bytes | Meta/{Encoded,EncodedProps,EncodedLog} | as Meta/Model and Meta/Fsm; the keys and the indexes hold strings, not bytes |
| files of a data server and losses of power | Object/{Power,PowerProps} | padding, drives, path database and marks (C67); zeros in files after a loss of power; compressed commits only as `PUT` |
| fsm_impl.go with a database that cannot be written | Meta/Faults | which entries fail is a parameter; failures while reading |
| deletion of contents (there is none) | System/Space | migration of shards (C79) |
| big_api.go `finishUpload` (comparison of digests), rs_get_stream.go `NewRSTempStream`, temp_stream.go, crypto.go `SHA256IO` | Api/BigDigest | failures of a server between two reads of the comparison |
| rs_decoder.go `getData` and `Read` over the files of data servers that lost power (objects_service.go, temp_rest.go) | Object/PowerCode | zeros within files after a loss of power, compressed shards, `PUT /objects/:name` |
| copy_get_stream.go, get_stream.go and copy_fix_stream.go over the files of data servers that lost power | Object/PowerCopy | zeros within files after a loss of power, compressed copies, caches of the data servers |
| disk/stat_linux.go `GetInfo`, the drive of system_info.go `NewInfo` and syncer.go `Sync`, data.vue `updateInfo` (sums), next to driver_manager.go `Update` | Object/DiskInfo | rounding of sums above 2^53, other systems than Linux |
| migration_service.go `OpenFile`, the size check of `FinishObject`, the deletion in `SendingTo`, migration_server.go `ReceiveData`, over the kernel of C132 | Object/PowerMove | two streams for one shard at a time; metadata (C68) |
| util.go `ImmediateTick`, driver_manager.go `StartAutoUpdate` | Object/Ticks | the work of `Update` (C52); real time: the ticker goes off whenever it does |
| objects_rest.go `Get` (data servers), objects_api.go `Get` from the copy on, get_stream.go `request` and `Read`, object.go `Download`, api_server.go `GetObjects`: what becomes of an error in the middle | Api/Cut | decoding of shards (C33, C34), ranges (C36), clients that go away |
| hashslot_service.go `AutoMigrate`, `migrateMetadata`, `FinishReceiveItem` and the write checks of middleware.go, for one object, with writes at the same time | Meta/MovingWrites | failures of the transfer (C32), removals, buckets, members of a group |
| metadata_server.go `GetMetadata`, `GetVersion` behind `CheckKeySlot`, while slots move | Meta/MovingReads | HTTP reads (not checked at all), followers (C99) |
| object_service.go `StoreObject` lines 112-125 and 171-195, meta_service.go `SaveMetadata`, for any number of uploads of one object, with failing calls | Api/Half | content (C39, C72), deletions, resumable uploads (big_api.go:225-280 has the same calls) |
| etcd_discovery.go `initService`, `asyncWatch`, service_list.go `combine` over outages | Registry/Watch | names and views (C55), data races (C123) |
| big_api.go `Patch`, rs_resumable_stream.go `CurrentSize`, rs_encoder.go `Flush` for requests at the same time, in blocks | Object/Overlap | bytes, failing calls and parts of blocks (C40), digests (C135), what the data server does with an append (C80) |
| rs_get_stream.go `NewRSGetStream` and `Close` over many reads: which servers hold and are recorded for a shard | Object/Recopy | contents (C37, C105), failing commits, migrations (C32), the selection of servers (any choice) |
| apiserver logic/discovery_logic.go (SelectMetaServerGRPC/Http), metaserver peers_logic.go, raft_apply.go | Meta/Reads | raft itself: a log that all members apply in order; the members of a group do not change during a history |
| apiserver internal_api.go (Config), config_service.go of data and metadata servers, adminserver ServerConfig | Config/Pages | the text of yaml (fields and values instead), the transport |
| common/system/disk/stat.go, stat_linux.go (GetInfo), syncer.go; objectserver controller/http/stat; apiserver StatObject, weighted_io_first.go, fetchSpaceInfo | Api/Load | the counters themselves, the age of the table (a flag), the data race of Pop with fetchIoInfo |
| common/graceful ListenAndServe, the Shutdown of the servers, the end of Run | Conc/Shutdown | what the databases answer after their close (only that such an answer is recorded), the second interrupt |
| apiserver grpcapi/base.go getConn, adminserver logic/conn.go getConn | Conc/ConnPool | Close, the state of a connection |
| common/performance | Perf/Store (local store, averages), Perf/Clear, Perf/Collector, Perf/Etcd (etcd store) | failing reads of `Get` in the etcd store |
| metaserver logic and repo | Meta/Model, Lemmas, Props, Versions, Index, Listing | statistics, logging |
| metaserver raftimpl, db/storage.go | Meta/Fsm, Replay, Restore | raft itself |
| metaserver raft_cmd_server.go, raft_cluster_logic.go, leader changes, shutdown | Meta/Groups (slots), Meta/Members (membership, nodes) | time-outs of raft, `AppliedIndex`, `Peers` |
| metaserver db/hashslot_db.go: routing table | Meta/Route (status changes: Meta/MigStatus) | the data race on the plain field `updatedAt` (reads and writes taken as atomic); an etcd read returns the contents of one moment; decoding of the records |
| metaserver caches | Meta/Cache | size and life time of bigcache entries (any entry may vanish) |
| metaserver middlewares and handlers | Meta/Guard | request binding |
| metaserver migration | Meta/MigStatus, Meta/Migration | raft followers during a transfer |
| apiserver streams (rs_*, copy_*, put/get/temp stream) | Object/RS*, Repair, Upload, CopyRead, Resume, EndToEnd | HTTP client details |
| apiserver object_service, entity, big_api, objects_api | Api/Store, Dedup, Locate, BigLayout, Config, Keys | logging, metrics |
| big_api.go Post and Patch, rs_resumable_stream.go, rs_encoder.go: what a token permits | Api/Token, TokenProps, TokenCodec (a codec, to show that the assumptions can be met) | the bytes that are written (Object/Resume), the upper limits of shards and of memory, overflows |
| apiserver selectors, discovery_logic | Api/Select | – |
| apiserver auth | Api/Auth | – |
| response (GRPCError, FailErr), proto.ResolveErr, error paths of metadata_server and meta_server | Api/Errors, ErrorProps | texts of database errors, the prefix of status errors |
| grpcapi/meta_server.go, metadata_server.go (versions, buckets, objects), validation tags of msg | Api/MetaRpc, MetaRpcProps | raft, interceptors, caches, texts of validation errors |
| bucket_api.go, bucket_repo.go, webapi/bucket_api.go, bucket_rest.go | Api/BucketHttp, BucketHttpProps | failing connections, which error status is passed on, `ListBucket` |
| apiserver entity/binder.go, dto.go, metadata_api.go; objectserver temp_rest.go Post; metaserver entity/binder.go, version_rest.go UpdateLocates | Api/Bind, BindProps | the request types of the other metadata and administration pages |
| apiserver webapi/object_server.go; objectserver router.go and the arguments of its handlers | Object/Client, ClientProps | failing connections, statuses of answers, headers net/http adds |
| GetFileCompress, CommitFile with compression, the flag in the streams of the API server | Object/Compress, CompressProps | errors in the middle of a damaged file |
| objectserver services | Object/DataServer, Paths, PathDb, Drives, Rebalance, Capacity (the counter), JoinLeave (pool, lease and registration), Relocate, Temp (temporary objects, cleaners) | start-up, command line, system statistics |
| all of the above together: uploads, reads | System/{Model,Lemmas,Sample,Props} (any number of concurrent uploads against one metadata server and any number of data servers) | repair while reading, rebalancing, migration, compression, resumable uploads |
| adminserver | Admin/Paging (lists over all servers), Admin/Stat (monitoring), Admin/Auth (credentials), Admin/Pages (objects and buckets) | static files, CORS, binding of the listing pages |

Not modelled at all: start-up code (`app.go`, `pool`) beyond what the rows above name, reading
system statistics (`common/system`).

## Properties

The theorem names are in `MANIFEST.json`, the statements in `properties.jsonl`.
`partial` means that the property as stated is false for the code (the negation
is proved, in a theorem named `…_fails` or as a concrete run) or needs the
provisos named here; what holds is proved in the theorems ending in `_partial`
or in the theorems listed.

| id | property | status | modules | what is proved, what is missing |
|----|----|----|----|----|
| C01 | Slot lookup returns the owner and only the owner | proved | HashSlot/Props | Every accepted table, every slot; slot texts parsed by the model of formatInt. |
| C02 | No slot has two owners | proved | HashSlot/Props | Acceptance is equivalent to non-empty, pairwise disjoint ranges; for every sort function meeting its contract. |
| C03 | Every object key routes to exactly one metadata server when the table is complete | proved | HashSlot/Props | CRC-32/IEEE modelled bit by bit. |
| C04 | Merging slot ranges is set union | proved | HashSlot/Props | as stated |
| C05 | Removing slot ranges is set difference | proved | HashSlot/Props | as stated |
| C06 | A completed slot migration conserves the slot map | proved | HashSlot/Props | Hypothesis that the moved ranges are owned by the source is what C08 checks. |
| C07 | Published slot ranges survive the text form | proved | HashSlot/Props | as stated |
| C08 | A migration request is accepted only for slots the source owns | partial | HashSlot/Props | Sound for all tables; completeness fails when the owner's ranges touch (witness proved). |
| C09 | Wildcard matching is glob matching | proved | Util/Wildcard | Match is exactly the glob relation. MatchSimple treats ? as matching like Match; its doc comment disagrees, which is recorded as a counterexample. |
| C10 | Length-framed arrays decode to what was encoded | partial | Util/Codec | Round trip proved for every array. Truncated input is not always reported as an error: counterexample proved, and the exact truncation points that are detected. |
| C11 | Integer codec round trip | proved | Util/Codec | as stated |
| C12 | Human readable sizes parse to the size they denote | partial | Util/DataSize | Fails where the multiplication wraps at 2^64; proved below that bound. |
| C13 | Pages partition the result list | proved | Admin/Paging | for page >= 1; negative page numbers (accepted by the request binding) panic |
| C14 | Listing across metadata servers is globally ordered and complete | partial | Admin/Paging | buckets proved up to entry 10000 (beyond that refused); objects fail because ID() order differs from key order (witnesses), proved when the orders agree |
| C15 | Object names are unique and creation never overwrites | proved | Meta/Props | over every store, one operation at a time; in raft mode the answer ErrExists is reported as success (see C27) |
| C16 | Version numbers are never reused while the object lives | proved | Meta/Props | over every reachable store and every history |
| C17 | Asking for the latest version returns the newest version | partial | Meta/Versions | false as stated: with ten versions the latest is 9; proved when all numbers have the same digit count, and the exact behaviour (textual maximum) proved for all stores |
| C18 | Version retention removes the oldest version | partial | Meta/Versions | false as stated: the eleventh upload removes version 10; the limit is proved for all numbers, the oldest-first order only for equal digit counts; overlapping uploads exceed the limit |
| C19 | Stale updates never overwrite newer data | proved | Meta/Props | as stated |
| C20 | Deleting an object deletes all of its versions and nothing else | proved | Meta/Props | as stated |
| C21 | Lookup by content hash returns exactly the versions with that hash | partial | Meta/Index | lookup by hash returns every stored version; it is not exact (witnesses), exact under the stated condition |
| C22 | Retrying the same upload id stores one version | partial | Meta/Index | at most once holds while the first version is stored; after removal the id stays blocked because removeVer removes under the wrong key |
| C23 | Index entries decode to the version they were written for | proved | Meta/Props | as stated |
| C24 | Metadata operations are all-or-nothing | proved | Meta/Props | as stated |
| C25 | Version listing pages | partial | Meta/Versions | pages have one entry too many and overlap; ten and more versions follow text order; coverage and order proved for numbers below ten |
| C26 | Prefix listing is exact, ordered and limited | partial | Meta/Listing | listing proved; the reported total is not the number of matches |
| C27 | Replicas that apply the same log are identical | proved | Meta/Fsm | Replicas applying the same log, grouped into batches in any way, hold the same store and answers. |
| C28 | Every change to metadata goes through the replicated log | partial | Meta/Guard | Full statement refuted: relocation, search by hash and loss of leadership between check and write bypass the log. Proved for the remaining requests. |
| C29 | Snapshot and restore reproduce the state | partial | Meta/Restore | Full statement refuted: a write that passed the flag check before the replacement is lost. Proved when no such write is under way. |
| C30 | Cached reads are fresh | partial | Meta/Cache | Full statement refuted by six witnesses. Proved: refinement of the uncached store for sequential use with non-clashing names and textually ordered version numbers. |
| C31 | A server takes part in at most one migration and changes its slots only when idle | partial | Meta/MigStatus | At most one migration, refusal of a second one: proved for all interleavings of single statements. Return to idle and publication only when idle: proved with the methods of HashSlotDB uninterrupted; refuted statement by statement (C31_stuck_race, C31_publish_race). A late finish ends another migration (C31_deferred_finish, C31_stream_ends_other). |
| C32 | Migration loses no object | partial | Meta/Migration | For every failure of the connection and of etcd a complete copy survives on one of the servers, given a target without remains of the moving keys; after success it is on the server the table names. Refuted: after a failure the table may name the other server or none; slots moved away and back lose all versions. |
| C33 | Erasure coded write/read round trip | partial | Object/EndToEnd, Object/RSFindings, Object/RSProps | Round trip proved for every code meeting the reedsolomon contract, every shape with a positive block size, every chunking and every read buffer size, and on the real data server files when blocks are a multiple of 4096 bytes per shard. The stated property fails for the streams the service creates: an object with fewer bytes than data shards gets block size 0 and its upload never ends, a changed configured block size makes stored objects read back permuted, and with other block sizes the data servers' padding corrupts every object longer than one block. |
| C34 | Erasure coded objects survive up to `parity` lost shards | partial | Object/RSFindings, Object/RSProps | Proved for lost shards, including servers failing during the read. Damaged (truncated, altered) shard files are not covered by the property's proof: counterexamples given. |
| C35 | Every shard file has the announced size | proved | Object/RSProps | For all shapes with at least one data shard and a positive block size. |
| C36 | Range reads return the tail of the object | partial | Object/CopyRead, Object/RSSeek | Erasure coded objects: all offsets, buffer sizes, loss patterns. Replicated objects: the tail followed by padding zeros of the server file; exact iff offset is 0 or the size is a multiple of the page size (C36_copy_exact), with a witness of extra zeros. |
| C37 | Reading repairs lost shards with the original bytes | partial | Object/CopyRead, Object/Repair | Erasure coded repair: a full read rebuilds every lost shard when the goroutines that write blocks run in order; the order of blocks is not enforced by the code, a partly read stream commits a partial shard (witnesses). Replicated repair: content and locations proved when all repairs succeed; a failed repair loses locations, a range read repairs with the tail only (witnesses). |
| C38 | Replicated writes put identical bytes on every copy | partial | Object/CopyRead, Object/Upload | Every chunking, failure pattern and copy count; partial because the racy wait may lose an error of one copy (C38_lost_error). |
| C39 | An upload becomes visible only after its content was verified and committed | partial | Api/Store, Object/Upload | Temp uploads are committed or aborted at most once; a mismatch or broken body is rejected; when the waits report errors a success means every server committed the complete shard. The stated property fails because the racy wait can lose an error (C39_lost_error). |
| C40 | Resumable uploads append exactly at the acknowledged offset | partial | Object/Resume | Every history of PATCH requests refines a small specification (kept bytes, closed, overrun) for page-aligned block sizes when parallel request groups are performed by all servers or none; a client that sends parts of X always has a prefix of X kept, of exactly the reported size, and completion means the shards of X are committed. The stated property fails otherwise: 206 acknowledges bytes that are dropped, partly performed groups make shards diverge, padding makes HEAD overstate for unaligned blocks, the version is recorded before the commit (witnesses). |
| C41 | Locating an object returns one holder per shard | partial | Api/Locate | LocateObject and handlerLocate. Proved when no two answers are for the same shard; refuted for duplicate answers (C41_duplicate_answers): success is reported with an empty location. |
| C42 | Deduplication never confuses two different objects | partial | Api/Dedup | UniqueHash. Proved up to collisions of SHA256 for digests of equal length; refuted for announced digests of different lengths, which nothing checks. |
| C43 | Requests pass authentication exactly when some credential is valid | partial | Api/Auth | The decision is proved for all configurations and requests. Partial because of the stored credential: when reading it fails at start, it is overwritten by the configured one, even an empty one, which then passes (C43_init_read_failure). |
| C44 | Round robin placement spreads shards evenly and picks distinct servers | proved | Api/Select | For any strategy that takes one server out of the list; within one object. Different uploads do not remember each other. |
| C45 | Random placement picks distinct servers | proved | Api/Select | For all random numbers. |
| C46 | Free-space placement prefers the emptiest servers | proved | Api/Select | For the load table at the moment of selection; a missing capacity header counts as load 0. |
| C47 | Object keys identify (bucket, object) pairs | partial | Api/KeyShare, Api/Keys | Proved for names without '/', which is what the parameter of a route is; buckets are arbitrary. Refuted for all names: a query parameter Name replaces the parameter of the route (C85), so names with '/' occur and two objects of different buckets can share their metadata. The cache of the metadata server is C30 (an object a.1 and version 1 of a share a cache entry). |
| C48 | Data server stores and returns exactly the bytes of a shard | partial | Object/DataServer, Object/EndToEnd | Proved when all pieces but the last have a length that is a multiple of 4096; false otherwise (witness). |
| C49 | Aligned readers deliver the content followed only by padding | proved | Object/Disk | Readers of the disk package, for every sequence of buffer sizes. |
| C50 | Reading a shard with an offset does not change later reads | partial | Object/DataServer | Proved for whole-object reads over all request sequences; false for reads with an offset (witnesses). |
| C51 | The shard path database returns the most recently recorded path | partial | Object/PathDb | All histories over paths that do not contain each other, without removal of the most recent of several paths: order and most recent path are right when there are two or more. Refuted: a single recorded path is never found; after removing the most recent one the empty path is returned; paths containing each other or %2C are confused. |
| C52 | Drive choice prefers the drive with the most free space | proved | Object/Drives | Proved for the balancer in use, over all histories of updates and selections of one request at a time and every admissible sort, for the free space reported at the last update; overlapping requests are C122. The weighted balancer (not used) is right only while no weight exceeds the free space. Findings: no rotation between updates; the fallback ignores the exclusions. |
| C53 | Rebalancing moves exactly the surplus | partial | Object/Rebalance | The planned amounts are exactly surplus and deficit; a leave has room for and sends everything recorded; a join brings the new server to the average. Refuted: quotas are exceeded by up to one file, a join overfills the new server when others are below average. |
| C54 | Parallel task groups report the first error and wait for all | partial | Conc/DoneGroup | State machine over all interleavings of Todo/Error/Done/WaitUntilError/Close. A returned error is the first reported, nil is returned only after all tasks finished, no panic on the channel and no deadlock. The stated property fails: when the tasks have finished, the select may take the done case although an error is in the channel, and a panic is reported only after the counter was decremented (witness runs C54_error_lost, C54_panic_lost). |
| C55 | Service discovery names the right server | partial | Registry/Discovery | Proved for all histories, when the watch misses no event, ids and service names are readable ('/' and '_' free) and no other service name extends this one. Refuted: events between the first read and the watch are lost; '_' in group or service name makes the mapping panic; ids with '_' are shortened or lose their role; own entry is role-less and permanent; failed unregistration leaves two roles. |
| C56 | Bucket administration | proved | Meta/Props | as stated |
| C57 | Range header parsing | partial | Util/Range | Well-formed headers proved; malformed ones are accepted (C57_malformed_accepted); the end of a range is ignored when answering. |
| C58 | Slice and math helpers behave as documented for every input | partial | Util/Slices | Helpers proved in the range in which they work; counterexamples for the rest. |
| C59 | Concurrent set/map/cache helpers are maps | partial | Util/Collections | Sets, maps and locking proved; Cache.Set reports the opposite of what happened. |
| C60 | Write protection of read-only buckets and retention configuration | partial | Api/Store, Api/StoreMore | Proved for StoreObject; for resumable uploads refuted in two ways: prescribed copies are ignored, and the end of an upload does not look at the read-only flag. |
| C61 | Writes are only accepted by the owner of the key's slot | partial | Meta/Guard | Foreign keys are refused; the migration part is refuted by the requests without the check. |
| C62 | Restarting a replica or redelivering a command changes nothing | partial | Meta/Replay | Full statement refuted (remove after create is replayed over later data). Proved for logs of creations and updates. |
| C63 | A bucket keeps no more versions than configured | partial | Api/Store | Proved for uploads that follow each other; refuted for overlapping uploads; the number of versions never falls after the limit was lowered. |
| C64 | Resumable uploads are read with the layout they were written with | partial | Api/BigLayout | Proved for buckets that prescribe erasure coding and for block sizes that are multiples of the packet size; refuted else, with delivered bytes that differ from the uploaded ones. |
| C65 | The authentication callback is asked about the bucket the request acts on | partial | Api/Auth | Proved if the header Host has no dot; refuted else: the callback is asked about the first label of Host while the request acts on the header bucket. |
| C66 | Configured block sizes are aligned to the packet size | partial | Api/Config | Proved for replication and for numbers of data shards that divide the packet size; refuted for three data shards. |
| C67 | A stored shard is found until it is deleted, and can then be stored again | partial | Object/Paths | Proved when goroutines end between requests and no shard is put twice on different drives after remains (Fresh), and for all interleavings without deletion. Refuted in general: a late mark makes a deleted shard exist; commits and compressed commits are not found; drives outside the table lose shards. |
| C68 | A moved shard is deleted at its old server only when its new place is known | partial | Object/Relocate | Content: proved for all failures. Metadata: proved for at most two masters without deletions; for any number fewer than half are missed. Refuted: left-over index entries make the master answer 404, which counts as success; a minority of unreachable masters is ignored. |
| C69 | A server stays registered | partial | Registry/Lifecycle | Proved while etcd grants every lease asked for. Refuted: after one failed grant the mutex stays locked, the loop waits for itself for ever and the server is never registered again. |
| C70 | Performance records are read back by kind and action | partial | Perf/Store | Proved: queries by kind or by action, sizes, averages and sums over plain records; queries by both when no stored action properly extends the one asked for. Refuted: a query without conditions returns keys in place of actions; an action continued by a character below '.' hides the records asked for; clearing a kind fails whenever the kind occurs. |
| C71 | The collector loses no performance record | partial | Perf/Collector | Proved: with FlushWhenReached nothing is lost or doubled; otherwise the memory is exactly the latest records. Refuted: while the store refuses, memory grows without bound; a Put that reports an error has kept the record. |
| C72 | A GET returns what the PUT stored, whatever else happens | partial | System/Props | Proved for all executions of the composed system (metadata server, data servers, uploads, deduplication) when waits report the errors they were told, the layout stores whole pages per shard, the client announced the right digest, the version is not compressed, and the hash values occurring in the execution do not collide. Refuted when a wait loses an error. Not in this model: repair while reading, rebalancing and slot migration (C37, C68, C32). |
| C73 | Records survive their binary form | proved | Msgp/Props | For all twelve generated record types, transcribed with their literal bytes. The batch flag of a raft log entry is not part of the encoded form. The msgp library's append and read functions are modelled (Verif/Msgp/Prim.lean). Bytes after a record are ignored, not reported (C73_trailing_ignored). |
| C74 | Errors keep their meaning between the servers | partial | Api/ErrorProps | Proved for seven of nine requests; refuted for listing and removing versions, whose errors all become 500 (C74_statement_fails). No error becomes success (C74_never_lost). Also proved as found: a malformed or invalid body is answered with 500 (C74_bad_body), a server in migration with 500 (C74_refused), ServiceUnavailableMsg with 200 (C74_unavailable_is_200). |
| C75 | What the API server saves it reads back | partial | Api/MetaRpcProps | Proved for complete versions whose numbers of shards fit 32 bits. Refuted beyond: versions of empty objects are refused with 500 (C75_incomplete_refused, C75_statement_fails), larger numbers of shards are cut (C75_shards_cut), UpdateVersion never updates anything (C75_update_always_refused). Without raft, caches and interceptors. |
| C76 | The monitoring pages show the newest samples of every server | partial | Admin/StatProps | Proved while every sample is complete or unreadable and first reads succeed. Refuted beyond: an incomplete sample or a failed first read ends the admin server (C76_crash, C76_statement_fails); the overview shows the timeline of whichever server is visited last (C76_overview_one_server); one unreadable sample makes the server page fail (C76_server_page_fails). Unsynchronised map access of the watchers is not modelled. |
| C77 | Panics of goroutines are contained | partial | Conc/PanicProps | Refuted: logging the panic panics again (logrus Panicf), so recovery never contains a panic (C77_recover_fails) and a group never gets the error (C77_done_panic, C77_limit_panic). Proved: what happens in every case, and that with a logging function that returns both full statements hold (C77_cause_recover, C77_cause_done). Trusted: the rules of panic, defer and recover, and logrus' Panicf. |
| C78 | A group of metadata servers keeps its slots | partial | Meta/GroupProps | Proved for all histories in which no leader of a raft group shuts down orderly or joins another group. Refuted beyond: the next leader records the slots of its own configuration (C78_stale_slots), a leader that joins overwrites the slots of its new group (C78_join_overwrites); with two owners no routing table can be built (C78_two_owners). Events do not overlap. |
| C79 | The configured nodes are the members of the raft group | partial | Meta/MemberProps | Proved: removing any but the first node, joining makes a member, leaving ends membership. Refuted: added members are not recorded (C79_add_not_recorded), the first node stays (C79_first_stays), a server that joins stays in its old group (C79_join_old_group), one malformed node makes bootstrapping fail, bootstrapping without nodes makes a group without the server, nodes given by the environment are always malformed. Trusted: hashicorp/raft's membership changes as written out. |
| C80 | Uploads to a data server are kept apart, and nothing stays behind when they end | partial | Object/TempProps | Proved for all histories: answers, isolation of uploads, committed objects. Removal is proved for servers whose only mount point is / and that neither leave nor restart; refuted for other mount points (C80_statement_fails), after restarts (C80_restart_fails) and after leaving and joining (C80_leave_fails); C80_stays shows that these files stay for ever. Requests are atomic, bodies arrive completely, identifiers are fresh. |
| C81 | Metadata servers route by a recent slot table | partial | Meta/RouteProps | Proved for all interleavings: age bound of 301 seconds plus the duration D of a refresh, monotone tables, no nil table. Refuted: a reload may return a table read before the call (C81_reload_fails), bounded by D (C81_reload_partial). Trusted: reads of etcd return its current contents; updatedAt is read and written atomically. |
| C82 | The shared performance store keeps the records it is given | partial | Perf/EtcdProps | Proved: one allowed record per call is stored and nothing else changes, other actions are dropped, nothing is invented, Get and Size agree, limit up to 1 + number of lock keys if Size were exact. Refuted: the limit (Size does not wait for its goroutines), kind and cost of every record read, kinds that begin with another, records of one millisecond, the lock. Several records per call panic (C82_panics, C82_stuck) under the explicit hypothesis that Txn.Then panics when called twice; the source of the etcd client was not at hand to confirm it. |
| C83 | Administrative operations need a valid credential | partial | Admin/AuthProps | Proved: operations left to the API server are done exactly for headers it accepts, the token used is always that of the same request, login is exact. Refuted: every other guarded operation (migration, join and leave, listings, configurations) is done for any non-empty header; the server pages need no token; sessions do not outlive the request; logout leaves the token in the cookie. Trusted: the API server's decision (C43) is a parameter, the session library rejects forged cookies. |
| C84 | A bucket request concerns the bucket its path names | partial | Api/BucketHttpProps | Proved: reading by the standard encoding for every name without a slash; updating and deleting for names without / ? # % and control characters (and + only without !'()*[]); at most one bucket of one server is ever removed. Refuted: for a name with ? or # after such a part the bucket named by the part before is deleted or overwritten with success; names with % are decoded twice or refused; spellings of one name act on different buckets. Trusted: net/url and gin path handling as modelled; JSON carries text and numbers unchanged; the log entry is applied at once (C27). |
| C85 | A request means what its path, its headers and its query say | partial | Api/BindProps | Proved: for requests that do not use the Go names of the fields every request type is accepted exactly as documented and the callback was asked about what is read or stored; required fields are never empty, for every type and order of bindings. Refuted: the query parameters Name, Bucket and Hash replace the path and the headers, so whoever passes the callback for one object reads and stores any other; an unreadable flag, version or index is taken for its zero value where its binding is not the last. Trusted: the form mapping and validation of gin 1.9.1 and encoding/json as modelled. |
| C86 | A data server does what the API server asked for | proved | Object/ClientProps | Proved for all names of shards (hexadecimal hash, dot, number) and of temporary objects. C86_other_name shows what happens to other names, which only a forged resume token can bring in. Trusted: the URL, query and binding rules of net/http, net/url and gin as modelled. |
| C87 | Compression is invisible | partial | Object/CompressProps | Proved: with the flag the files were written with, data servers answer for compressed erasure coded objects exactly as for others, so these are read back (for blocks of multiples of 4096 bytes per shard, as C33), replicated ones as a whole, repaired copies too; PUT records the flag it used. Refuted: offsets of replicated compressed objects are applied to the compressed file (offsets 1 to 9 fail for every codec, offsets behind its end deliver nothing without an error), and a resumable upload with compression records that it is not compressed: its object is never read back. Trusted: the contract of s2 as modelled; Reconstruct leaves present shards alone (only in C87_resumable_lost). |
| C88 | Administration pages act on what they name | partial | Admin/PagesProps | Proved: uploads for all names without / , ; and downloads, versions, deletions and updates for all names without the characters that have a meaning in a URL (? # % / and control characters); there a download reads what the upload stored. Refuted: uploads with , or ; are stored under the encoded name and not found again; downloads of a?b or a#b read the latest version of a, of an encoded name the decoded one, and a name can select any object of any bucket; the deletion page removes the bucket a for a?b. Trusted: net/url, net/http and gin as modelled. |
| C89 | A data server reports the bytes it stores | partial | Object/CapacityProps | Proved by induction over all executions in which no object is compressed, no write fails, events on one file do not overlap and a received file is new and announced once: the counter is the bytes of the files plus those of the directories met at start, and a leaving server then sends everything (with C53). Each condition is shown to be needed by a refutation: compressed commits are never counted, compressed uploads count the bytes of the request, overlapping deletions and a deletion before the goroutine of a commit make the counter negative, repeated announcements count again, replaced files are not taken off. |
| C90 | A data server can leave and join again | partial | Object/JoinLeaveProps | Proved for all sequences of commands that do not overlap: tasks run exactly while an opening is in force and are started and stopped once each, in opposite order; and for a server that has never left: it is registered under a valid lease however many leases are lost. Refuted: a server that has left is never registered again, in every interleaving (its Lifecycle stays cancelled and revokes each new lease); a join that overlaps a leave starts tasks that run for ever. Trusted: KeepAlive with a cancelled context ends at once; etcd grants every lease asked for (otherwise C69). |
| C91 | A metadata server is registered in the role it has | partial | Registry/RolesProps | Proved for all executions in which at most one change of leadership or lease is being handled at a time (leases may be lost at any moment): registered exactly once and in the right role; and for all executions: a registration hangs on the present lease or on none. Refuted with overlapping goroutines: the wrong role stays registered, both roles at once, a new lease during a change registers the old role, and a change before the subscription is never noticed. |
| C92 | A resume token permits the upload it was given out for | partial | Api/TokenProps, Api/TokenUpload | Proved for all requests of users who send only the paths they were given, and that these paths lead back to their tokens; what is no token does nothing. Refuted for every lawful codec: tokens are not signed, so whoever may send a PATCH can record any version in any bucket (read-only or not), make the API server ask any address, end its process and keep it in a loop; and a token that was given out serves twice. Trusted: base64 and gob decode what they encode; C77 for the end of the process. |
| C93 | A server is in etcd while it serves and gone after it ended | partial | Registry/EntriesProps | Proved for all interleavings: every registration belongs to an existing lease and so goes with it; the statistics too unless the ticker read the lease before one was told; a stop during which ticker and notifications are at rest leaves nothing; a server at rest that is granted a lease has both entries under it and keeps and refreshes them. Refuted: statistics put without a lease stay for ever; a tick during the stop puts the statistics again; the request or the assignment of an older notification that comes last takes the server out of the registry or ends the refreshing; a server that cannot listen is registered all the same. |
| C94 | A metadata server comes back with the configuration it had | partial | Config/PersistProps, Config/Size | Proved for every interleaving: after any change and once the goroutines are through, the file is the encoding of the running configuration (C94_written), and a restart gives the same configuration (C94_comes_back_partial) up to the rounding of the cache size, which is bounded (C94_restart_size). One writer at a time, the file is whole outside the lock, id and directory stay. Refuted: a stop during a write leaves an empty file and the server never starts again; of two saves the older may win; a server killed before its first write gets id and directory from its new address; a stop on request may still end in the middle of another goroutine's write; environment variables win over what was written; a cache size of 0 ends the process at the first save. yaml.v3 and cleanenv are represented by their contract, the floating point logarithm by FloatLog. |
| C95 | A server that is told to stop finishes the requests it has accepted | partial | Conc/Shutdown | Proved for the API server (C95_api, C95_drained) and that every server goes on after the deadline (C95_ends). Refuted for the data server and the metadata server, whose Shutdown does not wait (C95_store_statement_fails, C95_store_no_time); for these C95_store_partial says what is left. |
| C96 | One connection per server | partial | Conc/ConnPool | Proved but for the last part: the unlocked read races with the write (C96_race); C96_race_partial says that this is the only way. |
| C97 | New objects go to the server with the least load | partial | Api/Load | Proved for seven of the nine counters, for space, and for io-first with loads below 2^31-1 on servers with readable drives (C97_least_io_partial). Refuted: the times spent reading and writing are always 0 (C97_times_zero); larger loads wrap around and are preferred (C97_wraps, C97_least_statement_fails); a server that cannot read its counters is preferred (C97_silent_preferred); a machine without drives divides by zero (C97_no_drives). |
| C98 | The pages that show a configuration show no credentials | partial | Config/Pages | Proved for the user names and passwords of etcd, of the API and of mail. Refuted: an API server without distinct-size in its configuration fails to show a page (C98_default_fails; C98_page_iff says exactly when there is one), and credentials in the URL of the callback are shown (C98_callback_shown). |
| C99 | A read of metadata sees the writes acknowledged before it | partial | Meta/Reads | Refuted for groups: a member that has not applied a write yet is asked (C99_statement_fails), two reads may go back in time (C99_back_in_time), and a new leader may lag (C99_new_leader). Proved: answers correspond to a prefix of the writes (C99_prefix), one member never goes back (C99_monotone), the leader sees all (C99_leader), a server on its own sees all (C99_alone), and which servers are asked. |
| C100 | Measurements reach the store while the server runs and when it stops | partial | Perf/Life | Refuted for the end: Close does not wait for the goroutines of PutAsync (C100_statement_fails), and a Close that fails or comes before the loop has begun does not end the loop (C100_loop_goes_on). Proved: nothing is lost inside the process (C100_accounted), records are stored an interval later (C100_soon), Close stores what has been put in (C100_close, C100_partial), which collector is created (C100_created). |
| C101 | A request that panics is answered with an error and harms no other | partial | Conc/Requests | Refuted for RPCs: the recovery interceptor panics again, the process ends (C101_rpc_panic, C101_statement_fails). Proved for HTTP and for RPCs that do not panic (C101_partial), the routing (C101_routing), and that the logger is the cause (C101_cause). |
| C102 | Administrative commands reach the server they name and their outcome is reported | partial | Admin/Commands | Refuted for leaving a Raft group: a refusal is answered with 200 (C102_statement_fails). Proved: what is sent where (C102_sent), the answer to every complete request (C102_done), 200 only if carried out for all other commands (C102_partial), error statuses, the address the source of a migration dials (C102_target, C102_split_join), the pages of peers and slots. |
| C103 | The REST interface of a metadata server does what its requests say | partial | Meta/Rest | Refuted: an update of an object with an unreadable body is carried out (C103_statement_fails). Proved: every refusal leaves the store unchanged (C103_refused_unchanged), well formed requests carry out their operation with its status, on a single server (C103_done) and on a leader (C103_leader, where "exists" is reported as success), malformed requests are refused for all other routes with readable version numbers (C103_partial), what was written is read. |
| C104 | Locating as a system names servers that have the shards | partial | Api/LocateSys | Refuted: servers of other groups are named (C104_other_group, C104_fails), a shard nobody has is counted (C104_shard_missed), keys are left behind (C104_left_over). Proved for all executions: whoever is named had the shard during the search (C104_entries), with one holder for each shard nobody is missing (C104_all_named_partial), undisturbed searches succeed (C104_answered), no panic, and the key stays away when nothing of the search is pending (C104_gone_for_good). |
| C105 | Objects survive lost, moved and repaired files | partial | System/LossProps, System/LossSample | Refuted: C105_repair_does_not_count, C105_stale_location, C105_partial_read_poisons, C105_short_announcement_poisons. Proved for all executions whose repairing reads go to the end of honest versions in layouts of whole pages: numbers are kept, GET returns the content while enough recorded servers hold what is recorded, nothing else is delivered, and losses are counted by recorded files. Compressed versions are not covered. |
| C106 | Typed commands do what they say, or nothing | partial | Admin/CmdLine | Refuted: an add_voter with a voter written wrongly adds the others (C106_add_half), a wrong number is sent as 0 (C106_number_misread). Proved for all arguments: proper commands send what they say to the typed port, others send nothing, nothing panics, bootstrap is all or nothing. |
| C107 | A restarted server is the same server | partial | Config/Identity | Refuted: a changed address without configured id loses the files (C107_statement_fails) and an empty node list splits the group (C107_group_statement_fails). Proved for all configurations and runs: with a configured id or address, or an unchanged address, all objects are there after every restart; the exact condition for the same id; one group for a non-empty list. |
| C108 | The web console gives out its files and brings every page back | partial | Admin/Console | Refuted for pages whose path has & # % or + (C108_statement_fails). Proved for all sites, routes, paths and queries: the rest of the statement, and the pages without these characters; C108_one_redirect needs the start page to be embedded (C108_circle otherwise). |
| C109 | The database file survives replacements, stops and crashes | partial | Meta/DbFile | Refuted for an orderly stop while the first file is still to be removed (C109_statement_fails). Proved for all executions: the rest, and the stop when that file has been removed. |
| C110 | Bodies of HTTP answers are given back | partial | Api/BodiesProps | Refuted for the validator (C110_statement_fails), for answers other than 200 to downloads (C110_copy_fails) and for broken Reed-Solomon downloads (C110_rs_fails). Proved for all executions: 26 functions give everything back, and the exact number of bodies left by all others. |
| C111 | A failed upload or download leaves nothing behind | partial | Api/RemainsProps | Refuted for uploads (C111_statement_fails) and for opening downloads (C111_open_fails). Proved for all executions: nothing is left after a failed verification if the servers answer; what is stored was verified and written; exactly what remains in the other cases. |
| C112 | Clearing performance records removes exactly those asked for | partial | Perf/ClearProps | Refuted in general (C112_statement_fails, for every cursor). Proved for all sequences of puts and clears by both conditions over names none of which starts another, with a cursor that goes on rightly; for one clear with any cursor; for the etcd store with an action named. |
| C113 | Storing a shard is all or nothing | partial | Object/RaceProps | Refuted (bodies that break off, two writers at once, readers during a write). Proved for all interleavings of any number of requests: commits, deletions and reads without PUT; PUTs with whole bodies if no file is opened while somebody else writes; shards that fit into one buffer even if several write at once, except that a reader may get nothing. |
| C114 | A kernel that insists on alignment refuses no read or write of a shard | partial | Object/DirectIO | Refuted for reads of fewer than 32 KB whose length is not a multiple of the block size (C114_statement_fails). Proved: exactly which reads are answered; all writes are accepted if the buffer is aligned. |
| C115 | The content cache of a data server neither outlives nor misrepresents the shard | partial | Object/CacheRace | Refuted (a deletion before the goroutine of an earlier request has run; a read during a write). Proved for all interleavings: the cache holds only the whole shard if no request reads the file while it is written; nothing is delivered without a file if deletions begin when nothing else is going on; shards above the limit are never cached. |
| C116 | The lists of the web console show the selected page, and every page can be selected | partial | Ui/Pager | Refuted (a search keeps the selected page and can leave the pager without effect; a late answer replaces that of a later request). Proved: the selected number is always on display; exactly when every page can be chosen and that otherwise no control has an effect; the rows are those of the selection if nothing is chosen while an answer is awaited; the page is the one that the administration server cuts out. |
| C117 | Who types the user name and password of the cluster is signed in at the web console | partial | Ui/Session | Refuted: the password is sent as user name, so that only clusters where both are the same can be signed in at. Proved: exactly when the dialog closes; the store and the header carry what they are given; refused credentials are never kept; none is sent after signing out. |
| C118 | The administration server does what the user chose in the web console | partial | Ui/RequestsProps | Refuted for names with %, ?, #, &, dots, backslashes or a blank at the end, each with what happens instead. Proved for all other names, up to the request that the API server reads and the bucket that is removed. |
| C119 | The page of the metadata servers shows the slots as they are and migrates what was chosen | partial | Ui/SlotsProps | Proved that the bars are the routing table, that a text is a list of ranges exactly if both the form and the server accept it, and that nothing else is migrated. Refuted: the form lets other texts pass, gaps move bars, and with raft a click chooses a name that is no server's; the cases in which these parts hold are proved. |
| C120 | The charts and messages of the web console show what the servers report | partial | Ui/Charts | Each part is refuted: three or more servers, servers started at different times, alarms before the first click, the pie after the first answer. Proved: what a point is made of for all timelines, the mean for one or two servers with common times, the bounds of every point, the messages after a selection, the sums. |
| C121 | The dialogs of the page of buckets do what they show | partial | Ui/Buckets | Proved for all executions: what is removed was chosen and every request carries what its dialog showed. The other parts are refuted and proved under the conditions under which they hold (nothing typed into the dialog of a row, no deletion given up, no request on its way). |
| C122 | Requests that use the drive table of a data server at the same time do not disturb one another | partial | Object/DriveRace | Refuted for requests that overlap with the first selection after an update. Proved for all interleavings: nothing but drives of the update, no wrong positive answer, no panic; everything is right until the first selection begins, and after one selection that ran alone, however many requests overlap then. |
| C123 | A map that several goroutines use is not written while another goroutine uses it | partial | Conc/Maps | Refuted for the service lists (combine), the selectors and the figures of the admin server. Proved for all histories: the four disciplines (guarded, writers guarded, one writer, read only) and for each map the operations that keep to one. |
| C124 | Errors are printed at every log level and mailed exactly once | partial | Config/Logs | Proved: errors are printed at every level; every serious entry has exactly one mail, sent, lost or under way, and when the process does not end and SMTP does not fail all are sent. Refuted: the last message of a process, the admin server, transaction times at level trace, messages as text. |
| C125 | What was read from the metadata database stays what it was | partial | Meta/Pages | Proved: a slice is right until its page is used again, which takes two write transactions and no open reader; with copies FindByHash and migrateBuckets are right for all histories; as they are, they are right with at most one stale entry, and before the first removal. Refuted: two stale entries, removals while buckets are sent, values of buckets. |
| C126 | A list without error shows what every server has | partial | Admin/Gather | Proved: an answer without error has the parts of all servers that did not fail, an error is the one reported first, without failures there is no error; with the handler waiting first no failure is lost. Refuted: for every set of failures an answer without error is possible. |
| C127 | Reads are spread over the members of a group | partial | Api/Spread | Proved: a server of the list is chosen. Refuted: the choice depends on the second and the list only, so any number of reads in a second goes to one member; with the seed set once the numbers are used one after the other. |
| C128 | Entries of different kinds in the cache of a data server are kept apart | partial | Object/CacheKeys | Proved (refinement): for all requests whose names are neither identifiers nor marks, which is so for requests of the API servers, the cache is equivalent to three tables. Refuted for other names: records are shown, forged, and used to read and write any file. |
| C129 | A data server touches only the files of its storage directories | partial | Object/Escape | Proved: confinement and noninterference for all sequences of operations whose names are components of paths, which holds for requests of the API servers. Refuted for other names: every file can be read and replaced. |
| C130 | The console downloads the version whose button is pressed | partial | Ui/Versions | Proved: downloads are right if no request for versions is sent while another is on its way; what is asked for in general. Refuted for overlapping requests: a version of another object is downloaded. |
| C131 | The database file and the log, as bytes, answer like records | proved | Meta/EncodedLog, Meta/EncodedProps | Refinement of the store of records by the store of bytes, and of the log of commands by the log of bytes, for all histories whose fields fit their Go types. |
| C132 | A shard that was acknowledged survives a loss of power | partial | Object/PowerProps | Refuted for losses of power. Proved: ends of the process lose nothing; what is on the drive stays and is never changed; with ordered write-back shards committed by renaming are whole or absent; a commit that syncs keeps the full statement for uploads through temporary files. |
| C133 | A replica that cannot write its database does not go on without the entry | partial | Meta/Faults | Proved without failures (the state machine of C27), up to the first failure, and for failures of entries without effect. Refuted otherwise. |
| C134 | The space of contents that no version refers to is given back | partial | System/Space | Refuted: nothing is ever deleted. Proved: files never change or vanish, so no referenced content is deleted either. |
| C135 | A resumable upload is recorded if and only if its content has the announced digest | partial | Api/BigDigest | Refuted: with checksums nothing is ever recorded. Proved: nothing with a wrong digest is recorded then (because nothing is); the repaired comparison is right. |
| C136 | An erasure coded object survives losses of power | partial | Object/PowerCode | Refuted: one file that ends within a block makes the object unreadable, and files cut at the same place deliver wrong bytes. Proved: files cut at the end of a block or not at all; a decoder that takes pieces of the wrong size for missing, for every cut. |
| C137 | A replicated object survives losses of power | partial | Object/PowerCopy | Refuted: a cut copy hides the whole ones after it, and repairing from it forgets them. Proved: kernels that write back in order; a reader that takes short copies for missing, for every cut. |
| C138 | The capacity shown for the data servers is that of the drives they store on | partial | Object/DiskInfo | Refuted: the page adds up the root directories of the machines. Proved: the sizes of one file system for every report; the page for servers that store on the root of a machine of their own; the page if servers report the drives of their tables. |
| C139 | A shard is not lost by moving it | partial | Object/PowerMove | Refuted: the receiver answers before anything is on its drive, and the sender deletes. Proved for all histories: nothing is lost until the deletion, nor if the receiver keeps its power after its answer or its kernel wrote back; the statement with a sync before the answer. |
| C140 | Looking after the drives starts at once, keeps its pace and ends with stop | partial | Object/Ticks | Proved for all interleavings: the pace, the updates owed, silence once stop was seen. Refuted: the start can wait for ever, updates can follow stop, and the goroutine and the ticker of every start stay for ever. With a feeder that watches for stop everything ends. |
| C141 | An answer that looks like an object is the object | partial | Api/Cut | Refuted: after the first byte every error is answered with 200 in order, before it by the API server too. Proved: what clients get for every failure; the object while nothing fails, through all hops; the statement for handlers that end the connection. |
| C142 | Writes accepted while slots move are not lost | partial | Meta/MovingWrites | Refuted: writes under way when the migration starts, writes between lines 251 and 262, and writes of a source whose table is old are answered with success and missing at the new owner. Proved: nothing else is missing; the statement for a source that waits for writes and leaves migrate-to last. |
| C143 | An object is found while its slot moves | partial | Meta/MovingReads | Refuted: from the removal of an object on, and until its table is renewed, the source answers reads with not found. Proved: answers before the removal and answers of the target are complete; the statement for a source that removes last. |
| C144 | An upload is recorded whole or not at all, and never hides behind an older one | partial | Api/Half | Refuted: an upload that fails between its two calls leaves an object without version; lost answers leave versions of failed uploads. Proved for all executions: acknowledged uploads stay or are followed by later ones, the newest version is never removed; the other two parts without failures; the first part for one call. |
| C145 | Discovery recovers from outages and ends when it is closed | partial | Registry/Watch | Refuted in all three parts: changes between two watches are never learned, a failed first read ends discovery of the service, Close ends nothing. Proved: while a watch works all changes arrive and correct what was wrong; all parts for a goroutine that reads the list in every round. |
| C146 | Requests that continue one upload at the same time do not spoil it | partial | Object/Overlap | Refuted: parts that are sent twice at the same time are appended twice and committed; only the first data server is asked for the size. Proved: requests one after another, for any numbers of shards, blocks and requests; the statement for appends that name their place. |
| C147 | A lost shard is stored once again | partial | Object/Recopy | Refuted: the server of a repaired shard is never recorded, so reads store it again and again. Proved: reads of whole objects write nothing; the statement if the server were recorded and none stops. |

## Disagreements between code and properties found

Proved in the model (theorem in parentheses):

* Versions are compared as text: the latest of ten versions is the ninth (`C17`), the eleventh upload removes version 10 (`C18`), version pages overlap (`C25`).
* The upload id of a removed version stays blocked (`C22`); lookup by hash returns other versions as well (`C21`); the total of a listing is not the number of matches (`C26`).
* A parallel group may lose the error of a task (`C54_error_lost`), hence uploads may be reported as successful although one server failed (`C38_lost_error`, `C39_lost_error`).
* An object shorter than the number of data shards is never uploaded (block size 0, endless loop); changing the configured block size makes stored objects unreadable (`C33`).
* Blocks that are not multiples of 4096 bytes per shard are corrupted by the data server's padding (`C48`, `C33`); the default of three data shards gives such blocks (`C66`).
* Range reads of replicated objects end with padding (`C36`); a range read repairs lost copies with the tail only (`C37`); reads with an offset are cached as whole objects (`C50`).
* Resumable uploads: acknowledged bytes are dropped, shards diverge after partial failures, the version is recorded before the commit (`C40`); prescribed copies are ignored (`C60`); the layout differs when read (`C64`).
* Two answers for the same shard make `LocateObject` report success with an empty location (`C41`).
* Digests announced by clients are not checked for their length (`C42`); the authentication callback is asked about the wrong bucket (`C65`); a failed read at start overwrites the stored credential (`C43`).
* Several writes bypass the replicated log (`C28`) and the slot check (`C61`); a snapshot restore may lose a write (`C29`); replaying a log after a restart changes the store (`C62`); cached reads can be stale for ever (`C30`).
* Migration between metadata servers: interleavings that leave a server in the migrating state or let it publish slots while migrating (`C31`); after failures the slot table may name the wrong server; slots moved away and back lose all versions (`C32`).
* The shard path database never finds a single recorded path (`C51`); a deleted shard may exist again by a late mark (`C67`).
* Rebalancing exceeds its quotas (`C53`); a moved shard may be deleted while the metadata names the old server (`C68`).
* Discovery: events between first read and watch are lost, `_` in a group or service name makes the mapping panic, ids containing `_` lose their role (`C55`).  One failed lease grant unregisters a server for ever (`C69_stuck`).
* Errors of listing and removing versions always become 500, malformed bodies and servers in migration as well; `ServiceUnavailableMsg` answers with status 200 (`C74`).
* `grpcapi.UpdateVersion` is always refused because the version number is not sent; versions of empty objects are refused with 500; numbers of shards above 2^31 are cut (`C75`).
* Performance store: queries without conditions return garbled actions, clearing a kind that occurs always fails (`C70`); the collector's memory is unbounded while its store refuses (`C71`).
* Admin server: an incomplete sample or a failed first read ends the process; the overview shows one server's timeline as the average of its service; one unreadable sample fails the whole server page (`C76`).
* `graceful.Recover` and `DoneGroup.Done` log with `Panicf`, which panics again: no panic is ever contained and no group gets the error of a task that panicked (`C77`).
* An orderly shutdown of a group's leader lets the next leader publish the slots of its own, possibly old, configuration; a leader that joins another group overwrites the slots of that group; both lead to slots with two owners, and then no routing table can be built (`C78`).
* `AddVoter` never records new nodes, `RemoveFollower` never removes the first one, `JoinLeader` asks the new leader to remove the server from the old group; `Bootstrap` fails for one malformed node and makes a useless group without nodes; the separator of `NODES` in the environment is the comma that is part of every node (`C79`).
* Temporary files of ended uploads stay for ever unless the mount point is `/`, because the cleaner forgets the mount point; also after a restart, and after the server left and joined the cluster once (five notifications fill the channel of the stopped cleaners and block all later ones); a commit with compression never removes its source (`C80`).
* `GetEdgeProvider(true)` may return a table read before the call: of two refreshes running at once the first to swap wins, and the other answers with its table (`C81_reload_fails`). Without `reload` a table may be up to 301 seconds (plus the time of one refresh) old, so a moved slot is routed to its former owner meanwhile (`C81_stale`, bound `C81_age_partial`).
* The etcd performance store loses what it is given (`C82`). Every record read back has the digits of its time as kind and cost 0, because the cost is written as `1.5ms` and parsed as an integer (`C82_kind_lost`). `Size` returns before its goroutines have counted, so the limit of 100000 is not enforced (`C82_unbounded`). Records of one millisecond overwrite each other (`C82_collide`). Removing old keys may remove the key of the lock held meanwhile (`C82_lock_removed`, for lock keys that sort first below the prefix).
* If `Txn.Then` panics when called twice, every flush of two or more records to etcd panics, and a collector that flushes when full never stores anything again (`C82_panics`, `C82_stuck`). The behaviour of `Then` is a hypothesis of these theorems: the source of the etcd client was not available.
* The administration server never checks a token itself: `RequireToken` only asks that the header is not empty, so slot migrations, joining and leaving, listings and configurations of servers are open to anyone who sends any `Authorization` header (`C83_any_token`), and the `/api/server` pages to everyone (`C83_open`). Only operations passed on to an API server are checked there (`C83_forwarded_partial`).
* Sessions of the administration server have no effect: every request overwrites the stored token with its own header, also with an empty one (`C83_session_useless`), and logout does not save the cleared session (`C83_logout_keeps`).
* `PutBucket` and `DeleteBucket` put the bare name into a URL, so `DELETE /v1/bucket/a%3Fb` removes the bucket `a`, keeps `a?b` and answers success; the same holds for `#` and for updates (`C84_deletes_other`, `C84_updates_other`, `C84_query_fails`). Names with `%` reach another bucket or none (`C84_decoded_twice`, `C84_percent_stuck`).
* The API server sets `UseRawPath` without `UnescapePathValues`: a segment in an unusual but valid spelling is not decoded when reading and is when deleting (`C84_spelling`, `C84_undecoded`).
* gin looks up fields without a tag by their Go name, and `PutReq`/`GetReq` bind the query last: `?Bucket=b&Name=y` replaces the bucket of the header and the name of the path after the callback was asked about these, so whoever may use one object reads and overwrites all (`C85_reads_any`, `C85_writes_any`, `C85_bypass`; unlike `C65_host_bypasses_callback` without touching `Host`).
* `BindAll` forgets every error but the last: `compress=yes` is no compression for `POST /big` but refused by `PUT` (`C85_big_unreadable`), an unreadable `version` means the latest version for `GET /metadata` (`C85_meta_version`), and `"locateIndex": "2"` overwrites place 0 (`C85_locate_index`). A negative `size` is accepted for resumable uploads. The same forgetting is what makes a header `Range` usable at all: the second binding fails on it (`C85_get`).
* Names go into the URLs of data servers unescaped: a temporary object called `a?ID=b#` makes the data server commit `b` (`C86_other_name`). Names of shards and identifiers never contain such characters; a forged resume token may.
* `GetFileCompress` seeks in the compressed file: a range read of a compressed replicated object fails or delivers nothing or other bytes (`C87_range_fails`, `C87_range_empty`). Erasure coded objects seek by reading and are not affected.
* `Patch` of a resumable upload does not record `Compress`, but the shards are committed with the flag of the token: with compression the object is lost (`C87_resumable_lost`).
* The administration server escapes names when uploading (`url.PathEscape`) but not when downloading or listing, and the API server does not decode unusual spellings: a file `a,b` is stored as `a%2Cb` and cannot be downloaded (`C88_upload_renamed`, `C88_round_trip_lost`); downloading `a?b` delivers the latest version of `a` (`C88_download_query`), `a%20b` delivers `a b` (`C88_download_encoded`), and `x?Name=y&Bucket=c&` the object `y` of the bucket `c` (`C88_download_elsewhere`). Deleting the bucket `a?b` deletes `a` (`C88_deletes_other`).
* The capacity a data server reports drifts from what it stores: compressed commits are never counted (`C89_compressed_commit_uncounted`), compressed uploads count the bytes of the request but deletions those of the file (`C89_compressed_put_drifts`), two overlapping deletions or a deletion before the goroutine of a commit make it negative (`C89_double_delete`, `C89_commit_delete_race`), each repeated announcement of a received file adds it again (`C89_finish_again`), and a start counts directories (`C89_warm_up_wrong`). A server whose counter is too small leaves files behind when it leaves.
* A data server that has left cannot join again without a restart: the `Lifecycle` object made at start is closed by the first leave, and every later loop revokes the lease it has just been granted (`C90_rejoin_lost`). A join that arrives while the server leaves starts tasks that are never stopped, because the leave clears the list of functions at its end (`C90_overlap_leaks`). A join asks for its own registration before the goroutine that registers has run (`C90_join_too_early`).
* Leadership changes of a metadata server are handled in goroutines that may overtake one another: a server that wins and loses leadership may stay registered as master (`C91_wrong_role`) or in both roles (`C91_both_roles`); a lease granted during a change does the same (`C91_lease_meanwhile`); a change before `RegisterLeaderChangedEvent` is never noticed (`C91_missed_change`).
* Resume tokens are neither signed nor remembered: a client can make up one and record any version in any bucket, read-only or not (`C92_forged`), let the API server send requests to any address (`C92_any_address`), end its process with fewer files than shards (`C92_crash`, with C77) or keep it in a loop with blocks of no bytes (`C92_spin`). A token whose commit failed records a second version when it is sent again (`C92_twice`).
* `StatSyncer` starts its ticker before the first lease is granted and puts with `LeaseID` 0 until then, which in etcd means *no* lease: a server whose first lease is a minute late and that is then killed leaves its statistics in etcd for ever (`C93_permanent`).  Nobody waits for the ticker goroutine at the stop, so a tick in that moment puts the statistics again after `Clear` (`C93_stop_statement_fails`).
* The notifications of two leases run in goroutines without any order.  When the older one comes last, the registration is moved back to the old lease and goes with it although the new lease is kept alive (`C93_late_request`), or `LeaseID` keeps the old lease and no later tick refreshes the statistics (`C93_stale_lease`, `C93_stale_happens`).
* `graceful.ListenAndServe` only logs that a server cannot listen; the server registers and stays registered exactly as if it served (`C93_listen_ignored`).
* The total beside an object page of the administrator that is beyond the end is 0, beside a bucket page it is not (`C14_totals`).
* `Persist` opens the configuration file with `O_TRUNC` and writes it when the encoder is closed: a process that ends in between leaves an empty file, and the server never starts again because required fields are missing (`C94_truncated`, `C94_stop_statement_fails`).  Nobody waits for the goroutines that persist, so an ordinary stop directly after a migration may do it, although `Run` persists once more at its end (`C94_quit_statement_fails`).
* `SaveToEtcd` assigns the slots inside its goroutine: of two saves the older may assign and persist last, and a server that is killed restarts with slots it gave away (`C94_last_slots_statement_fails`; a server that is told to stop reads its slots once more).
* Server id and data directory are derived from the address of the machine until the configuration is written for the first time: if the process is killed before and comes back with another address (a container) the server starts with an empty directory (`C94_id_statement_fails`).  An environment variable for the group or the nodes overrides what was persisted (`C94_env_statement_fails`).
* `DataSize.String` of 0 panics (index of the logarithm of 0), and rounds to whole units: a cache of 1536 MB is read back as 2 GB; 1024 PB and more is written as text that cannot be parsed.  With a cache size of 0 from the environment the first save of slots ends the process in a goroutine without recovery (`C94_size_zero`, `C94_size_written`, `C94_size_unreadable`, `C94_zero_size_kills`).
* `Shutdown` of the data server and the metadata server starts goroutines that stop their two servers, counts them in a group, and never waits for the group: the process goes on to close its databases and ends at once, cutting off the requests under way (`C95_store_statement_fails`).  The return also cancels the context of the shutdown, so that gRPC calls are aborted instead of having 15 seconds, and requests may be accepted after the databases are closed (`C95_store_no_time`).  The errors of both are lost.
* `getConn` reads the map of connections before taking its lock: a first contact with one server while another is asked for may end the API server with `concurrent map read and map write` (`C96_race`).
* `GetAverageIOStats` adds `ReadTime` to itself and never adds `WriteTime`: both are reported as 0 (`C97_times_zero`), and without any drive it divides by zero, which ends the process once a minute after start (`C97_no_drives`).
* `io-first` converts the cumulative weighted time to 32 bits: from 2^31 ms on a server counts as less loaded than all others and gets every new object (`C97_wraps`, `C97_least_statement_fails`); so does a server that cannot read its counters (`C97_silent_preferred`).  `Pop` reads the table without the lock under which `fetchIoInfo` writes it.
* The page `/config` of an API server panics unless `object.distinct-size` is set: it has no default, and `DataSize.String` of 0 panics (`C98_default_fails`).  The URL of the authentication callback is shown with any credentials in it (`C98_callback_shown`).
* Metadata is written at the master of a group and read at a random member, which answers from what it has applied: an object that was just stored may be not found, and found and not found in turn (`C99_statement_fails`, `C99_back_in_time`).
* The performance collector does not wait for the goroutines of `PutAsync` when it is closed: their records are lost (`C100_statement_fails`). A `Close` whose flush fails, or that comes before the background loop has begun, does not end the loop (`C100_loop_goes_on`). After a flush that failed the loop waits a whole interval (`C100_failed_waits`). `flush-interval: 0` ends the process (`C100_no_interval`), and a local database that cannot be opened ends the server at start (`C100_created`).
* The interceptor that should turn a panic of an RPC handler into an internal error calls `graceful.Recover`, which panics again: one RPC that panics ends the metadata or data server (`C101_rpc_panic`). HTTP handlers are not affected (`C101_partial`).
* The administration server throws the response of `LeaveCluster` away: a metadata server that refuses to leave its group is reported as having left, with 200 (`C102_statement_fails`, `C102_done`). A body that is no JSON is answered with 500 (`C102_errors`); one entry in etcd that cannot be read makes the page of the slots fail for all groups (`C102_slots_fail`).
* `PUT /metadata/:name` of a metadata server drops the error of the body: an update with a body that is no JSON is carried out with 200 and the object loses its name (`C103_statement_fails`, `C103_bad_update`). A version that is no number stands for the latest one (`C103_bad_version`, `C103_latest`), also in an update or a deletion, where it is version 0; a negative version deletes all of them (`C103_carried_out`). On the leader of a group the creation of an object that exists is answered with 201 and not carried out (`C103_created_twice`, `C103_leader`). A bucket called "list" cannot be read (`C103_list_bucket`). An object is answered with 200 and without version if the version asked for does not exist (`C103_missing_version`).
* The key on which all searches ask, "good.fs.location", has no group in it, so that data servers of another cluster that uses the same etcd answer, and an object is recorded as being there (`C104_other_group`). Two servers with one shard make a search succeed without anybody having another shard (`C104_shard_missed`). An answer that comes after the end of its search brings the key of the search back, and nothing ever removes it (`C104_left_over`, `C104_left_for_good`). A data server whose watch is closed misses the questions put before it watches again (`C104_rewatch_misses`).
* A repaired shard is written to a server that is never recorded, because the metadata server refuses every `UpdateVersion` (C75). So two shards lost one after the other make an object with one parity shard unreadable although the first was repaired in between (`C105_repair_does_not_count`), while what counts is only how often recorded files were lost (`C105_losses_partial`).
* A client that goes away before the end of a GET makes a truncated or empty file be committed under the name of a shard (Close commits what was written so far); the next upload of the same content finds it by name and records it (`C105_partial_read_poisons`). The same happens with a GET to the end of a version whose uploader announced the digest of a stored content with a smaller length; the next upload of that content then reads as other bytes with all servers up (`C105_short_announcement_poisons`, [1,2,3] reads as [1,0,3]).
* An upload that found the shards of a stored content records the places it found; when these are moved before the version is added, the version names servers that no longer have them, although every move was recorded (`C105_stale_location`).
* `raft add_voter` with one voter written wrongly sends a blank voter in its place; the server adds the others and answers with a failure (`C106_add_half`). An index that is no number is sent as 0 (`C106_number_misread`), and the server passes 0 to raft anyway, so that the index never protects (`C106_index_ignored`). `demote_voter` removes the server. A `bootstrap` with a server written wrongly fails as a whole (`C106_bootstrap`).
* A data server without `server-id` and `server-ip` that is started at another address has none of its objects, because its directory is named after the address (`C107_moved`); a metadata server founds a new group instead (`C107_new_group`), and with a configured id its group still knows it at the old address (`C107_stale_address`). A configured `server-ip` is registered but not used in the group (`C107_raft_address`). With an empty list of nodes every server founds a group of its own (`C107_group_statement_fails`). A machine with only a public IPv6 address registers as 127.0.0.1 (`C107_no_ipv6`).
* The console redirects to `/?redirect=<path>&<query>` without escaping the path, so a path with `&`, `#`, `%` or `+` comes back as another one (`C108_unescaped`). A build without `index.html` redirects the root to itself for ever (`C108_circle`). Every path that begins with `/api`, as `/apidocs.html`, is no file (`C108_shadowed`). Every file whose name ends in `config.js` is replaced by the port (`C108_replaced`). A range of `config.js` that does not start at 0 is answered with its beginning or with status 416 (`C108_config_range`).
* The old database file is removed by a goroutine that waits for readers; if `Stop` is faster, the current database has been renamed to that path and is removed (`C109_race`). After a crash the current database stays behind under another name and the server starts from an empty or old file, so only the snapshot of raft helps (`C109_crash`, `C109_recovers`). Every replacement adds `_replace` to the path, so after a number of snapshots in one run no more can be taken (`C109_path`, `C109_full`).
* Bodies of answers stay open: of every agreement of the callback validator, so with callback authentication each authorised request costs a connection (`C110_verify`); of every peer asked for its capacity (`C110_peers`); of every answer other than 200 to a download, again at every further read (`C110_copy`, `C110_again`); of all shards when a client breaks off a Reed-Solomon download, because its `Close` does not close the readers (`C110_broken_off`); of `PostTmpObject` when its answer cannot be read, and of successful changes in webapi/meta_server.go, which nothing calls (`C110_careless`).
* Nothing takes back what a failed upload left: temporary files stay when one server refuses the upload or the last block cannot be written (`C111_refused`, `C111_unflushed`), and stored shards stay for ever when one commit or the saving of the metadata fails (`C111_orphans`). Every error returned by `WaitUntilError` costs a goroutine, which hangs at `ch <- struct{}{}` (`C111_wait`). When a degraded download cannot be opened, the goroutines that look for the other shards hang at their channel and the uploads begun stay (`C111_open_stuck`, `C111_open_hang`).
* `LocalStore.Clear` by one condition fails exactly when there is something to clear (`C112_one_refused`); by both conditions it also removes, from one of the two tables, kinds that start with the one named (`C112_both_takes_more`); without conditions it asks the closed database for its path, and if that is gone the store refuses every call until the process ends (`C112_all_fails`). `EtcdStore.Clear` without an action calls `Txn.Then` once per action, which panics on the second call if the client is as believed (`C112_etcd_panics`). No caller of either was found in the servers.
* `PUT /objects/:name` of a data server, with which the API server restores lost copies, writes directly under the final name. A body that is cut off counts as whole, because `AlignedReader` turns `io.ErrUnexpectedEOF` into the end of the stream: the request succeeds, and the part is delivered as the shard (`C113_cut`). A `PUT` that fails leaves its part behind, and all later requests to store the shard succeed without storing it (`C113_failed_stays`). Two `PUT`s at once, as two reads of one damaged object cause them, both append to one file, which then begins with the first buffer twice (`C113_mixed`, `C113_whole_fails`). A reader that comes while the file is being written gets a part of it, or nothing, with status 200 (`C113_read_early`).
* `GetFile` of a data server reads shards of fewer than 32 KB with one `read` of exactly the requested length from a file opened for direct I/O. Where the kernel insists on aligned lengths (ext4, xfs) the read fails with `EINVAL` unless the length is a multiple of the block size: the shard was stored and cannot be read (`C114_read_iff`, `C114_shard_refused`); with 4 data shards this concerns every object of up to 2044 bytes, for instance (`C114_small_objects`). Reads from an offset that is not a multiple of 4096 switch direct I/O off and succeed. Writes are always aligned in position and length (`C114_writes`), but the buffer that the code aligns for them is not used, since `io.CopyBuffer` prefers `os.File.ReadFrom` (`C114_write_address`). A negative `Size` header makes the handler panic (`C114_negative`).
* The data server puts what it sent or received into its content cache in a goroutine, after the request was answered. If the shard is deleted in between, the entry comes after the deletion: nothing is stored any more, and `Get` delivers the content until the entry is evicted (`C115_late_set`, `C115_late_put`). Meanwhile requests to store the shard are answered with success and store nothing, since `Exist` takes the cached content for the shard: after the eviction the shard is lost (`C115_lost`). A read that comes while the shard is being written puts a part of it into the cache, which is delivered as the shard, with status 200, long after the whole was stored (`C115_early_read`).
* The lists of the web console keep the selected page when something else is searched for. If fewer objects are found than the pages before hold, nothing is shown (`C116_search_empty`), and since `MetadataPaging` reports a total of 0 for a page beyond the last, the pager has no page left and none of its controls has an effect: from any page but the first, the objects found cannot be reached (`C116_search_stuck`). The same happens in the list of versions when an object with few versions is opened after page 6 or later of another (`C116_reach`, `C116_stuck`). An answer that arrives after that to a later request is shown in its place (`C116_late_answer`).
* The dialog of the web console passes the password as user name (`setAuth(account.password, account.password)`): the user name that is typed plays no part (`C117_name_ignored`), and unless the user name of the cluster is its password, nothing that can be typed signs anyone in (`C117_locked_out`). Whoever is signed in sees their password in place of the user name at the top of every page, and it is kept readable in the browser's storage (`C117_password_shown`). After signing out the console still sends the word `Basic` as token, which the administration server takes for one (`C117_signed_out_served`).
* The web console puts names into addresses without escaping them. Removing the bucket `%61` removes `a` (`C118_decoded`), removing `a?b` or `a#b` removes `a` (`C118_removes_other`), removing `a ` removes `a` (`C118_blanks`), and each time success is shown. A version of `a?b` that is downloaded is the latest of `a` (`C118_download_query`), and a bucket named `b&Name=c` leads to the object `c` (`C118_download_amp`). A file `a,b` that was uploaded with the console is listed as `a%2Cb` and cannot be downloaded with it (`C118_uploaded_comma`). Buckets named `.` or `..` cannot be removed (`C118_dots`).
* The form for migrations lets `0-100,` and `0-100200-300` pass; the metadata server refuses them (`C119_form_fails`). If slots without an owner lie before a range, its bar stands too far to the left (`C119_bars_fail`). With raft a click on a bar chooses the name of the group as the source server, which the administration server refuses as unknown (`C119_click_fails`).
* The usage charts take the mean pairwise: of three servers the last one counts half (`C120_three`, `C120_order`), and samples are added by their place instead of their time (`C120_shifted`). The first page shows no alarm of etcd until a member is clicked (`C120_alarms_hidden`). The pie of a capacity card keeps the values of the time when it was opened (`C120_pie_fails`): the watcher watches a replaced object and sets an option `serise`.
* On the page of buckets, what was typed into a dialog that was then given up stays in the table (`C121_table_fails`); after a deletion was given up the dialog for a new bucket has the name of that bucket (`C121_form_fails`); the answer to an earlier request closes the dialog that is open now (`C121_closed_fails`).
* `spaceFirstBalancer.Select` sorts the shared drive table in place without a lock. A search that overlaps with a selection misses files (`C122_search_misses`) and a listing misses drives (`C122_listing_misses`); two selections that overlap lose a drive from the table until the next update (`C122_drive_lost`, `C122_stays_lost`) or choose the drive with the least free space (`C122_wrong_choice`). Sorting a copy, or at the update, would remove all of this.
* Maps written without the lock that guards them elsewhere. `serviceList.combine` fills the list of a service without its lock while requests read it (`C123_combine_race`); `NewEtcdDiscovery` writes the map of the services while the goroutines it started read it (`C123_construction_race`); the selectors of the API server read their figures without the lock under which another request writes them (`C123_selector_race`); `watching` of the admin server writes both maps of the figures without the mutex that `init` uses, and requests iterate over them (`C123_stat_race`). The Go runtime answers `fatal error: concurrent map read and map write`, which ends the process and is not caught by `graceful.Recover` or by gin. Adding, removing and listing servers is guarded (`C123_lists_partial`), so is the set of errors of a repair (`C123_errors`).
* The mail about a fatal message or a panic is sent by a goroutine of the process that is about to end: when it ends first, the mail is never sent (`C124_last_words_lost`); as `graceful.Recover` panics again (C77), this concerns every panic. The admin server never sends mails, though its configuration has the section (`C124_admin_silent`). Level `trace` prints less than `debug`: the metadata server tests `IsDebug`, which is false at `trace` (`C124_trace_prints_less`). Unknown level names, among them `warning` and `fatal`, silently mean `info` (`C124_other_names`). The message is put into the HTML of the mail unescaped (`C124_markup`).
* Keys of bbolt are used after the transaction ended. `FindByHash` removes stale index entries one by one while it goes through keys that are slices of the page being replaced: the second removal may use this page again, and with three entries of which the first two are stale the third key reads as zeros and the request panics (`C125_find_panics`). `migrateBuckets` removes buckets while it still has slices of the keys of others: a bucket of a slot that stays is sent to the other server and removed, a bucket of a moved slot is not sent, and no error is reported (`C125_wrong_bucket`); `C125_shift` says which key a slice shows. With copies of the keys both are right for all histories (`C125_find_copied`, `C125_migrate_copied`).
* Names with `/` reach the metadata server, because the query parameter `Name` replaces the parameter of the route (C85): `PUT /v1/objects/c` in bucket `a/b` and `PUT /v1/objects/c?Name=b/c` in bucket `a` are for different objects and share key, metadata and versions (`C47_shared`, `C47_statement_fails`).
* Pages and numbers of the administration server may leave out servers without saying so: if all servers have answered before the handler comes to `WaitUntilError`, the select may prefer "done" to the error, for every set of failures (`C126_error_lost`): a page then shows the buckets of the servers that answered, and their number as the number of all (`C126_page_hides`), and `/server/stat` answers 200 with null for a service (`C126_stat_null`). The error is not lost if the handler waits before the first failure (`C126_waiting_partial`), and looking into the channel first would repair it (`C126_repair`). For etcd it is the other way round: one endpoint that does not answer hides the states of all others (`C126_etcd_hides`).
* The random selector sets the seed of the process to the current second before each choice. All reads of a group in a second therefore go to one member, from every API server whose clock shows this second (`C127_reads`, `C127_one_server`), reads of `m` seconds reach at most `m` members (`C127_at_most_one_per_second`), and requests at the same time help only as far as they are between the two calls at once (`C127_overlap`). Uploads are spread only because the list of servers has the random order of a Go map; with the same order they use the same servers (`C127_uploads`).
* The cache of a data server has one table for contents of shards, records of uploads and marks, and its requests need no login. `GET /objects/<id of an upload>` answers with the record (`C128_record_read`), `PUT` to such a name is acknowledged and lost (`C128_put_lost`), `GET /objects/LocateCache%23<name>` answers 200 with nothing (`C128_mark_read`). Worse, a record can be forged: the encoding of a record stored as the shard `TempInfo_x` is taken for an upload, so that requests for uploads read and extend any file of the server (`C128_forged`), and the cleaner is told to remove any file (`C128_cleaner`). With names of shards as the API servers make them the cache is equivalent to three tables (`C128_three_tables_partial`), in which uploads touch their own file only (`C128_own_file`).
* Names of shards are not checked before `filepath.Join`. The header `Name` of `GET /objects/<any>` and the query parameter `Name` of `PUT` take the place of the name in the URL (C85), and they may have slashes: `../../../../etc/passwd` reads any file of the machine (`C129_reads_any`, `C129_by_request`), a `PUT` makes a file in any directory (`C129_creates_any`), and the first message of `ReceiveData` replaces any file (`C129_replaces_any`). `DELETE /objects/.` removes a storage directory that is empty, after which every `PUT` there fails until the server is started again (`C129_remove_root`). With names that are components of paths, as all requests of the API servers have (`C129_own_requests`), nothing outside is changed or read (`C129_confined_partial`, `C129_nothing_read_partial`).
* The list of versions of the web console keeps the name of the object apart from the rows: `queryVersion` sets `versionReq.name` when the button is pressed and the rows when the answer comes. After `See Versions` of two objects in a row, the rows of the one are shown and `Download` asks for a version with the same number of the other (`C130_other_object`), for good if the answers come in the other order or the second request fails (`C130_stays`); the title of the dialog does not tell which object it is. With one request at a time every download is right (`C130_partial`), and always if name and rows are set together (`C130_repair`). A dialog that was closed opens again when a late answer comes (`C130_reopens`); the page is kept from object to object, so that an object with few versions seems to have none (`C130_page_kept`).
* The model of the metadata server on records loses nothing of the server on bytes: `C131_refines`, `C131_reads`, `C131_log`. A record that cannot be read makes every list that contains it fail as a whole (`C131_damaged`).
* Data servers never call `fsync` (the metadata servers do, through bbolt). A shard that was acknowledged can be gone after a loss of power (`C132_gone`), or be there with a part of its content (`C132_short`). (Files written with direct I/O are short only on file systems or drives that do not keep the order of data, size and name; compressed shards go through the page cache.) A short shard never heals: it exists by name, so that every later upload of the content is acknowledged without being stored (`C132_never_heals`), until the shard is deleted. If the kernel keeps the order of writes, shards committed by renaming are whole or absent (`C132_in_order_partial`), but those written under their final name, with `PUT /objects/:name` or as compressed commits, still may be parts (`C132_direct_part`). The end of the process alone loses nothing (`C132_process_partial`). Writing file and name back before the answer repairs it (`C132_repair`).
* A replica whose database cannot be written (drive full) answers the entry with status 500, which only the leader looks at, and applies the next one. From then on it differs: version numbers are counted by each replica, so an upload acknowledged as version 1 can be another one there (`C133_other_content`), and a restart, which applies the log again, leaves the numbers exchanged (`C133_restart_exchanges`). If the leader fails, the client is told that the upload failed, and the followers have it (`C133_error_applied`). An error of `Sync` at the end of a group is never reported, because no answer is nil then (`C133_sync_unnoticed`). Replicas agree up to the first failure (`C133_prefix`), failures of entries without effect are harmless (`C133_harmless`), and replicas that end at the first failure never differ by more than how far they are (`C133_repair`).
* No server ever deletes the shards of a removed version: `DELETE /objects/:name` of the data servers has no caller, and the metadata servers remove only records. A file once stored stays with the same bytes through every further step (`C134_never_freed_partial`), and from every state the removal of all objects leads to one without versions in which every file is still there (`C134_all_removed`). Deleting files that no version refers to would change no GET (`C134_repair`), but a collector must also respect uploads that found their content and have not recorded their version (`C134_repair_race`).
* With `checksum` configured no resumable upload can be completed: the comparison asks the servers for temp uploads by the name of the shard, while they are kept under ids, so the digest of what was read is the empty text (`C135_never_recorded_partial`); the upload is refused and its temp files are deleted (`C135_upload_lost`). Knowing the names would not help, because the digest of the content is compared with the name, which is the digest of another text (`C135_names_alone`). A (forged) token with an empty name passes the comparison, because an error counts as the empty digest (`C135_empty_name`). Without `checksum` nothing is compared (`C135_unverified`), and somebody who knows the digest of a content can put another one in its place: later uploads of the real content are deduplicated against it (`C135_poisons`). Reading by ids after the last block and making the name again from the digest is right (`C135_repair`).
* After a loss of power a shard may be a beginning of what was stored (C132). The decoder takes the end of a file for no error and hands the part of a block to `Reconstruct` as if it were the block. One file of any object that ends within a block is enough: whatever the number of parity shards and with all other shards whole, reading fails at that block (`C136_short_fails`, `C136_one_server`); the missing shard would be no problem. If all servers have kept the same part of a block (kernels write back pages, blocks have several), `Reconstruct` has nothing to object and bytes are delivered which the object does not begin with (`C136_wrong_bytes`). Files cut at the end of a block do no harm (`C136_blocks_partial`), and neither do kernels that write back in order (`C136_in_order_partial`). Taking a piece of the wrong size for missing would make the property true for every cut (`C136_repair`, `C136_power_repair`; the size that a piece must have follows from the size of the object).
* After a loss of power a copy may be a beginning of the object (C132). The reader takes the first copy whose server says that the file exists and never looks at its size, so what is delivered is the beginning that this copy has, without an error and with the status of a success, however many whole copies follow (`C137_first_copy`, `C137_statement_fails`). If copies before it are missing, the read stores the beginning at the replacements and records these alone: from then on every read delivers the beginning, padded with zeros to a page, and the whole copies are forgotten (`C137_spreads`, `C137_spread_short`, `C137_lost`). Only an empty copy does no such harm, because data servers refuse empty bodies (`C137_empty`). Taking copies with fewer bytes than the object for missing would be enough (`C137_repair`).
* The capacity that the console shows for data servers is the one of the root directory of their machines, never that of the drives they store on (`C138_blind`): with shards on a drive of their own the page shows free space when there is none (`C138_full`, `C138_statement_fails`), and several servers on one machine show its drive once each (`C138_counted_again`). The sizes of one file system are right (`C138_exact`) and add up for every report (`C138_adds_up`). Reporting the file systems of the table of drives would be right (`C138_repair`).
* Moving a shard deletes the copy that was on a drive in exchange for one that may only be in the memory of the receiver: `ReceiveData` and `FinishObject` never sync, so a receiver that loses power soon after loses the shard for good (`C139_lost`, `C139_between`, `C139_statement_fails`) although both servers acted on success. A loss of power before the answer is harmless: the size check finds it (`C139_answer`, `C139_until_deleted`, `C139_before_answer_partial`). Writing back before the answer of `FinishReceive` is enough (`C139_repair`).
* `ImmediateTick` (util.go:58-70) never ends its goroutine and its ticker: every time a data server opens, one more of each stays for the life of the process (`C140_feeder`, `C140_add_up`). If the ticker goes off before line 68 the feeder takes the only place of the channel and `ImmediateTick` waits for a reader that is only started after it (`C140_stuck`); with a period of a minute this needs a suspended machine. After `stop` updates can follow as long as `select` prefers ticks (`C140_late`), none once it was seen (`C140_quiet_partial`). The pace holds (`C140_rate`, `C140_burst`, `C140_exact`); watching for `stop` in the feeder too ends everything (`C140_repair`).
* Errors in the middle of a download are invisible to clients. `Get` of the API server only logs an error of `io.Copy` (objects_api.go:85-89): a part of the object is answered with 200 and ended in order, which no client can tell from another object (`C141_blind`, `C141_other_object`, `C141_statement_fails`); if the data server refuses the read or is gone, the answer is 200 and empty (`C141_nothing`). `Get` of a data server and `Download` of the administration server append the JSON text of the error to the bytes they sent (`C141_text`, `C141_console_text`), so a failing drive makes the text of an error a part of the object (`C141_drive`). `Content-Length` and `Accept-Ranges` are set after the body and never sent (`C141_headers`). Ending the connection after an error would be right (`C141_repair`, `C141_repair_works`).
* Writes are lost while slots move. The status and the table are looked at before a write is carried out, and nothing makes a migration wait: a write that passed before `migrate-to` and is carried out after its object was sent is answered with success and then removed (`C142_under_way`), a new object after `FilterKeys` stays behind (`C142_unlisted`). `AutoMigrate` leaves `migrate-to` (hashslot_service.go:251) before it records its slots (262), and writes pass in between (`C142_gap`); and because `Save` does not renew the table of the source, it accepts writes of objects that are no longer its own for up to five minutes after the end, however many (`C142_old_table`, C81). Without such writes nothing is lost (`C142_careful_partial`); waiting for the writes under way and leaving `migrate-to` last, with the new table, is enough (`C142_repair`, `C142_repair_works`).
* Objects are "not found" while their slot moves. `migrateMetadata` removes every object as soon as it was sent, although the source is the owner until the whole transfer is over; reads are allowed in `migrate-to` and answered with "not found" from the removal until the source has read a new table, up to five minutes after the end (`C143_not_found`, `C143_table`, `C143_statement_fails`); afterwards, until the target has read the table, both servers send the reader away (`C143_nobody`). Careful writers do not help (`C143_careful_fails`). Before the removal, and at the target, answers are complete (`C143_source_partial`, `C143_target_partial`, `C143_after`); removing after the table was recorded and renewed is enough (`C143_repair`).
* An upload of a new object is two calls, and nothing takes back the first one: if `AddVersion` fails, the object is recorded and listed without any version (`C144_half`, `C144_statement_fails`). If the answer of `AddVersion` is lost, the client gets an error and readers get the upload (`C144_lost`, `C144_clean_fails`); repeating it stores it twice, also in a bucket without versions (`C144_twice`). Holds for all executions: the newest version is never removed by the limit, though the version to remove is chosen from an old answer (`C144_latest`, `C144_kept`), and every failed upload can be repeated (`C144_again`).
* Discovery does not recover. The goroutine of a service ends if the one read at the start fails, and the service is never discovered until the server is restarted (`C145_gone`); a watch that was cancelled is opened again without reading the list and without revision, so whoever registered or vanished in between stays unknown, or known, until its entry changes again, for ever if it does not (`C145_missed`, `C145_parts_fail`); `success` is never set, and the goroutine goes on after `Close`, opening a watch every two seconds (`C145_forever`, `C145_rounds`). While a watch works every change arrives (`C145_right_partial`, `C145_change_partial`); reading the list with its revision in every round repairs all of it (`C145_repair_right`, `C145_repair_lives`).
* Nothing keeps requests with one resume token apart: a part that is sent again while the first request is at work passes the same check of the size and is appended a second time; the request that reaches the announced size commits the spoilt files and answers with success (`C146_twice`), and the shards may be in different orders (`C146_mixed`). `CurrentSize` asks the first data server only, so an empty request may commit while another server lacks the last block (`C146_early`, `C146_statement_fails`). One request after another is right (`C146_alone_partial`); appends that name their place, and asking all servers, would be right for any (`C146_repair`).
* The server of a repaired shard is never recorded (`C147_recorded`, C75), so after one loss every read that does not select the recorded server stores the shard once more (`C147_again`): `k` reads leave `k` files (`C147_grows`, `C147_statement_fails`), which no version names. Recording the server would keep one file while no server stops (`C147_repair`, `C147_repair_once`), but not when a server that stopped comes back with its file (`C147_outage`).

Seen while reading, not part of a theorem:

* metaserver migration: `cancel()` and `cc.Close()` directly after `CloseSend`; `migrateBuckets` uses bbolt keys after their transaction; `ReceiveItem` checks neither status nor slot; concurrent streams may close one channel twice.
* objectserver: `ReceiveData` defers the close of a nil file; a file name without `.` panics; the drive table is sorted in place while others walk it.
* apiserver: `StoreObject` may read metadata from a random peer.
* registry: `combine` writes the map without its lock.
